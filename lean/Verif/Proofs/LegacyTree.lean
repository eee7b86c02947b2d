import Verif.Model.Legacy
import Verif.Proofs.DT

/-! Structure of the legacy dimension tree. Nodes are intervals of modes. -/

namespace Model

/-- An interval of modes (first, last). -/
abbrev Iv := ℕ × ℕ

/-- The string of an interval. -/
abbrev ivStr (n : Iv) : Key := strOf n.1 n.2

/-- `Sub s e n p b`: in the tree over `s..e`, the node `n` has parent `p` and sibling `b`. -/
inductive Sub : ℕ → ℕ → Iv → Iv → Iv → Prop
  | left {s e : ℕ} (h : s < e) : Sub s e (s, (s + e) / 2) (s, e) ((s + e) / 2 + 1, e)
  | right {s e : ℕ} (h : s < e) : Sub s e ((s + e) / 2 + 1, e) (s, e) (s, (s + e) / 2)
  | inL {s e : ℕ} {n p b : Iv} (h : s < e) : Sub s ((s + e) / 2) n p b → Sub s e n p b
  | inR {s e : ℕ} {n p b : Iv} (h : s < e) : Sub ((s + e) / 2 + 1) e n p b → Sub s e n p b

theorem Sub.lt {s e : ℕ} {n p b : Iv} (h : Sub s e n p b) : s < e := by
  cases h <;> assumption

/-- Shape of the records. -/
theorem Sub.shape {s e : ℕ} {n p b : Iv} (h : Sub s e n p b) :
    s ≤ p.1 ∧ p.1 < p.2 ∧ p.2 ≤ e ∧
    ((n = (p.1, (p.1 + p.2) / 2) ∧ b = ((p.1 + p.2) / 2 + 1, p.2)) ∨
     (b = (p.1, (p.1 + p.2) / 2) ∧ n = ((p.1 + p.2) / 2 + 1, p.2))) := by
  induction h with
  | left h => exact ⟨le_refl _, h, le_refl _, .inl ⟨rfl, rfl⟩⟩
  | right h => exact ⟨le_refl _, h, le_refl _, .inr ⟨rfl, rfl⟩⟩
  | inL h _ ih => obtain ⟨a, b, c, d⟩ := ih; exact ⟨a, b, by omega, d⟩
  | inR h _ ih => obtain ⟨a, b, c, d⟩ := ih; exact ⟨by omega, b, by omega, d⟩

theorem Sub.node_le {s e : ℕ} {n p b : Iv} (h : Sub s e n p b) :
    s ≤ n.1 ∧ n.1 ≤ n.2 ∧ n.2 ≤ e ∧ (n.1 ≠ s ∨ n.2 ≠ e) := by
  obtain ⟨a, b, c, (⟨rfl, rfl⟩ | ⟨rfl, rfl⟩)⟩ := h.shape
  · refine ⟨a, ?_, ?_, ?_⟩ <;> simp only <;> omega
  · refine ⟨?_, ?_, ?_, ?_⟩ <;> simp only <;> omega

/-- A parent that is not the root is itself a node. -/
theorem Sub.up {s e : ℕ} {n p b : Iv} (h : Sub s e n p b) : p = (s, e) ∨ ∃ p' b', Sub s e p p' b' := by
  induction h with
  | left h => exact .inl rfl
  | right h => exact .inl rfl
  | inL h _ ih =>
    rcases ih with rfl | ⟨p', b', h'⟩
    · exact .inr ⟨_, _, .left h⟩
    · exact .inr ⟨_, _, .inL h h'⟩
  | inR h _ ih =>
    rcases ih with rfl | ⟨p', b', h'⟩
    · exact .inr ⟨_, _, .right h⟩
    · exact .inr ⟨_, _, .inR h h'⟩

/-- The sibling is a node with the same parent. -/
theorem Sub.swap {s e : ℕ} {n p b : Iv} (h : Sub s e n p b) : Sub s e b p n := by
  induction h with
  | left h => exact .right h
  | right h => exact .left h
  | inL h _ ih => exact .inL h ih
  | inR h _ ih => exact .inR h ih

/-- Every single mode is a node. -/
theorem Sub.leaf {s e i : ℕ} (h : s < e) (h1 : s ≤ i) (h2 : i ≤ e) : ∃ p b, Sub s e (i, i) p b := by
  induction k : e - s using Nat.strong_induction_on generalizing s e with
  | _ k ih =>
    subst k
    by_cases hm : i ≤ (s + e) / 2
    · by_cases hs : s = (s + e) / 2
      · have := Sub.left h
        rw [← hs] at this
        obtain rfl : i = s := by omega
        exact ⟨_, _, this⟩
      · obtain ⟨p, b, hh⟩ := ih ((s + e) / 2 - s) (by omega) (by omega) h1 hm rfl
        exact ⟨p, b, .inL h hh⟩
    · by_cases hs : (s + e) / 2 + 1 = e
      · have := Sub.right h
        rw [hs] at this
        obtain rfl : i = e := by omega
        exact ⟨_, _, this⟩
      · obtain ⟨p, b, hh⟩ := ih (e - ((s + e) / 2 + 1)) (by omega) (by omega) (by omega) h2 rfl
        exact ⟨p, b, .inR h hh⟩

/-- The possible positions of a node below `(s, e)`. -/
theorem Sub.cases' {s e : ℕ} {n p b : Iv} (h : Sub s e n p b) :
    (n = (s, (s + e) / 2) ∧ p = (s, e) ∧ b = ((s + e) / 2 + 1, e)) ∨
    (n = ((s + e) / 2 + 1, e) ∧ p = (s, e) ∧ b = (s, (s + e) / 2)) ∨
    Sub s ((s + e) / 2) n p b ∨ Sub ((s + e) / 2 + 1) e n p b := by
  cases h with
  | left _ => exact .inl ⟨rfl, rfl, rfl⟩
  | right _ => exact .inr (.inl ⟨rfl, rfl, rfl⟩)
  | inL _ g => exact .inr (.inr (.inl g))
  | inR _ g => exact .inr (.inr (.inr g))

/-- Parent and sibling are determined by the node. -/
theorem Sub.unique {s e : ℕ} {n p b p' b' : Iv} (h : Sub s e n p b) (h' : Sub s e n p' b') : p = p' ∧ b = b' := by
  induction h with
  | left h =>
    rcases h'.cases' with ⟨_, rfl, rfl⟩ | ⟨e1, _⟩ | g | g
    · exact ⟨rfl, rfl⟩
    · simp only [Prod.mk.injEq] at e1; omega
    · have := g.node_le; simp only at this; omega
    · have := g.node_le; simp only at this; omega
  | right h =>
    rcases h'.cases' with ⟨e1, _⟩ | ⟨_, rfl, rfl⟩ | g | g
    · simp only [Prod.mk.injEq] at e1; omega
    · exact ⟨rfl, rfl⟩
    · have := g.node_le; simp only at this; omega
    · have := g.node_le; simp only at this; omega
  | inL h g ih =>
    have hg := g.node_le
    rcases h'.cases' with ⟨rfl, _⟩ | ⟨rfl, _⟩ | g' | g'
    · simp only at hg; omega
    · simp only at hg; omega
    · exact ih g'
    · have := g'.node_le; omega
  | inR h g ih =>
    have hg := g.node_le
    rcases h'.cases' with ⟨rfl, _⟩ | ⟨rfl, _⟩ | g' | g'
    · simp only at hg; omega
    · simp only at hg; omega
    · have := g'.node_le; omega
    · exact ih g'

theorem strOf_length (s e : ℕ) : (strOf s e).length = e + 1 - s := by simp [strOf]

theorem strOf_inj {s e s' e' : ℕ} (h1 : s ≤ e) (h1' : s' ≤ e') (h2 : e < 159) (h2' : e' < 159)
    (h : strOf s e = strOf s' e') : s = s' ∧ e = e' := by
  have hl := congrArg List.length h
  rw [strOf_length, strOf_length] at hl
  have h0 := congrArg (fun l => l[0]?) h
  simp only [strOf] at h0
  rw [List.getElem?_map, List.getElem?_map] at h0
  rw [List.getElem?_eq_getElem (by simp; omega), List.getElem?_eq_getElem (by simp; omega)] at h0
  simp at h0
  have := letter_inj (by omega) (by omega) h0
  omega

theorem strOf_self (s : ℕ) : strOf s s = [letter s] := by simp [strOf]

theorem strOf_pair (s : ℕ) : strOf s (s + 1) = [letter s, letter (s + 1)] := by
  unfold strOf
  rw [show s + 1 + 1 - s = 2 by omega]
  rfl

theorem strOf_append {s m e : ℕ} (h1 : s ≤ m + 1) (h2 : m ≤ e) : strOf s m ++ strOf (m + 1) e = strOf s e := by
  unfold strOf
  rw [← List.map_append]
  congr 1
  have := List.range'_append_1 (s := s) (m := m + 1 - s) (n := e + 1 - (m + 1))
  rw [show s + (m + 1 - s) = m + 1 by omega, show m + 1 - s + (e + 1 - (m + 1)) = e + 1 - s by omega] at this
  exact this

/-- Uniform presentation of the construction. -/
theorem constructDT_eq {s e : ℕ} (h : s < e) (t : LTree) :
    constructDT s e t =
      let m := (s + e) / 2
      constructDT (m + 1) e ((constructDT s m (t.record (strOf s m) (strOf s e) (strOf (m + 1) e))).record
        (strOf (m + 1) e) (strOf s e) (strOf s m)) := by
  by_cases h1 : e = s + 1
  · subst h1
    have hm : (s + (s + 1)) / 2 = s := by omega
    conv_lhs => unfold constructDT
    rw [if_neg (by omega), if_pos rfl]
    simp only [hm]
    conv_rhs => unfold constructDT
    rw [if_pos (le_refl _)]
    unfold constructDT
    rw [if_pos (le_refl _), strOf_self, strOf_self, strOf_pair]
  · conv_lhs => unfold constructDT
    rw [if_neg (by omega), if_neg h1]

theorem constructDT_self {s e : ℕ} (h : e ≤ s) (t : LTree) : constructDT s e t = t := by
  unfold constructDT
  rw [if_pos h]

/-- Keys that are not proper nodes are untouched. -/
theorem constructDT_other {s e : ℕ} (he : e < 159) (hse : s ≤ e) {k : Key}
    (hk : ∀ n p b, Sub s e n p b → k ≠ ivStr n) (t : LTree) :
    (constructDT s e t).parent.lookup k = t.parent.lookup k ∧
    (constructDT s e t).sibling.lookup k = t.sibling.lookup k := by
  induction d : e - s using Nat.strong_induction_on generalizing s e t with
  | _ d ih =>
    subst d
    by_cases h : s < e
    · rw [constructDT_eq h]
      simp only
      obtain ⟨a1, a2⟩ := ih (e - ((s + e) / 2 + 1)) (by omega) he (by omega)
        (fun n p b hn => hk n p b (.inR h hn))
        ((constructDT s ((s + e) / 2) (t.record (strOf s ((s + e) / 2)) (strOf s e) (strOf ((s + e) / 2 + 1) e))).record
        (strOf ((s + e) / 2 + 1) e) (strOf s e) (strOf s ((s + e) / 2))) rfl
      obtain ⟨b1, b2⟩ := ih ((s + e) / 2 - s) (by omega) (by omega) (by omega)
        (fun n p b hn => hk n p b (.inL h hn))
        (t.record (strOf s ((s + e) / 2)) (strOf s e) (strOf ((s + e) / 2 + 1) e)) rfl
      have k1 : k ≠ strOf ((s + e) / 2 + 1) e := hk _ _ _ (.right h)
      have k2 : k ≠ strOf s ((s + e) / 2) := hk _ _ _ (.left h)
      rw [a1, a2]
      unfold LTree.record at b1 b2 ⊢
      simp only at b1 b2 ⊢
      rw [lookup_cons_ne k1, lookup_cons_ne k1, b1, b2, lookup_cons_ne k2, lookup_cons_ne k2]
      exact ⟨rfl, rfl⟩
    · rw [constructDT_self (by omega)]
      exact ⟨rfl, rfl⟩

theorem iv_ne {s e : ℕ} (he : e < 159) {n p b n' : Iv} (h : Sub s e n p b) (h1 : n'.1 ≤ n'.2) (h2 : n'.2 < 159)
    (hne : n' ≠ n) : ivStr n' ≠ ivStr n := by
  intro hh
  have := h.node_le
  obtain ⟨a, b⟩ := strOf_inj h1 (by omega) h2 (by omega) hh
  exact hne (Prod.ext a b)

/-- The maps record parent and sibling of every node. -/
theorem constructDT_sub {s e : ℕ} (he : e < 159) {n p b : Iv} (h : Sub s e n p b) (t : LTree) :
    (constructDT s e t).parent.lookup (ivStr n) = some (ivStr p) ∧
    (constructDT s e t).sibling.lookup (ivStr n) = some (ivStr b) := by
  induction h generalizing t with
  | @left s e h =>
    rw [constructDT_eq h]
    simp only
    obtain ⟨a1, a2⟩ := constructDT_other (s := (s + e) / 2 + 1) (e := e) he (by omega)
      (k := ivStr (s, (s + e) / 2)) (fun n p b hn => iv_ne he hn (by simp only; omega) (by simp only; omega) (by
        have := hn.node_le
        intro hh; subst hh; simp only at this; omega))
      ((constructDT s ((s + e) / 2) (t.record (strOf s ((s + e) / 2)) (strOf s e) (strOf ((s + e) / 2 + 1) e))).record
        (strOf ((s + e) / 2 + 1) e) (strOf s e) (strOf s ((s + e) / 2)))
    rw [a1, a2]
    obtain ⟨b1, b2⟩ := constructDT_other (s := s) (e := (s + e) / 2) (by omega) (by omega)
      (k := ivStr (s, (s + e) / 2)) (fun n p b hn => iv_ne (by omega) hn (by simp only; omega) (by simp only; omega) (by
        have := hn.node_le
        intro hh; subst hh; simp only at this; omega))
      (t.record (strOf s ((s + e) / 2)) (strOf s e) (strOf ((s + e) / 2 + 1) e))
    have hne : ivStr (s, (s + e) / 2) ≠ strOf ((s + e) / 2 + 1) e := by
      intro hh
      have := strOf_inj (by omega) (by omega) (by omega) (by omega) hh
      omega
    unfold LTree.record at b1 b2 ⊢
    simp only at b1 b2 ⊢
    rw [lookup_cons_ne hne, lookup_cons_ne hne, b1, b2, lookup_cons_self, lookup_cons_self]
    exact ⟨rfl, rfl⟩
  | @right s e h =>
    rw [constructDT_eq h]
    simp only
    obtain ⟨a1, a2⟩ := constructDT_other (s := (s + e) / 2 + 1) (e := e) he (by omega)
      (k := ivStr ((s + e) / 2 + 1, e)) (fun n p b hn => iv_ne he hn (by simp only; omega) (by simp only; omega) (by
        have := hn.node_le
        intro hh; subst hh; simp only at this; omega))
      ((constructDT s ((s + e) / 2) (t.record (strOf s ((s + e) / 2)) (strOf s e) (strOf ((s + e) / 2 + 1) e))).record
        (strOf ((s + e) / 2 + 1) e) (strOf s e) (strOf s ((s + e) / 2)))
    rw [a1, a2]
    unfold LTree.record
    simp only
    rw [lookup_cons_self, lookup_cons_self]
    exact ⟨rfl, rfl⟩
  | @inL s e n p b h hn ih =>
    rw [constructDT_eq h]
    simp only
    have hle := hn.node_le
    obtain ⟨a1, a2⟩ := constructDT_other (s := (s + e) / 2 + 1) (e := e) he (by omega)
      (k := ivStr n) (fun n' p b hn' => iv_ne he hn' (by omega) (by omega) (by
        have := hn'.node_le
        intro hh; subst hh; omega))
      ((constructDT s ((s + e) / 2) (t.record (strOf s ((s + e) / 2)) (strOf s e) (strOf ((s + e) / 2 + 1) e))).record
        (strOf ((s + e) / 2 + 1) e) (strOf s e) (strOf s ((s + e) / 2)))
    have hne : ivStr n ≠ strOf ((s + e) / 2 + 1) e := by
      intro hh
      have := strOf_inj (by omega) (by omega) (by omega) (by omega) hh
      omega
    rw [a1, a2]
    unfold LTree.record
    simp only
    rw [lookup_cons_ne hne, lookup_cons_ne hne]
    exact ih (by omega) _
  | @inR s e n p b h hn ih =>
    rw [constructDT_eq h]
    exact ih he _

/-- Only nodes are recorded. -/
theorem constructDT_only {s e : ℕ} (he : e < 159) (hse : s ≤ e) {k q : Key}
    (h : (constructDT s e {}).parent.lookup k = some q ∨ (constructDT s e {}).sibling.lookup k = some q) :
    ∃ n p b, Sub s e n p b ∧ k = ivStr n := by
  by_contra hc
  push Not at hc
  obtain ⟨a1, a2⟩ := constructDT_other he hse (k := k) hc {}
  rw [a1, a2] at h
  simp at h

/-- Lengths: where the length test of `mttkrp_map_DT` finds the children of the root. -/
theorem Sub.length_test {N : ℕ} (h4 : 4 ≤ N) (h5 : N ≠ 5) {n p b : Iv} (h : Sub 0 (N - 1) n p b) :
    (p = (0, N - 1) ↔ ((ivStr n).length = N / 2 ∨ (ivStr n).length = N / 2 + 1)) := by
  have hs := h.shape
  have hn := h.node_le
  simp only [strOf_length]
  constructor
  · rintro rfl
    simp only at hs
    obtain ⟨_, _, _, (⟨rfl, _⟩ | ⟨_, rfl⟩)⟩ := hs <;> simp only <;> omega
  · intro hlen
    rcases h.up with hp | ⟨p', b', hp⟩
    · exact hp
    · exfalso
      have hs' := hp.shape
      have : p.2 + 1 - p.1 ≤ (N + 1) / 2 := by
        obtain ⟨a1, a2, a3, (⟨e1, _⟩ | ⟨_, e1⟩)⟩ := hs' <;> rw [e1] <;> simp only <;> omega
      have hnl : n.2 + 1 - n.1 ≤ (p.2 + 1 - p.1 + 1) / 2 := by
        obtain ⟨a1, a2, a3, (⟨e1, _⟩ | ⟨_, e1⟩)⟩ := hs <;> rw [e1] <;> simp only <;> omega
      omega

end Model
