import Verif.Proofs.CostLegacy
import Verif.Proofs.CostSteps
import Verif.Proofs.LegacySweep
import Verif.Proofs.PP

/-! How often and from what the nodes of the legacy dimension tree are computed. -/

namespace Model

open Spec (Tag Work termsOf storedOf countOf)
open Finset

/-- A quantity that adds up over the record. -/
structure Additive (μ : List Work → ℕ) : Prop where
  nil : μ [] = 0
  app : ∀ a b, μ (a ++ b) = μ a + μ b

theorem additive_terms (t : Tag) : Additive (termsOf t) := ⟨rfl, termsOf_append t⟩
theorem additive_count (t : Tag) : Additive (countOf t) := ⟨rfl, countOf_append t⟩
theorem additive_stored (t : Tag) : Additive (storedOf t) := ⟨rfl, storedOf_append t⟩

theorem Runs.foldlM_ex {α : Type} {P : ℕ → α → List Work → Prop} {f : α → ℕ → CM α} {s n : ℕ} {a : α} {w0 : List Work}
    (h0 : P s a w0)
    (hstep : ∀ j a w, s ≤ j → j < s + n → P j a w → ∃ b w', Runs (f a j) b w' ∧ P (j + 1) b (w ++ w')) :
    ∃ b w, Runs ((List.range' s n).foldlM f a) b w ∧ P (s + n) b (w0 ++ w) := by
  induction n generalizing s a w0 with
  | zero => exact ⟨a, [], Runs.pure a, by rw [List.append_nil]; exact h0⟩
  | succ n ih =>
    obtain ⟨b, w1, hb, hP⟩ := hstep s a w0 (le_refl _) (by omega) h0
    obtain ⟨c, w2, hc, hP'⟩ := ih hP (fun j a w h1 h2 h3 => hstep j a w (by omega) (by omega) h3)
    refine ⟨c, w1 ++ w2, ?_, by rwa [show s + (n + 1) = s + 1 + n by omega, ← List.append_assoc]⟩
    rw [List.range'_succ, List.foldlM_cons]
    exact hb.bind hc

/-! ### the nodes -/

/-- Node, parent, sibling. -/
abbrev Nd := Iv × Iv × Iv

/-- The nodes with at least two modes in the tree over `s..e`, without its root. -/
def below (s e : ℕ) : Finset Nd :=
  if s < e then
    ((if s < (s + e) / 2 then {((s, (s + e) / 2), (s, e), ((s + e) / 2 + 1, e))} else ∅) ∪
      (if (s + e) / 2 + 1 < e then {(((s + e) / 2 + 1, e), (s, e), (s, (s + e) / 2))} else ∅)) ∪
    (below s ((s + e) / 2) ∪ below ((s + e) / 2 + 1) e)
  else ∅
termination_by e - s

theorem mem_below {s e : ℕ} {t : Nd} : t ∈ below s e ↔ Sub s e t.1 t.2.1 t.2.2 ∧ t.1.1 < t.1.2 := by
  obtain ⟨n, p, b⟩ := t
  induction k : e - s using Nat.strong_induction_on generalizing s e with
  | _ k ih =>
    subst k
    rw [below]
    by_cases h : s < e
    · rw [if_pos h, mem_union, mem_union, mem_union, ih ((s + e) / 2 - s) (by omega) rfl,
        ih (e - ((s + e) / 2 + 1)) (by omega) rfl]
      simp only
      constructor
      · rintro ((h1 | h1) | (h1 | h1))
        · split_ifs at h1 with h2
          · simp only [mem_singleton, Prod.mk.injEq] at h1
            obtain ⟨rfl, rfl, rfl⟩ := h1
            exact ⟨.left h, h2⟩
          · simp at h1
        · split_ifs at h1 with h2
          · simp only [mem_singleton, Prod.mk.injEq] at h1
            obtain ⟨rfl, rfl, rfl⟩ := h1
            exact ⟨.right h, h2⟩
          · simp at h1
        · exact ⟨.inL h h1.1, h1.2⟩
        · exact ⟨.inR h h1.1, h1.2⟩
      · rintro ⟨h1, h2⟩
        rcases h1.cases' with ⟨rfl, rfl, rfl⟩ | ⟨rfl, rfl, rfl⟩ | g | g
        · simp only at h2
          exact .inl (.inl (by rw [if_pos h2]; simp))
        · simp only at h2
          exact .inl (.inr (by rw [if_pos h2]; simp))
        · exact .inr (.inl ⟨g, h2⟩)
        · exact .inr (.inr ⟨g, h2⟩)
    · rw [if_neg h]
      constructor
      · intro h1; simp at h1
      · rintro ⟨h1, _⟩; exact absurd h1.lt h

/-- The children of a node. -/
theorem Sub.down {s e : ℕ} {n p b : Iv} (h : Sub s e n p b) (hlt : n.1 < n.2) :
    Sub s e (n.1, (n.1 + n.2) / 2) n ((n.1 + n.2) / 2 + 1, n.2) ∧ Sub s e ((n.1 + n.2) / 2 + 1, n.2) n (n.1, (n.1 + n.2) / 2) := by
  induction h with
  | left h => exact ⟨.inL h (.left hlt), .inL h (.right hlt)⟩
  | right h => exact ⟨.inR h (.left hlt), .inR h (.right hlt)⟩
  | inL h _ ih => exact ⟨.inL h (ih hlt).1, .inL h (ih hlt).2⟩
  | inR h _ ih => exact ⟨.inR h (ih hlt).1, .inR h (ih hlt).2⟩

variable {N : ℕ}

/-- The node is cached. -/
def Pres {τ : Type} (c : List (Key × τ)) (n : Iv) : Prop := (c.lookup (ivStr n)).isSome = true

instance {τ : Type} (c : List (Key × τ)) (n : Iv) : Decidable (Pres c n) := by unfold Pres; infer_instance

/-- Cached nodes are good, and their parents are cached. -/
structure LInv {τ : Type} (N : ℕ) (Good : Iv → τ → Prop) (c : List (Key × τ)) : Prop where
  good : ∀ n p b, Sub 0 (N - 1) n p b → ∀ T, c.lookup (ivStr n) = some T → Good n T
  up : ∀ n p b, Sub 0 (N - 1) n p b → Pres c n → p ≠ (0, N - 1) → Pres c p

theorem LInv.nil {τ : Type} (Good : Iv → τ → Prop) : LInv N Good [] :=
  ⟨fun n p b _ T h => by simp at h, fun n p b _ h => by simp [Pres] at h⟩

/-- The work of the cached nodes. -/
def cacheW {τ : Type} (N : ℕ) (w : Nd → List Work) (μ : List Work → ℕ) (c : List (Key × τ)) : ℕ :=
  ∑ t ∈ below 0 (N - 1), if Pres c t.1 then μ (w t) else 0

theorem pres_cons {τ : Type} (hN : N ≤ 159) {c : List (Key × τ)} {n p b : Iv} (hn : Sub 0 (N - 1) n p b) (T : τ) {n' p' b' : Iv}
    (hn' : Sub 0 (N - 1) n' p' b') : Pres ((ivStr n, T) :: c) n' ↔ n' = n ∨ Pres c n' := by
  have h := hn'.node_le
  have hlt := hn.lt
  by_cases e : n' = n
  · subst e
    simp [Pres, lookup_cons_self]
  · unfold Pres
    rw [lookup_cons_ne (iv_ne (by omega) hn (by omega) (by omega) e)]
    simp [e]

theorem cacheW_cons {τ : Type} (hN : N ≤ 159) (w : Nd → List Work) (μ : List Work → ℕ) {c : List (Key × τ)} {n p b : Iv}
    (hn : Sub 0 (N - 1) n p b) (hlt : n.1 < n.2) (hc : ¬ Pres c n) (T : τ) :
    cacheW N w μ ((ivStr n, T) :: c) = cacheW N w μ c + μ (w (n, p, b)) := by
  unfold cacheW
  have hm : (n, p, b) ∈ below 0 (N - 1) := mem_below.2 ⟨hn, hlt⟩
  rw [← Finset.add_sum_erase _ _ hm, ← Finset.add_sum_erase _ _ hm]
  have e1 : Pres ((ivStr n, T) :: c) n := (pres_cons hN hn T hn).2 (.inl rfl)
  simp only
  rw [if_pos e1, if_neg hc, Nat.zero_add, Nat.add_comm]
  congr 1
  apply Finset.sum_congr rfl
  rintro ⟨n', p', b'⟩ ht
  rw [mem_erase, mem_below] at ht
  obtain ⟨hne, hs, _⟩ := ht
  have hnn : n' ≠ n := by
    rintro rfl
    obtain ⟨rfl, rfl⟩ := hs.unique hn
    exact hne rfl
  have : Pres ((ivStr n, T) :: c) n' ↔ Pres c n' := by
    rw [pres_cons hN hn T hs]
    simp [hnn]
  simp only [this]

theorem LInv.cons {τ : Type} (hN : N ≤ 159) {Good : Iv → τ → Prop} {c : List (Key × τ)} (h : LInv N Good c) {n p b : Iv}
    (hn : Sub 0 (N - 1) n p b) {T : τ} (hT : Good n T) (hp : p ≠ (0, N - 1) → Pres c p) : LInv N Good ((ivStr n, T) :: c) := by
  refine ⟨fun n' p' b' hn' T' hT' => ?_, fun n' p' b' hn' hP hne => ?_⟩
  · have hle := hn'.node_le
    have hlt := hn.lt
    by_cases e : n' = n
    · subst e
      rw [lookup_cons_self] at hT'
      cases hT'
      exact hT
    · rw [lookup_cons_ne (iv_ne (by omega) hn (by omega) (by omega) e)] at hT'
      exact h.good n' p' b' hn' T' hT'
  · obtain ⟨p2, b2, hpp⟩ := hn'.up.resolve_left hne
    rw [pres_cons hN hn T hpp]
    rw [pres_cons hN hn T hn'] at hP
    rcases hP with rfl | hP
    · obtain ⟨rfl, rfl⟩ := hn'.unique hn
      exact .inr (hp hne)
    · exact .inr (h.up n' p' b' hn' hP hne)

/-- `dtNode` computes a node and those of its ancestors that are missing, each once. -/
theorem dtNodeC_runs {τ : Type} (h4 : 4 ≤ N) (h5 : N ≠ 5) (hN : N ≤ 159) {Good : Iv → τ → Prop}
    {fr : Key → CM τ} {fp : Key → τ → CM τ} {w : Nd → List Work}
    (hroot : ∀ n b, Sub 0 (N - 1) n (0, N - 1) b → ∃ T, Runs (fr (ivStr n)) T (w (n, (0, N - 1), b)) ∧ Good n T)
    (hpar : ∀ n p b, Sub 0 (N - 1) n p b → p ≠ (0, N - 1) → ∀ Tp, Good p Tp →
      ∃ T, Runs (fp (ivStr n) Tp) T (w (n, p, b)) ∧ Good n T) :
    ∀ (fuel : ℕ) (n p b : Iv) (cache : List (Key × τ)), Sub 0 (N - 1) n p b → n.1 < n.2 →
      N - (n.2 + 1 - n.1) ≤ fuel → LInv N Good cache →
      ∃ cache' wl, Runs (dtNodeC N (constructDT 0 (N - 1) {}) fr fp fuel (ivStr n) cache) cache' wl ∧
        LInv N Good cache' ∧ Pres cache' n ∧ (∀ n', Pres cache n' → Pres cache' n') ∧
        (∀ n' p' b', Sub 0 (N - 1) n' p' b' → Pres cache' n' → Pres cache n' ∨ n.2 - n.1 ≤ n'.2 - n'.1) ∧
        ∀ μ, Additive μ → μ wl + cacheW N w μ cache = cacheW N w μ cache' := by
  intro fuel
  induction fuel with
  | zero =>
    intro n p b cache hn h1 hf
    have := hn.node_le
    omega
  | succ fuel ih =>
    intro n p b cache hn h1 hf hI
    unfold dtNodeC
    by_cases hs : (cache.lookup (ivStr n)).isSome
    · rw [if_pos hs]
      exact ⟨cache, [], Runs.pure _, hI, hs, fun _ h => h, fun _ _ _ _ h => .inl h, fun μ hμ => by rw [hμ.nil, Nat.zero_add]⟩
    · rw [if_neg hs]
      by_cases hl : (ivStr n).length = N / 2 ∨ (ivStr n).length = N / 2 + 1
      · rw [if_pos hl]
        obtain rfl := (hn.length_test h4 h5).2 hl
        obtain ⟨T, hT, hG⟩ := hroot n b hn
        refine ⟨(ivStr n, T) :: cache, _, hT.bind (Runs.pure _), hI.cons hN hn hG (fun h => absurd rfl h),
          (pres_cons hN hn T hn).2 (.inl rfl), fun n' h => lookup_cons_isSome h, ?_, fun μ hμ => ?_⟩
        · intro n' p' b' hn' h
          rcases (pres_cons hN hn T hn').1 h with rfl | h
          · exact .inr (le_refl _)
          · exact .inl h
        · rw [cacheW_cons hN w μ hn h1 hs, List.append_nil, Nat.add_comm]
      · rw [if_neg hl]
        have hp : p ≠ (0, N - 1) := fun e => hl ((hn.length_test h4 h5).1 e)
        obtain ⟨p', b', hpp⟩ := hn.up.resolve_left hp
        have hsh := hn.shape
        have hlen : n.2 + 1 - n.1 < p.2 + 1 - p.1 := by
          obtain ⟨a1, a2, a3, (⟨e1, _⟩ | ⟨_, e1⟩)⟩ := hsh <;> rw [e1] <;> simp only <;> omega
        have hnl := hn.node_le
        obtain ⟨c1, w1, hc1, hI1, hP1, hmono, hnew, hμ1⟩ : ∃ c1 w1, Runs (if (cache.lookup (ivStr p)).isNone then
            dtNodeC N (constructDT 0 (N - 1) {}) fr fp fuel (ivStr p) cache else pure cache) c1 w1 ∧
            LInv N Good c1 ∧ Pres c1 p ∧ (∀ n', Pres cache n' → Pres c1 n') ∧
            (∀ n' p' b', Sub 0 (N - 1) n' p' b' → Pres c1 n' → Pres cache n' ∨ p.2 - p.1 ≤ n'.2 - n'.1) ∧
            ∀ μ, Additive μ → μ w1 + cacheW N w μ cache = cacheW N w μ c1 := by
          by_cases hnone : (cache.lookup (ivStr p)).isNone
          · rw [if_pos hnone]
            exact ih p p' b' cache hpp hsh.2.1 (by omega) hI
          · rw [if_neg hnone]
            refine ⟨cache, [], Runs.pure _, hI, ?_, fun _ h => h, fun _ _ _ _ h => .inl h, fun μ hμ => by
              rw [hμ.nil, Nat.zero_add]⟩
            unfold Pres
            simpa [Option.isSome_iff_ne_none] using hnone
        have hcn : ¬ Pres c1 n := by
          intro h
          rcases hnew n p b hn h with h | h
          · exact hs h
          · omega
        obtain ⟨Tp, hTp⟩ := Option.isSome_iff_exists.1 hP1
        obtain ⟨T, hT, hG⟩ := hpar n p b hn hp Tp (hI1.good p p' b' hpp Tp hTp)
        refine ⟨(ivStr n, T) :: c1, w1 ++ (w (n, p, b) ++ []), ?_, hI1.cons hN hn hG (fun _ => hP1),
          (pres_cons hN hn T hn).2 (.inl rfl), fun n' h => lookup_cons_isSome (hmono n' h), ?_, fun μ hμ => ?_⟩
        · simp only [(mapGet_tree hN hn).1]
          refine hc1.bind ?_
          simp only [hTp]
          exact hT.bind (Runs.pure _)
        · intro n' p' b' hn' h
          rcases (pres_cons hN hn T hn').1 h with rfl | h
          · exact .inr (le_refl _)
          · rcases hnew n' p' b' hn' h with h | h
            · exact .inl h
            · right; omega
        · rw [cacheW_cons hN w μ hn h1 hcn, List.append_nil, hμ.app, ← hμ1 μ hμ]
          omega

/-- If the parent of every leaf up to `i` is cached, so is every node that contains one of these leaves. -/
theorem LInv.ancestors {τ : Type} {Good : Iv → τ → Prop} {c : List (Key × τ)} (h : LInv N Good c) {i : ℕ}
    (hleaf : ∀ p b, Sub 0 (N - 1) (i, i) p b → p ≠ (0, N - 1) → Pres c p) :
    ∀ (k : ℕ) (n p b : Iv), n.2 - n.1 ≤ k → Sub 0 (N - 1) n p b → n.1 ≤ i → i ≤ n.2 → n.1 < n.2 → Pres c n := by
  intro k
  induction k with
  | zero => intro n p b hk _ h1 h2 h3; omega
  | succ k ih =>
    intro n p b hk hn h1 h2 h3
    obtain ⟨d1, d2⟩ := hn.down h3
    have hnr : n ≠ (0, N - 1) := by
      rintro rfl
      have := hn.node_le
      simp at this
    by_cases hm : i ≤ (n.1 + n.2) / 2
    · by_cases hl : n.1 = (n.1 + n.2) / 2
      · have : (n.1, (n.1 + n.2) / 2) = (i, i) := by ext <;> simp only <;> omega
        rw [this] at d1
        exact hleaf n _ d1 hnr
      · exact h.up _ _ _ d1 (ih _ _ _ (by simp only; omega) d1 (by simp only; omega) (by simp only; omega) (by simp only; omega)) hnr
    · by_cases hl : (n.1 + n.2) / 2 + 1 = n.2
      · have : ((n.1 + n.2) / 2 + 1, n.2) = (i, i) := by ext <;> simp only <;> omega
        rw [this] at d2
        exact hleaf n _ d2 hnr
      · exact h.up _ _ _ d2 (ih _ _ _ (by simp only; omega) d2 (by simp only; omega) (by simp only; omega) (by simp only; omega)) hnr

/-- All nodes that start at or before the modes treated so far are cached. -/
def Done {τ : Type} (N j : ℕ) (c : List (Key × τ)) : Prop :=
  ∀ n p b, Sub 0 (N - 1) n p b → n.1 < n.2 → n.1 < j → Pres c n

theorem cacheW_done {τ : Type} (w : Nd → List Work) (μ : List Work → ℕ) {c : List (Key × τ)} (h : Done N N c) :
    cacheW N w μ c = ∑ t ∈ below 0 (N - 1), μ (w t) := by
  unfold cacheW
  apply Finset.sum_congr rfl
  rintro ⟨n, p, b⟩ ht
  rw [mem_below] at ht
  have := ht.1.node_le
  have := ht.1.lt
  rw [if_pos (h n p b ht.1 ht.2 (by simp only at *; omega))]

theorem cacheW_nil {τ : Type} (w : Nd → List Work) (μ : List Work → ℕ) : cacheW N w μ ([] : List (Key × τ)) = 0 := by
  unfold cacheW
  apply Finset.sum_eq_zero
  intro t _
  rw [if_neg]
  simp [Pres]

end Model
