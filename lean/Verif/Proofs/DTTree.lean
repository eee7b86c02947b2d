import Verif.Model.DT
import Verif.Proofs.CPOpt

/-! The binary tree built by `Construct_Dimension_Tree` of the DT / MSDT optimizers. -/

namespace Model

/-- Node `[0, ..., j-1, k]`. -/
def node (j k : ℕ) : List ℕ := List.range j ++ [k]

theorem node_self (k : ℕ) : node k k = List.range (k + 1) := by
  simp [node, List.range_succ]

theorem node_length (j k : ℕ) : (node j k).length = j + 1 := by simp [node]

theorem node_inj {j k j' k' : ℕ} (h : node j k = node j' k') : j = j' ∧ k = k' := by
  have h1 : j = j' := by
    have := congrArg List.length h
    simp [node_length] at this
    exact this
  subst h1
  refine ⟨rfl, ?_⟩
  simpa [node] using h

theorem mem_node {j k x : ℕ} : x ∈ node j k ↔ x < j ∨ x = k := by
  simp [node]

theorem vec2str_inj {a b : List ℕ} (ha : ∀ x ∈ a, x < 256) (hb : ∀ x ∈ b, x < 256)
    (h : vec2str a = vec2str b) : a = b := by
  unfold vec2str at h
  have h' := List.append_cancel_right h
  clear h
  induction a generalizing b with
  | nil => cases b <;> simp_all
  | cons x a ih =>
    cases b with
    | nil => simp at h'
    | cons y b =>
      simp only [List.map_cons, List.cons.injEq] at h'
      rw [letter_inj (ha x (by simp)) (hb y (by simp)) h'.1]
      rw [ih (fun x hx => ha x (by simp [hx])) (fun x hx => hb x (by simp [hx])) h'.2]

theorem vec2str_node_inj {j k j' k' : ℕ} (hj : j ≤ k) (hk : k < 256) (hj' : j' ≤ k') (hk' : k' < 256)
    (h : vec2str (node j k) = vec2str (node j' k')) : j = j' ∧ k = k' := by
  apply node_inj
  apply vec2str_inj _ _ h
  · intro x hx; rcases mem_node.1 hx with h | h <;> omega
  · intro x hx; rcases mem_node.1 hx with h | h <;> omega

theorem mapGet_cons_self (k v : Key) (m : List (Key × Key)) : mapGet ((k, v) :: m) k = v := by
  simp [mapGet, List.lookup]

theorem mapGet_cons_ne {k k' : Key} (h : k' ≠ k) (v : Key) (m : List (Key × Key)) :
    mapGet ((k, v) :: m) k' = mapGet m k' := by
  have : (k' == k) = false := by simpa using h
  simp [mapGet, List.lookup, this]

/-- Entry of a node in the tree. -/
def HasEntry (t : Tree) (ns p : List ℕ) (c : ℕ) : Prop :=
  mapGet t.parent (vec2str ns) = vec2str p ∧ mapGet t.cidx (vec2str ns) = vec2str [c]

/-- `t'` agrees with `t` on key `k`. -/
def SameAt (t t' : Tree) (k : Key) : Prop :=
  mapGet t'.parent k = mapGet t.parent k ∧ mapGet t'.cidx k = mapGet t.cidx k

theorem HasEntry.of_same {t t' : Tree} {ns p : List ℕ} {c : ℕ} (h : HasEntry t ns p c)
    (hs : SameAt t t' (vec2str ns)) : HasEntry t' ns p c := ⟨hs.1.trans h.1, hs.2.trans h.2⟩

theorem hasEntry_insert (t : Tree) (ns p : List ℕ) (c : ℕ) :
    HasEntry (t.insert (vec2str ns) (vec2str p) (vec2str [c])) ns p c :=
  ⟨mapGet_cons_self _ _ _, mapGet_cons_self _ _ _⟩

theorem sameAt_insert (t : Tree) (k p c : Key) {k' : Key} (h : k' ≠ k) :
    SameAt t (t.insert k p c) k' := ⟨mapGet_cons_ne h _ _, mapGet_cons_ne h _ _⟩

theorem SameAt.trans {a b c : Tree} {k : Key} (h1 : SameAt a b k) (h2 : SameAt b c k) : SameAt a c k :=
  ⟨h2.1.trans h1.1, h2.2.trans h1.2⟩

theorem node_dropLast2 (j k : ℕ) (h : node (j + 1) k ≠ []) :
    (node (j + 1) k).dropLast.dropLast ++ [(node (j + 1) k).getLast h] = node j k := by
  simp [node, List.range_succ]

theorem rightSubtree_ok (k : ℕ) (hk : k < 256) : ∀ (j : ℕ) (t : Tree), j + 1 ≤ k →
    ∃ t', rightSubtree (node (j + 1) k) t = .ok t' ∧
      (∀ j' ≤ j, HasEntry t' (node j' k) (node (j' + 1) k) j') ∧
      (∀ key, (∀ j' ≤ j, key ≠ vec2str (node j' k)) → SameAt t t' key) := by
  intro j
  induction j with
  | zero =>
    intro t _
    refine ⟨t.insert (vec2str (node 0 k)) (vec2str (node 1 k)) (vec2str [0]), ?_, ?_, ?_⟩
    · rw [rightSubtree, dif_neg (by simp [node_length])]
      simp only [node_dropLast2]
      rw [if_neg (by simp [node_length])]
      simp [node]
    · intro j' hj'
      obtain rfl : j' = 0 := by omega
      exact hasEntry_insert _ _ _ _
    · intro key hkey
      exact sameAt_insert _ _ _ _ (hkey 0 (le_refl _))
  | succ j ih =>
    intro t hj
    obtain ⟨t', h1, h2, h3⟩ := ih
      (t.insert (vec2str (node (j + 1) k)) (vec2str (node (j + 2) k)) (vec2str [j + 1])) (by omega)
    refine ⟨t', ?_, ?_, ?_⟩
    · rw [rightSubtree, dif_neg (by simp [node_length])]
      simp only [node_dropLast2]
      rw [if_pos (by simp [node_length])]
      rw [← h1]
      congr 2
      congr 1
      simp only [node_length]
      simp [node, List.range_succ]
    · intro j' hj'
      rcases Nat.lt_or_ge j' (j + 1) with h | h
      · exact h2 j' (by omega)
      · obtain rfl : j' = j + 1 := by omega
        refine (hasEntry_insert _ _ _ _).of_same (h3 _ ?_)
        intro j' hj' e
        have := (vec2str_node_inj (by omega) hk (by omega) hk e).1
        omega
    · intro key hkey
      exact (sameAt_insert _ _ _ _ (hkey (j + 1) (le_refl _))).trans
        (h3 key fun j' hj' => hkey j' (by omega))

/-- Parent of node `(j,k)` and the position contracted. -/
def parentOf (j k : ℕ) : List ℕ := if j < k then node (j + 1) k else node (k + 1) (k + 1)
def contractPos (j k : ℕ) : ℕ := if j < k then j else k + 1

theorem constructSubtree_ok : ∀ (k : ℕ) (t : Tree), k + 1 < 256 →
    ∃ t', constructSubtree (List.range (k + 2)) t = .ok t' ∧
      (∀ j' k', j' ≤ k' → k' ≤ k + 1 → ¬ (j' = k + 1 ∧ k' = k + 1) →
        HasEntry t' (node j' k') (parentOf j' k') (contractPos j' k')) ∧
      (∀ key, (∀ j' k', j' ≤ k' → k' ≤ k + 1 → ¬ (j' = k + 1 ∧ k' = k + 1) →
        key ≠ vec2str (node j' k')) → SameAt t t' key) := by
  intro k
  induction k with
  | zero =>
    intro t _
    obtain ⟨t1, h1, h2, h3⟩ := rightSubtree_ok 1 (by omega) 0 t (by omega)
    rw [node_self] at h1
    refine ⟨t1.insert (vec2str (node 0 0)) (vec2str (node 1 1)) (vec2str [1]), ?_, ?_, ?_⟩
    · rw [constructSubtree]
      simp only [bind, Except.bind]
      rw [h1]
      simp only
      rw [dif_neg (by simp)]
      simp [pure, Except.pure, node, List.range_succ]
    · intro j' k' hj hk hne
      have : (j' = 0 ∧ k' = 0) ∨ (j' = 0 ∧ k' = 1) := by omega
      rcases this with ⟨rfl, rfl⟩ | ⟨rfl, rfl⟩
      · exact hasEntry_insert _ _ _ _
      · refine HasEntry.of_same (h2 0 (le_refl _)) (sameAt_insert _ _ _ _ ?_)
        intro e
        have := (vec2str_node_inj (by omega) (by omega) (by omega) (by omega) e).2
        omega
    · intro key hkey
      refine (h3 key ?_).trans (sameAt_insert _ _ _ _ (hkey 0 0 (by omega) (by omega) (by omega)))
      intro j' hj'
      exact hkey j' 1 (by omega) (by omega) (by omega)
  | succ k ih =>
    intro t hk
    obtain ⟨t1, h1, h2, h3⟩ := rightSubtree_ok (k + 2) (by omega) (k + 1) t (by omega)
    rw [node_self] at h1
    obtain ⟨t2, g1, g2, g3⟩ := ih
      (t1.insert (vec2str (node (k + 1) (k + 1))) (vec2str (node (k + 2) (k + 2))) (vec2str [k + 2]))
      (by omega)
    refine ⟨t2, ?_, ?_, ?_⟩
    · rw [constructSubtree]
      simp only [bind, Except.bind]
      rw [h1]
      simp only
      rw [dif_pos (by simp)]
      rw [← g1, show (List.range (k + 1 + 2)).dropLast = List.range (k + 2) by
        rw [show k + 1 + 2 = (k + 2) + 1 by omega, List.range_succ]; simp]
      congr 2
      · rw [← node_self]
      · rw [← node_self]
      · simp
    · intro j' k' hj hk' hne
      rcases Nat.lt_or_ge k' (k + 2) with hlt | hge
      · by_cases htop : j' = k + 1 ∧ k' = k + 1
        · obtain ⟨rfl, rfl⟩ := htop
          have : HasEntry (t1.insert (vec2str (node (k + 1) (k + 1)))
              (vec2str (node (k + 2) (k + 2))) (vec2str [k + 2])) (node (k + 1) (k + 1))
              (parentOf (k + 1) (k + 1)) (contractPos (k + 1) (k + 1)) := by
            simp only [parentOf, contractPos, lt_irrefl, if_false]
            exact hasEntry_insert _ _ _ _
          refine this.of_same (g3 _ ?_)
          intro a b ha hb hne' e
          have := vec2str_node_inj (by omega) (by omega) (by omega) (by omega) e
          omega
        · exact g2 j' k' hj (by omega) htop
      · obtain rfl : k' = k + 2 := by omega
        have hj' : j' ≤ k + 1 := by omega
        have h := h2 j' hj'
        have e1 : parentOf j' (k + 2) = node (j' + 1) (k + 2) := by
          simp only [parentOf]; rw [if_pos (by omega)]
        have e2 : contractPos j' (k + 2) = j' := by
          simp only [contractPos]; rw [if_pos (by omega)]
        rw [e1, e2]
        refine h.of_same ((sameAt_insert _ _ _ _ ?_).trans (g3 _ ?_))
        · intro e
          have := vec2str_node_inj (by omega) (by omega) (by omega) (by omega) e
          omega
        · intro a b ha hb _ e
          have := vec2str_node_inj (by omega) (by omega) (by omega) (by omega) e
          omega
    · intro key hkey
      refine (h3 key fun j' hj' => hkey j' (k + 2) (by omega) (by omega) (by omega)).trans
        ((sameAt_insert _ _ _ _ (hkey (k + 1) (k + 1) (by omega) (by omega) (by omega))).trans
          (g3 key fun j' k' h1 h2 _ => hkey j' k' h1 (by omega) (by omega)))

/-- The whole tree: every node except the top has its entry. -/
def GoodTree (n : ℕ) (t : Tree) : Prop :=
  ∀ j k, j ≤ k → k < n → ¬ (j = n - 1 ∧ k = n - 1) → HasEntry t (node j k) (parentOf j k) (contractPos j k)

theorem constructTree_ok {N : ℕ} (h3 : 3 ≤ N) (hN : N ≤ 31) :
    ∃ t, constructTree N = .ok t ∧ GoodTree (N - 1) t := by
  obtain ⟨t, h1, h2, _⟩ := constructSubtree_ok (N - 3) {} (by omega)
  refine ⟨t, ?_, ?_⟩
  · unfold constructTree
    rw [← h1]
    congr 2
    omega
  · intro j k hj hk hne
    exact h2 j k hj (by omega) (by omega)

/-- For order 2 the constructor accesses vectors out of bounds. -/
theorem constructTree_two : constructTree 2 = .error .ub := by
  unfold constructTree
  rw [constructSubtree, rightSubtree]
  simp [bind, Except.bind]

end Model
