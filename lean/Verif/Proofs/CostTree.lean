import Verif.Proofs.CostRuns

/-! Record of the dimension-tree steps. -/

namespace Model

open Spec (Tag Work termsOf storedOf countOf)

variable {K : Type} [CommRing K] {N : ℕ}

/-- Product of the edge lengths of the first `j` positions. -/
def firstProd (dims : Fin N → ℕ) (left : Fin N) (j : ℕ) : ℕ := ∏ p ∈ Finset.range j, dims (modeAt left p)

/-- Entry of the node `(j,k)`. -/
def nodeW (dims : Fin N → ℕ) (R : ℕ) (left : Fin N) (j k : ℕ) : Work :=
  ⟨.mttkrp, (if j < k then firstProd dims left (j + 1) * dims (modeAt left k) else firstProd dims left (k + 2)) * R,
    firstProd dims left j * dims (modeAt left k) * R⟩

/-- Entry of the top of the tree. -/
def topW (dims : Fin N → ℕ) (R : ℕ) (left : Fin N) : Work := ⟨.input, (∏ m, dims m) * R, firstProd dims left (N - 1) * R⟩

theorem list_prod_range (f : ℕ → ℕ) (j : ℕ) : ((List.range j).map f).prod = ∏ p ∈ Finset.range j, f p := by
  induction j with
  | zero => rfl
  | succ j ih => rw [List.range_succ, List.map_append, List.prod_append, ih, Finset.prod_range_succ]; simp

theorem list_sum_range (f : ℕ → ℕ) (j : ℕ) : ((List.range j).map f).sum = ∑ p ∈ Finset.range j, f p := by
  induction j with
  | zero => rfl
  | succ j ih => rw [List.range_succ, List.map_append, List.sum_append, ih, Finset.sum_range_succ]; simp

theorem nodeModes_prod (dims : Fin N → ℕ) (left : Fin N) (j k : ℕ) :
    ((nodeModes left j k).map dims).prod = firstProd dims left j * dims (modeAt left k) := by
  unfold nodeModes node firstProd
  rw [List.map_append, List.map_append, List.prod_append, List.map_map, list_prod_range]
  simp

theorem nodeModes_nodup (left : Fin N) {j k : ℕ} (hj : j ≤ k) (hk : k < N) : (nodeModes left j k).Nodup := by
  unfold nodeModes
  rw [List.nodup_map_iff_inj_on]
  · intro a ha b hb h
    rw [mem_node] at ha hb
    exact modeAt_inj left (by omega) (by omega) h
  · unfold node
    rw [List.nodup_append]
    refine ⟨List.nodup_range, by simp, ?_⟩
    intro a ha b hb
    simp at ha hb
    omega

/-- Product of the extents of the labels of a tensor over the modes `ms` and the rank. -/
theorem Labelling.prod_d (L : Labelling N) (dims : Fin N → ℕ) (R : ℕ) {ms : List (Fin N)} (h : ms.Nodup) :
    ∏ l ∈ (ms.map L.lab ++ [L.rk]).toFinset, L.d dims R l = (ms.map dims).prod * R := by
  have hnd : (ms.map L.lab ++ [L.rk]).Nodup := by
    rw [List.nodup_append]
    refine ⟨(List.nodup_map_iff (fun _ _ h => L.inj h)).2 h, by simp, ?_⟩
    intro a ha b hb
    simp only [List.mem_map, List.mem_singleton] at ha hb
    obtain ⟨m, _, rfl⟩ := ha
    subst hb
    exact L.ne m
  rw [List.prod_toFinset _ hnd, L.map_d]
  simp

theorem topTC_runs (h2 : 2 ≤ N) (hN : N ≤ 31) {dims : Fin N → ℕ} {R : ℕ} {V : Tensor K} {W : List (Tensor K)}
    (hS : Shaped dims R V W) (left : Fin N) :
    ∃ T, Runs (topTC N V W left.1) T [topW dims R left] ∧ T.lens = (nodeModes left (N - 2) (N - 2)).map dims ++ [R] := by
  obtain ⟨Wl, hr, _, hl, _⟩ := mats_get hS left
  have hidx : (indexesOf N left.1).map letter ++ [star] =
      (nodeModes left (N - 2) (N - 2)).map (idLab hN).lab ++ [(idLab hN).rk] := by
    rw [indexesOf_eq, nodeModes, node_self, show N - 2 + 1 = N - 1 by omega]
    simp only [List.map_map]
    rfl
  have hlen := lensInit_ok hN hS (by omega) (nodeModes left (N - 2) (N - 2))
  obtain ⟨T, hT, h⟩ := einsumC_runs (K := K) .input (d := (idLab hN).d dims R)
    (lensC := (nodeModes left (N - 2) (N - 2)).map dims ++ [R])
    (sc := (nodeModes left (N - 2) (N - 2)).map (idLab hN).lab ++ [(idLab hN).rk])
    (ops := [(V, (List.ofFn fun j : Fin N => j).map (idLab hN).lab), (Wl, [(idLab hN).lab left, (idLab hN).rk])])
    (s := ((List.ofFn fun j : Fin N => j).map (idLab hN).lab ++ [(idLab hN).rk]).toFinset)
    ((idLab hN).map_d dims R _).symm (by
      intro o ho
      simp only [List.mem_cons, List.not_mem_nil, or_false] at ho
      rcases ho with rfl | rfl
      · simp only [hS.lensV, List.map_map]
        apply List.ext_getElem
        · simp
        · intro i _ _
          simp [(idLab hN).d_lab dims R]
      · simp only [hl, List.map_cons, List.map_nil, (idLab hN).d_lab, (idLab hN).d_rk]) (by
      ext l
      simp only [List.flatMap_cons, List.flatMap_nil, List.append_nil, List.mem_toFinset, List.mem_append, List.mem_cons,
        List.not_mem_nil, or_false, List.mem_map, List.mem_ofFn]
      constructor
      · rintro ((⟨m, _, rfl⟩ | h) | (⟨m, _, rfl⟩ | (rfl | h)))
        · exact Or.inl ⟨m, ⟨m, rfl⟩, rfl⟩
        · exact Or.inr h
        · exact Or.inl ⟨m, ⟨m, rfl⟩, rfl⟩
        · exact Or.inl ⟨left, ⟨left, rfl⟩, rfl⟩
        · exact Or.inr h
      · rintro (⟨m, h, rfl⟩ | h)
        · exact Or.inr (Or.inl ⟨m, h, rfl⟩)
        · exact Or.inl (Or.inr h))
  rw [(idLab hN).prod_d dims R (by rw [List.nodup_ofFn]; exact fun _ _ h => h)] at h
  refine ⟨T, ?_, hT⟩
  have hw : (⟨.input, (((List.ofFn fun j : Fin N => j).map dims).prod * R),
      ((nodeModes left (N - 2) (N - 2)).map dims ++ [R]).prod⟩ : Work) = topW dims R left := by
    unfold topW
    rw [List.prod_append, nodeModes_prod, List.prod_singleton]
    have e : ((List.ofFn fun j : Fin N => j).map dims).prod = ∏ m, dims m := by
      rw [List.map_ofFn, List.prod_ofFn]
      rfl
    rw [e]
    congr 2
    · unfold firstProd
      rw [← Finset.prod_range_succ, show N - 2 + 1 = N - 1 by omega]
  rw [hw] at h
  unfold topTC
  rw [hidx]
  refine (Runs.lift (a := (nodeModes left (N - 2) (N - 2)).map dims ++ [R]) hlen).bind0 ((Runs.lift hr).bind0 ?_)
  have hseq : (List.range N).map letter = (List.ofFn fun j : Fin N => j).map (idLab hN).lab := by
    apply List.ext_getElem
    · simp
    · intro i _ _
      simp [idLab]
  rw [hseq]
  exact h

/-! ### the tree -/

/-- Shapes of the cached nodes. -/
def ShapeInv (dims : Fin N → ℕ) (R : ℕ) (left : Fin N) (cache : Cache K) : Prop :=
  ∀ j k, j ≤ k → k < N - 1 → ∀ T, cache.lookup (vec2str (node j k)) = some T → T.lens = (nodeModes left j k).map dims ++ [R]

/-- The node `(j,k)` is cached. -/
def Has (cache : Cache K) (j k : ℕ) : Prop := (cache.lookup (vec2str (node j k))).isSome = true

/-- Computing one node whose parent has been made available. -/
theorem nodeC_runs (hN : N ≤ 31) {dims : Fin N → ℕ} {R : ℕ} {V : Tensor K} {W : List (Tensor K)} (hS : Shaped dims R V W)
    (left : Fin N) {tree : Tree} (ht : GoodTree (N - 1) tree) {fuel j k : ℕ} (hj : j ≤ k) (hk : k < N - 1)
    (hne : ¬ (j = N - 2 ∧ k = N - 2)) {j' k' : ℕ} (hpar : parentOf j k = node j' k') (hj' : j' ≤ k') (hk' : k' < N - 1)
    {cache c1 : Cache K} {w : List Work}
    (hrec : Runs (if (cache.lookup (vec2str (node j' k'))).isNone then
        mttkrpMapDTC tree (indexesOf N left.1) V W fuel (vec2str (node j' k')) cache else pure cache) c1 w)
    (hI : ShapeInv dims R left c1) (hP : Has c1 j' k') :
    ∃ c2, Runs (mttkrpMapDTC tree (indexesOf N left.1) V W (fuel + 1) (vec2str (node j k)) cache) c2
        (w ++ [nodeW dims R left j k]) ∧ ShapeInv dims R left c2 ∧
      ∀ a b, a ≤ b → b < N - 1 → (Has c2 a b ↔ Has c1 a b ∨ a = j ∧ b = k) := by
  obtain ⟨hp, hc⟩ := ht j k hj hk (by omega)
  rw [hpar] at hp
  obtain ⟨Tp, hTp⟩ := Option.isSome_iff_exists.1 hP
  have hTl := hI j' k' hj' hk' Tp hTp
  have hcp : contractPos j k < N - 1 := by unfold contractPos; split_ifs <;> omega
  obtain ⟨Wm, hWr, _, hWl, _⟩ := mats_get hS (modeAt left (contractPos j k))
  have hcmem : contractPos j k ∈ node j' k' := by
    rw [← hpar]; unfold contractPos parentOf
    split_ifs <;> simp [mem_node]
  have hsub : ∀ p ∈ node j k, p ∈ node j' k' := by
    rw [← hpar]; unfold parentOf
    intro p hp
    rw [mem_node] at hp
    split_ifs <;> rw [mem_node] <;> omega
  set L := posLab hN left with hL
  obtain ⟨T, hT, h⟩ := einsumC_runs (K := K) .mttkrp (d := L.d dims R)
    (lensC := (nodeModes left j k).map dims ++ [R]) (sc := (nodeModes left j k).map L.lab ++ [L.rk])
    (ops := [(Tp, (nodeModes left j' k').map L.lab ++ [L.rk]), (Wm, [L.lab (modeAt left (contractPos j k)), L.rk])])
    (s := ((nodeModes left j' k').map L.lab ++ [L.rk]).toFinset)
    (L.map_d dims R _).symm (by
      intro o ho
      simp only [List.mem_cons, List.not_mem_nil, or_false] at ho
      rcases ho with rfl | rfl
      · simp only
        rw [hTl, L.map_d]
      · simp only [hWl, List.map_cons, List.map_nil, L.d_lab, L.d_rk]) (by
      ext l
      simp only [List.flatMap_cons, List.flatMap_nil, List.append_nil, List.mem_toFinset, List.mem_append, List.mem_cons,
        List.not_mem_nil, or_false, List.mem_map, nodeModes]
      constructor
      · rintro ((⟨m, ⟨p, hp, rfl⟩, rfl⟩ | h) | ((h | h) | (rfl | h)))
        · exact Or.inl ⟨_, ⟨p, hsub p hp, rfl⟩, rfl⟩
        · exact Or.inr h
        · exact Or.inl h
        · exact Or.inr h
        · exact Or.inl ⟨_, ⟨_, hcmem, rfl⟩, rfl⟩
        · exact Or.inr h
      · rintro (h | h)
        · exact Or.inr (Or.inl (Or.inl h))
        · exact Or.inl (Or.inr h))
  rw [L.prod_d dims R (nodeModes_nodup left hj' (by omega)), nodeModes_prod] at h
  have hw : (⟨.mttkrp, firstProd dims left j' * dims (modeAt left k') * R,
      ((nodeModes left j k).map dims ++ [R]).prod⟩ : Work) = nodeW dims R left j k := by
    unfold nodeW
    rw [List.prod_append, nodeModes_prod, List.prod_singleton]
    congr 2
    unfold parentOf at hpar
    split_ifs at hpar ⊢ with hlt
    · obtain ⟨rfl, rfl⟩ := node_inj hpar
      rfl
    · obtain ⟨rfl, rfl⟩ := node_inj hpar
      unfold firstProd
      rw [← Finset.prod_range_succ]
  rw [hw] at h
  refine ⟨(vec2str (node j k), T) :: c1, ?_, ?_, ?_⟩
  · rw [mttkrpMapDTC]
    simp only [hp, hc]
    refine hrec.bind ?_
    refine (Runs.lift (a := letter (contractPos j k)) (by rfl)).bind0 ?_
    refine (Runs.lift (lensNode_ok hN hS left (node_lt hj hk))).bind0 ?_
    refine (Runs.lift (a := (modeAt left (contractPos j k)).1)
      (by rw [decode_letter (by omega), rd_of (indexesOf_get left hcp)])).bind0 ?_
    refine (Runs.lift hWr).bind0 ?_
    rw [hTp]
    have e1 := vec2str_eq_lab hN left (v := node j k) (fun p hp => by have := node_lt hj hk p hp; omega)
    have e2 := vec2str_eq_lab hN left (v := node j' k') (fun p hp => by have := node_lt hj' hk' p hp; omega)
    have e3 : vec2str [contractPos j k] = [L.lab (modeAt left (contractPos j k)), L.rk] := by
      simp [hL, vec2str, posLab, posOf_modeAt left (show contractPos j k < N by omega)]
    rw [← hL] at e1 e2
    unfold nodeModes at h
    rw [← e1, ← e2, ← e3] at h
    exact h.bind (Runs.pure _)
  · intro a b hab hb T' hlook
    by_cases e : vec2str (node a b) = vec2str (node j k)
    · obtain ⟨rfl, rfl⟩ := vec2str_node_inj hab (by omega) hj (by omega) e
      rw [lookup_cons_self] at hlook
      cases hlook
      exact hT
    · rw [lookup_cons_ne e] at hlook
      exact hI a b hab hb T' hlook
  · intro a b hab hb
    unfold Has
    by_cases e : vec2str (node a b) = vec2str (node j k)
    · obtain ⟨rfl, rfl⟩ := vec2str_node_inj hab (by omega) hj (by omega) e
      rw [lookup_cons_self]
      simp
    · rw [lookup_cons_ne e]
      constructor
      · exact Or.inl
      · rintro (h | ⟨rfl, rfl⟩)
        · exact h
        · exact absurd rfl e

theorem isNone_of_not_has {cache : Cache K} {j k : ℕ} (h : ¬ Has cache j k) :
    (cache.lookup (vec2str (node j k))).isNone = true := by
  unfold Has at h
  cases hc : cache.lookup (vec2str (node j k)) with
  | none => rfl
  | some T => rw [hc] at h; simp at h

theorem not_isNone_of_has {cache : Cache K} {j k : ℕ} (h : Has cache j k) :
    ¬ (cache.lookup (vec2str (node j k))).isNone = true := by
  unfold Has at h
  cases hc : cache.lookup (vec2str (node j k)) with
  | none => rw [hc] at h; simp at h
  | some T => simp

/-- The chain `(k,k), (k-1,k), ..., (j,k)` from its cached end `(k,k)`. -/
theorem right_runs (hN : N ≤ 31) {dims : Fin N → ℕ} {R : ℕ} {V : Tensor K} {W : List (Tensor K)} (hS : Shaped dims R V W)
    (left : Fin N) {tree : Tree} (ht : GoodTree (N - 1) tree) {k : ℕ} (hk : k < N - 1) {cache : Cache K}
    (hI : ShapeInv dims R left cache) (hkk : Has cache k k) :
    ∀ n j fuel, j + (n + 1) = k → n + 1 ≤ fuel → (∀ a, j ≤ a → a < k → ¬ Has cache a k) →
      ∃ c2, Runs (mttkrpMapDTC tree (indexesOf N left.1) V W fuel (vec2str (node j k)) cache) c2
          ((List.range' j (n + 1)).reverse.map fun a => nodeW dims R left a k) ∧ ShapeInv dims R left c2 ∧
        ∀ a b, a ≤ b → b < N - 1 → (Has c2 a b ↔ Has cache a b ∨ (j ≤ a ∧ a < k) ∧ b = k) := by
  intro n
  induction n with
  | zero =>
    intro j fuel hjk hf _
    obtain ⟨fuel, rfl⟩ : ∃ f, fuel = f + 1 := ⟨fuel - 1, by omega⟩
    obtain ⟨c2, h1, h2, h3⟩ := nodeC_runs hN hS left ht (fuel := fuel) (j := j) (k := k) (by omega) hk (by omega)
      (j' := k) (k' := k) (by unfold parentOf; rw [if_pos (by omega), show j + 1 = k by omega]) (le_refl _) hk (cache := cache)
      (c1 := cache) (w := []) (by rw [if_neg (not_isNone_of_has hkk)]; exact Runs.pure _) hI hkk
    refine ⟨c2, by simpa using h1, h2, fun a b hab hb => ?_⟩
    rw [h3 a b hab hb]
    constructor
    · rintro (h | ⟨rfl, rfl⟩)
      · exact Or.inl h
      · exact Or.inr ⟨by omega, rfl⟩
    · rintro (h | ⟨⟨h, h'⟩, rfl⟩)
      · exact Or.inl h
      · exact Or.inr ⟨by omega, rfl⟩
  | succ n ih =>
    intro j fuel hjk hf hno
    obtain ⟨fuel, rfl⟩ : ∃ f, fuel = f + 1 := ⟨fuel - 1, by omega⟩
    obtain ⟨c1, g1, g2, g3⟩ := ih (j + 1) fuel (by omega) (by omega) (fun a h1 h2 => hno a (by omega) h2)
    obtain ⟨c2, h1, h2, h3⟩ := nodeC_runs hN hS left ht (fuel := fuel) (j := j) (k := k) (by omega) hk (by omega)
      (j' := j + 1) (k' := k) (by unfold parentOf; rw [if_pos (by omega)]) (by omega) hk (cache := cache)
      (by rw [if_pos (isNone_of_not_has (hno (j + 1) (by omega) (by omega)))]; exact g1) g2
      ((g3 (j + 1) k (by omega) hk).2 (Or.inr ⟨by omega, rfl⟩))
    refine ⟨c2, ?_, h2, fun a b hab hb => ?_⟩
    · rw [List.range'_succ, List.reverse_cons, List.map_append]
      exact h1
    · rw [h3 a b hab hb, g3 a b hab hb]
      constructor
      · rintro ((h | ⟨⟨h, h'⟩, rfl⟩) | ⟨rfl, rfl⟩)
        · exact Or.inl h
        · exact Or.inr ⟨by omega, rfl⟩
        · exact Or.inr ⟨by omega, rfl⟩
      · rintro (h | ⟨⟨h, h'⟩, rfl⟩)
        · exact Or.inl (Or.inl h)
        · by_cases e : a = j
          · exact Or.inr ⟨e, rfl⟩
          · exact Or.inl (Or.inr ⟨by omega, rfl⟩)

/-- The chain `(N-2,N-2), ..., (k,k)` from the top. -/
theorem spine_runs (hN : N ≤ 31) {dims : Fin N → ℕ} {R : ℕ} {V : Tensor K} {W : List (Tensor K)} (hS : Shaped dims R V W)
    (left : Fin N) {tree : Tree} (ht : GoodTree (N - 1) tree) {cache : Cache K}
    (hI : ShapeInv dims R left cache) (htop : Has cache (N - 2) (N - 2)) :
    ∀ n k fuel, k + (n + 1) = N - 2 → n + 1 ≤ fuel → (∀ a, k ≤ a → a < N - 2 → ¬ Has cache a a) →
      ∃ c2, Runs (mttkrpMapDTC tree (indexesOf N left.1) V W fuel (vec2str (node k k)) cache) c2
          ((List.range' k (n + 1)).reverse.map fun a => nodeW dims R left a a) ∧ ShapeInv dims R left c2 ∧
        ∀ a b, a ≤ b → b < N - 1 → (Has c2 a b ↔ Has cache a b ∨ (k ≤ a ∧ a < N - 2) ∧ a = b) := by
  intro n
  induction n with
  | zero =>
    intro k fuel hjk hf _
    obtain ⟨fuel, rfl⟩ : ∃ f, fuel = f + 1 := ⟨fuel - 1, by omega⟩
    obtain ⟨c2, h1, h2, h3⟩ := nodeC_runs hN hS left ht (fuel := fuel) (j := k) (k := k) (le_refl _) (by omega) (by omega)
      (j' := N - 2) (k' := N - 2) (by unfold parentOf; rw [if_neg (by omega), show k + 1 = N - 2 by omega]) (le_refl _) (by omega)
      (cache := cache) (c1 := cache) (w := []) (by rw [if_neg (not_isNone_of_has htop)]; exact Runs.pure _) hI htop
    refine ⟨c2, by simpa using h1, h2, fun a b hab hb => ?_⟩
    rw [h3 a b hab hb]
    constructor
    · rintro (h | ⟨rfl, rfl⟩)
      · exact Or.inl h
      · exact Or.inr ⟨by omega, rfl⟩
    · rintro (h | ⟨⟨h, h'⟩, rfl⟩)
      · exact Or.inl h
      · exact Or.inr ⟨by omega, by omega⟩
  | succ n ih =>
    intro k fuel hjk hf hno
    obtain ⟨fuel, rfl⟩ : ∃ f, fuel = f + 1 := ⟨fuel - 1, by omega⟩
    obtain ⟨c1, g1, g2, g3⟩ := ih (k + 1) fuel (by omega) (by omega) (fun a h1 h2 => hno a (by omega) h2)
    obtain ⟨c2, h1, h2, h3⟩ := nodeC_runs hN hS left ht (fuel := fuel) (j := k) (k := k) (le_refl _) (by omega) (by omega)
      (j' := k + 1) (k' := k + 1) (by unfold parentOf; rw [if_neg (by omega)]) (le_refl _) (by omega) (cache := cache)
      (by rw [if_pos (isNone_of_not_has (hno (k + 1) (by omega) (by omega)))]; exact g1) g2
      ((g3 (k + 1) (k + 1) (le_refl _) (by omega)).2 (Or.inr ⟨by omega, rfl⟩))
    refine ⟨c2, ?_, h2, fun a b hab hb => ?_⟩
    · rw [List.range'_succ, List.reverse_cons, List.map_append]
      exact h1
    · rw [h3 a b hab hb, g3 a b hab hb]
      constructor
      · rintro ((h | ⟨⟨h, h'⟩, rfl⟩) | ⟨rfl, rfl⟩)
        · exact Or.inl h
        · exact Or.inr ⟨by omega, rfl⟩
        · exact Or.inr ⟨by omega, rfl⟩
      · rintro (h | ⟨⟨h, h'⟩, rfl⟩)
        · exact Or.inl (Or.inl h)
        · by_cases e : a = k
          · exact Or.inr ⟨e, e⟩
          · exact Or.inl (Or.inr ⟨by omega, rfl⟩)

end Model
