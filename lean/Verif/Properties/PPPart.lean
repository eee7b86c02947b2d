import Verif.Proofs.PPPart
import Verif.Properties.PPSweep

/-! # C32, C50: pairwise perturbation with partial updates -/

namespace Properties

open Model Finset

section Srt

theorem relGt_asymm {a b : Rel} (h : relGt a b) : ¬ relGt b a := by
  cases a <;> cases b <;> simp_all [relGt]
  exact h.le

/-- Without NaN, the comparison is admissible for `std::sort`. -/
theorem C32_sortable {v : List Rel} (h : none ∉ v) : StrictWeak v := by
  rintro a ha b hb c hc hac
  cases a with
  | none => exact absurd ha h
  | some a => cases b with
    | none => exact absurd hb h
    | some b => cases c with
      | none => exact absurd hc h
      | some c =>
        simp only [relGt] at *
        by_contra hcon
        rw [not_or, not_lt, not_lt] at hcon
        exact absurd hac (not_lt.2 (hcon.1.trans hcon.2))

/-- A NaN beside two different numbers makes the call of `std::sort` undefined. -/
theorem C32_nan_unsortable {v : List Rel} (srt : List Rel → List ℕ) (h : none ∈ v) {a c : Rel} (ha : a ∈ v) (hc : c ∈ v)
    (hac : relGt a c) : sortIndexes srt v = .error .ub := by
  unfold sortIndexes
  rw [if_neg]
  intro hs
  rcases hs a ha none h c hc hac with h | h
  · cases a <;> simp [relGt] at h
  · simp [relGt] at h

example : ∃ v : List Rel, none ∈ v ∧ ∃ a ∈ v, ∃ c ∈ v, relGt a c :=
  ⟨[none, some 1, some 0], by simp, some 1, by simp, some 0, by simp, by simp [relGt]⟩

/-- A sorting function satisfying the contract (and stable) exists. -/
theorem exists_sort_stable : ∃ srt, SortSpec srt ∧ ∀ n, srt (List.replicate n (some ((0 : ℝ) : WithTop ℝ))) = List.range n := by
  classical
  let le : List Rel → ℕ → ℕ → Bool := fun v i j =>
    if i < v.length ∧ j < v.length then decide (¬ relGt (relAt v j) (relAt v i)) else decide (v.length ≤ j)
  refine ⟨fun v => (List.range v.length).mergeSort (le v), fun v hv => ⟨List.mergeSort_perm _ _, ?_⟩, ?_⟩
  · have hmem : ∀ i < v.length, relAt v i ∈ v := fun i hi => by
      simp [relAt, hi]
    have hp := List.pairwise_mergeSort (le := le v) (l := List.range v.length) (by
      intro a b c hab hbc
      simp only [le] at hab hbc ⊢
      by_cases ha : a < v.length <;> by_cases hb : b < v.length <;> by_cases hc : c < v.length <;>
        simp only [ha, hb, hc, and_self, and_true, and_false, true_and, false_and, if_true, if_false, decide_eq_true_eq] at hab hbc ⊢ <;> try omega
      intro hca
      rcases hv _ (hmem c hc) _ (hmem b hb) _ (hmem a ha) hca with h | h
      · exact hbc h
      · exact hab h) (by
      intro a b
      simp only [le]
      by_cases ha : a < v.length <;> by_cases hb : b < v.length <;>
        simp [ha, hb] <;> try omega
      exact imp_iff_not_or.1 (fun h => relGt_asymm h))
    have hlt : ∀ i ∈ (List.range v.length).mergeSort (le v), i < v.length := fun i hi => by
      simpa using (List.mergeSort_perm _ _).mem_iff.1 hi
    refine hp.imp_of_mem fun {a b} ha hb h => ?_
    simp only [le, hlt a ha, hlt b hb, and_self, if_true, decide_eq_true_eq] at h
    exact h
  · intro n
    simp only [List.length_replicate]
    refine List.mergeSort_of_pairwise ?_
    refine List.pairwise_lt_range.imp_of_mem fun {a b} ha hb hab => ?_
    rw [List.mem_range] at ha hb
    simp only [le, List.length_replicate, ha, hb, and_self, if_true, decide_eq_true_eq, relAt]
    simp [List.getD_eq_getElem?_getD, ha, hb, relGt]

theorem exists_sort : ∃ srt, SortSpec srt ∧ srt (List.replicate 3 (some ((0 : ℝ) : WithTop ℝ))) = [0, 1, 2] := by
  obtain ⟨srt, h1, h2⟩ := exists_sort_stable
  exact ⟨srt, h1, h2 3⟩

end Srt

section Select

variable {N : ℕ} {dims : Fin N → ℕ} {R : ℕ} {V : Tensor ℝ} {Winit : List (Tensor ℝ)} {ops : Cache ℝ}

theorem norm2_facNorm {W : List (Tensor ℝ)} (hS : Shaped dims R V W) (j : Fin N) {M : Tensor ℝ} (h : W[j.1]? = some M)
    (hl : M.lens = [dims j, R]) : norm2 M = facNorm dims R W j := by
  unfold norm2 facNorm
  rw [sqNorm_mat hl, mats_eq j h]

theorem relatives_eq {dM M : List (Tensor ℝ)} (h1 : Shaped dims R V dM) (h2 : Shaped dims R V M) :
    ∃ l, relatives N dM M = .ok l ∧ l.length = N ∧
      ∀ j : Fin N, relAt l j.1 = relQuot (facNorm dims R dM j) (facNorm dims R M j) := by
  refine ⟨(List.range N).map fun i => relQuot (norm2 (dM.getD i ⟨[], fun _ => 0⟩)) (norm2 (M.getD i ⟨[], fun _ => 0⟩)), ?_, by simp, ?_⟩
  · unfold relatives
    refine mapM_ok fun i hi => ?_
    rw [List.mem_range] at hi
    simp [rd, bind, Except.bind, pure, Except.pure, List.getElem?_eq_getElem (h1.count.symm ▸ hi : i < dM.length),
      List.getElem?_eq_getElem (h2.count.symm ▸ hi : i < M.length)]
  · intro j
    obtain ⟨A, a1, a2⟩ := h1.get j
    obtain ⟨B, b1, b2⟩ := h2.get j
    simp [relAt, a1, b1, norm2_facNorm h1 j a1 a2, norm2_facNorm h2 j b1 b2]

theorem partRun_keep {lam ratio : ℝ} {sel : List (Fin N)} {s s1 : PartState}
    (h : PartRun dims R V Winit lam ratio sel s s1) (j : Fin N) (hj : j ∉ sel) :
    s1.W[j.1]? = s.W[j.1]? ∧ s1.dW[j.1]? = s.dW[j.1]? ∧ s1.G[j.1]? = s.G[j.1]? ∧ s1.M[j.1]? = s.M[j.1]? := by
  induction h with
  | nil s => exact ⟨rfl, rfl, rfl, rfl⟩
  | cons h1 _ ih =>
    rw [List.mem_cons, not_or] at hj
    obtain ⟨a, b, c, d⟩ := ih hj.2
    exact ⟨a.trans (h1.otherW j hj.1), b.trans (h1.otherD j hj.1), c.trans (h1.otherG j hj.1), d.trans (h1.otherM j hj.1)⟩

theorem mats_congr {W W' : List (Tensor ℝ)} {j : Fin N} (h : W[j.1]? = W'[j.1]?) :
    (mats W j : ℕ → ℕ → ℝ) = mats W' j := by
  unfold mats
  simp only [h, List.getD_eq_getElem?_getD]

theorem partRun_disp {lam ratio : ℝ} {sel : List (Fin N)} {s s1 : PartState}
    (h : PartRun dims R V Winit lam ratio sel s s1) (j : Fin N) (hj : j ∈ sel) :
    ∀ x < dims j, ∀ r < R, mats s1.W j x r = mats Winit j x r + mats s1.dW j x r := by
  induction h with
  | nil s => simp at hj
  | @cons i l s s' s'' h1 h2 ih =>
    by_cases hl : j ∈ l
    · exact ih hl
    · obtain rfl := (List.mem_cons.1 hj).resolve_right hl
      obtain ⟨a, b, -, -⟩ := partRun_keep h2 j hl
      rw [mats_congr a, mats_congr b]
      exact h1.disp

theorem exists_fin {n : ℕ} {l : List ℕ} (h : ∀ i ∈ l, i < n) : ∃ l' : List (Fin n), l'.map Fin.val = l := by
  refine ⟨l.pmap (fun i hi => (⟨i, hi⟩ : Fin n)) h, ?_⟩
  rw [List.map_pmap]
  simp

/-- **C32.** Orders 3 to 9, any shape, `lam > 0`, an `update_percentage` `p` in [0,1], any admissible priorities, any
sorting function satisfying its contract: a sweep of the partial-update variant succeeds; it updates exactly `⌊N p⌋`
distinct modes, in decreasing order of priority, none of the others having a greater priority; the others keep factor,
displacement, gradient and right-hand side (up to the final rescaling of the factors); the updated ones satisfy
`W = W_init + dW` before that rescaling; the new priorities are the relative sizes of what is pending. -/
theorem C32_partial_update (h3 : 3 ≤ N) (h9 : N ≤ 9) (same : Bool) (hI : Shaped dims R V Winit) {s : PartState}
    (hs : PartShaped dims R V s) {lam ratio p : ℝ} (hl : 0 < lam) (hd : ∀ j, 0 < dims j) {kn : Kern ℝ} (hk : KernOk kn)
    {srt : List Rel → List ℕ} (hsort : SortSpec srt) (hrel : StrictWeak s.rel) (hp0 : 0 ≤ p) (hp1 : p ≤ 1) :
    ∃ (ops : Cache ℝ) (sel : List (Fin N)) (s1 s' : PartState), ppOperators same N V Winit = .ok ops ∧
      partSweep N R lam ratio p kn srt ops Winit s = .ok s' ∧
      sel.length = ⌊N * p⌋₊ ∧ sel.Nodup ∧
      (sel.Pairwise fun i j => ¬ relGt (relAt s.rel j.1) (relAt s.rel i.1)) ∧
      (∀ i ∈ sel, ∀ j, j ∉ sel → ¬ relGt (relAt s.rel j.1) (relAt s.rel i.1)) ∧
      PartRun dims R V Winit lam ratio sel s s1 ∧
      (∀ j, j ∉ sel → s1.W[j.1]? = s.W[j.1]? ∧ s1.dW[j.1]? = s.dW[j.1]? ∧ s1.G[j.1]? = s.G[j.1]? ∧ s1.M[j.1]? = s.M[j.1]?) ∧
      (∀ j ∈ sel, ∀ x < dims j, ∀ r < R, mats s1.W j x r = mats Winit j x r + mats s1.dW j x r) ∧
      normalize s1.W N = .ok s'.W ∧ s'.dW = s1.dW ∧ s'.G = s1.G ∧ s'.dM = s1.dM ∧ s'.M = s1.M ∧
      (∀ j : Fin N, relAt s'.rel j.1 = relQuot (facNorm dims R s1.dM j) (facNorm dims R s1.M j)) ∧
      PartShaped dims R V s' := by
  obtain ⟨ops, o1, o2⟩ := ppOperators_ok h3 h9 same hI
  obtain ⟨q1, q2⟩ := hsort s.rel hrel
  rw [hs.rel] at q1
  set srtd := srt s.rel with hsrtd
  have hlen : srtd.length = N := by simpa using q1.length_eq
  have hnd : srtd.Nodup := q1.nodup_iff.2 List.nodup_range
  have hmem : ∀ i, i ∈ srtd ↔ i < N := fun i => by rw [q1.mem_iff, List.mem_range]
  set n := ⌊N * p⌋₊ with hn
  have hNp : 0 ≤ (N : ℝ) * p := by positivity
  have hnN : n ≤ N := by
    rw [hn]
    refine Nat.floor_le_of_le ?_
    exact mul_le_of_le_one_right (by positivity) hp1
  have htr : (truncR (N * p)).toNat = n := by
    rw [truncR, if_pos hNp, hn, Int.floor_toNat]
  obtain ⟨sel, e1⟩ := exists_fin (n := N) (l := srtd.take n) (fun i hi => (hmem i).1 (List.mem_of_mem_take hi))
  have hselmem : ∀ j : Fin N, j ∈ sel ↔ j.1 ∈ srtd.take n := fun j => by
    rw [← e1, List.mem_map]
    exact ⟨fun h => ⟨j, h, rfl⟩, fun ⟨a, h, e⟩ => (Fin.ext e : a = j) ▸ h⟩
  obtain ⟨s1, r1, r2, r3⟩ := partRun_ok (by omega) o2 hI hl hd hk sel hs (ratio := ratio)
  obtain ⟨rel, a1, a2, a3⟩ := relatives_eq r3.dM r3.M
  obtain ⟨W', n1, n2⟩ := normalize_shape r3.W
  refine ⟨ops, sel, s1, { s1 with W := W', rel := rel }, o1, ?_, ?_, ?_, ?_, ?_, r2, partRun_keep r2, partRun_disp r2, n1,
    rfl, rfl, rfl, rfl, a3, ⟨n2, r3.G, r3.dW, r3.dM, r3.M, a2⟩⟩
  · unfold partSweep sortIndexes
    rw [if_pos hrel]
    simp only [bind, Except.bind]
    unfold partUpdates
    rw [htr]
    rw [foldlM_take srtd (fun (s : PartState) (i : ℕ) => partUpdate N R lam ratio kn ops Winit s i) n (by omega) s, ← e1, r1]
    simp only
    rw [a1]
    simp only
    rw [n1]
    rfl
  · rw [← List.length_map (f := Fin.val), e1, List.length_take, hlen]
    omega
  · exact List.Nodup.of_map Fin.val (by rw [e1]; exact hnd.sublist (List.take_sublist _ _))
  · have := q2.sublist (List.take_sublist n srtd)
    rw [← e1, List.pairwise_map] at this
    exact this
  · intro i hi j hj
    rw [hselmem] at hi hj
    have hj' : j.1 ∈ srtd.drop n := by
      have := (hmem j.1).2 j.2
      rw [← List.take_append_drop n srtd, List.mem_append] at this
      exact this.resolve_left hj
    rw [← List.take_append_drop n srtd, List.pairwise_append] at q2
    exact q2.2.2 i.1 hi j.1 hj'

/-- **C32 (the bound on the percentage is needed).** With `N p ≥ N + 1` the sweep reads past the end of the sorted list. -/
theorem C32_overrun (h3 : 3 ≤ N) (h9 : N ≤ 9) (same : Bool) (hI : Shaped dims R V Winit) {s : PartState}
    (hs : PartShaped dims R V s) {lam ratio p : ℝ} (hl : 0 < lam) (hd : ∀ j, 0 < dims j) {kn : Kern ℝ} (hk : KernOk kn)
    {srt : List Rel → List ℕ} (hsort : SortSpec srt) (hrel : StrictWeak s.rel) (hp : (N : ℝ) + 1 ≤ N * p) :
    ∃ ops, ppOperators same N V Winit = .ok ops ∧ partSweep N R lam ratio p kn srt ops Winit s = .error .ub := by
  obtain ⟨ops, o1, o2⟩ := ppOperators_ok h3 h9 same hI
  obtain ⟨q1, q2⟩ := hsort s.rel hrel
  rw [hs.rel] at q1
  refine ⟨ops, o1, ?_⟩
  set srtd := srt s.rel with hsrtd
  have hlen : srtd.length = N := by simpa using q1.length_eq
  obtain ⟨sel, e1⟩ := exists_fin (n := N) (l := srtd) (fun i hi => List.mem_range.1 (q1.mem_iff.1 hi))
  obtain ⟨s1, r1, r2, r3⟩ := partRun_ok (by omega) o2 hI hl hd hk sel hs (ratio := ratio)
  have htr : N + 1 ≤ (truncR (N * p)).toNat := by
    have h0 : (0 : ℝ) ≤ N * p := le_trans (by positivity) hp
    rw [truncR, if_pos h0, Int.floor_toNat]
    exact Nat.le_floor (by push_cast; exact hp)
  obtain ⟨m, hm⟩ := Nat.exists_eq_add_of_le htr
  unfold partSweep sortIndexes
  rw [if_pos hrel]
  simp only [bind, Except.bind]
  unfold partUpdates
  rw [hm, List.range_add, List.foldlM_append, List.range_succ, List.foldlM_append,
    foldlM_take srtd (fun (s : PartState) (i : ℕ) => partUpdate N R lam ratio kn ops Winit s i) N (by omega) s,
    List.take_of_length_le (by omega), ← e1, r1]
  have : rd (srt s.rel) (N : ℤ) = .error .ub := by
    rw [← hsrtd]
    simp [rd, ← hlen]
  simp [List.foldlM_cons, bind, Except.bind, this]

end Select

end Properties
