import Verif.Proofs.LegacyLoop
import Verif.Proofs.LegacySweep
import Verif.Proofs.PPDriverCP
import Verif.Proofs.KhatriRao

/-! The computations of `alsCP`. -/

namespace Model

open Finset Function

variable {N : ℕ}

section Ring

variable {K : Type} [CommRing K] {dims : Fin N → ℕ} {R : ℕ} {V : Tensor K} {W : List (Tensor K)}

theorem direct_lensH (hV : V.lens = List.ofFn dims) (p : List (Fin N)) :
    ((p.map fun k : Fin N => ((k : ℕ) : ℤ)).mapM fun z => rd V.lens z) = Except.ok (p.map dims) := by
  have : (p.map dims) = (p.map fun k : Fin N => ((k : ℕ) : ℤ)).map
      (fun z => if h : z.toNat < N then dims ⟨z.toNat, h⟩ else 0) := by
    rw [List.map_map]
    apply List.map_congr_left
    intro k _
    simp
  rw [this]
  apply mapM_ok
  intro z hz
  obtain ⟨k, hk, rfl⟩ := List.mem_map.1 hz
  rw [rd_of (j := k.1) (a := V.lens) (x := dims k) (by rw [hV]; simp)]
  simp

theorem directM_eq (hN : N ≤ 31) (hS : Shaped dims R V W) (i : Fin N) : directM N V W i = simpleM N V W i := by
  rw [simpleM_eq hN hS]
  obtain ⟨M, hM, hl⟩ := hS.get i
  unfold directM
  simp only [simple_index hN]
  rw [rd_of hM, ← List.map_take, direct_lensH hS.lensV]
  simp [bind, Except.bind, nrow, ncol, hl]

variable {s : ℕ}

theorem gradientStep_ok (h2 : 2 ≤ N) (hN : N ≤ 10) (hS : Shaped (fun _ : Fin N => s) R V W) {G : List (Tensor K)}
    (hG : G.length = N) (i : Fin N) :
    ∃ g, gradientStep N R V W G i.1 = .ok (G.set i.1 g) ∧ g.lens = [s, R] ∧
      mat g = Spec.alsGrad (fun _ => s) R 0 (arr V N) (mats W) i := by
  obtain ⟨M, m1, m2, m3, m4⟩ := simpleM_ok h2 hN hS i
  obtain ⟨S, s1, _, s3, s4⟩ := gramS_ok h2 hS 0 i (index := swapIdx N i.1) (fun m => mem_swapIdx i.2) (swapIdx_nodup i.1)
  obtain ⟨Wi, hr, _, hl, he⟩ := mats_get hS i
  obtain ⟨T, hT, hTc, hTl, hTv⟩ := einsum_matmul hl s3
  obtain ⟨g, hz, hzc, hzl, hzv⟩ := zipT_ok (fun a b : K => -a + b) (A := M) (B := T) (by rw [m3, hTl])
  rw [m3] at hzl hzv
  refine ⟨g, ?_, hzl, ?_⟩
  · unfold gradientStep
    simp only [bind, Except.bind]
    rw [directM_eq (by omega) hS, m1]
    simp only
    rw [s1]
    simp only
    rw [hr]
    simp only [m3, hT]
    rw [hz]
    rfl
  · unfold Spec.alsGrad
    apply canon_mat hzc hzl
    intro x hx r hr
    have h1 := m4 x hx r hr
    have h2 := hTv x hx r hr
    simp only [mat] at h1 h2 ⊢
    rw [hzv _ (fits_two.2 ⟨hx, hr⟩), h1, h2]
    congr 1
    refine Finset.sum_congr rfl fun k _ => ?_
    rw [he, ← s4]
    rfl

theorem gradientCP_ok (h2 : 2 ≤ N) (hN : N ≤ 10) (hS : Shaped (fun _ : Fin N => s) R V W) {G : List (Tensor K)}
    (hG : G.length = N) :
    ∃ G', gradientCP N R V W G = .ok G' ∧ G'.length = N ∧ ∀ i : Fin N, ∃ g, G'[i.1]? = some g ∧ g.lens = [s, R] ∧
      mat g = Spec.alsGrad (fun _ => s) R 0 (arr V N) (mats W) i := by
  obtain ⟨G', g1, g2, g3⟩ := foldlM_range'_inv (s := 0) (n := N) (a := G) (f := gradientStep N R V W)
    (P := fun k (G : List (Tensor K)) => G.length = N ∧ ∀ i : Fin N, i.1 < k → ∃ g, G[i.1]? = some g ∧ g.lens = [s, R] ∧
      mat g = Spec.alsGrad (fun _ => s) R 0 (arr V N) (mats W) i) ⟨hG, fun i h => by omega⟩ (by
      rintro j G1 _ hj ⟨a1, a2⟩
      obtain ⟨g, b1, b2, b3⟩ := gradientStep_ok h2 hN hS a1 ⟨j, by omega⟩
      refine ⟨_, b1, by simp [a1], fun i hi => ?_⟩
      by_cases e : i.1 = j
      · subst e
        exact ⟨g, by simp [a1], b2, b3⟩
      · obtain ⟨g', c1, c2⟩ := a2 i (by omega)
        exact ⟨g', by rw [List.getElem?_set_ne (by simpa using fun h => e h.symm)]; exact c1, c2⟩)
  refine ⟨G', ?_, g2, fun i => g3 i (by omega)⟩
  unfold gradientCP
  rw [List.range_eq_range', g1]

theorem alsCPUpdate_ok (h2 : 2 ≤ N) (hN : N ≤ 10) (hS : Shaped (fun _ : Fin N => s) R V W) {F : List (Tensor K)}
    (hF : Shaped (fun _ : Fin N => s) R V F) (solve : Spec.Solver K) (i : Fin N) (G : Fin N → ℕ → ℕ → K) :
    ∃ W', alsCPUpdate N R solve V F W i.1 = .ok W' ∧ Shaped (fun _ : Fin N => s) R V W' ∧
      mats W' = (Spec.modeUpdate (fun _ => s) R 0 solve
        (fun x r => Spec.mttkrp (fun _ => s) (arr V N) (mats W) i x r + mats F i x r) ⟨mats W, G⟩ i).W := by
  obtain ⟨M, m1, m2, m3, m4⟩ := simpleM_ok h2 hN hS i
  obtain ⟨S, s1, _, s3, s4⟩ := gramS_ok h2 hS 0 i (index := swapIdx N i.1) (fun m => mem_swapIdx i.2) (swapIdx_nodup i.1)
  obtain ⟨Fi, hFi, _, hFl, hFe⟩ := mats_get hF i
  obtain ⟨M', hz, hzc, hzl, hzv⟩ := zipT_ok (· + ·) (A := M) (B := Fi) (by rw [m3, hFl])
  rw [m3] at hzl hzv
  refine ⟨W.set i.1 (solveT solve M' S), ?_, hS.set i (by simp [solveT, nrow, ncol, hzl]), ?_⟩
  · unfold alsCPUpdate
    simp only [bind, Except.bind]
    rw [directM_eq (by omega) hS, m1]
    simp only
    rw [s1]
    simp only
    rw [hFi]
    simp only
    rw [hz]
    rfl
  · unfold Spec.modeUpdate
    simp only [mats_set hS.count]
    congr 1
    rw [mat_solveT solve hzl, s4]
    congr 2
    apply canon_mat hzc hzl
    intro x hx r hr
    have := m4 x hx r hr
    simp only [mat] at this ⊢
    rw [hzv _ (fits_two.2 ⟨hx, hr⟩), this, hFe]
    rfl

/-- All updates of a sweep of `alsCP`. -/
theorem alsCPUpdates_ok (h2 : 2 ≤ N) (hN : N ≤ 10) (hS : Shaped (fun _ : Fin N => s) R V W) {F : List (Tensor K)}
    (hF : Shaped (fun _ : Fin N => s) R V F) (solve : Spec.Solver K) (G : Fin N → ℕ → ℕ → K) :
    ∃ W', (List.range N).foldlM (alsCPUpdate N R solve V F) W = .ok W' ∧ Shaped (fun _ : Fin N => s) R V W' ∧
      mats W' = ((List.finRange N).foldl (fun st i => Spec.modeUpdate (fun _ => s) R 0 solve
        (fun x r => Spec.mttkrp (fun _ => s) (arr V N) st.W i x r + mats F i x r) st i) ⟨mats W, G⟩).W := by
  obtain ⟨W', h1, h3, G', h4⟩ := foldlM_range'_inv (s := 0) (n := N) (a := W) (f := alsCPUpdate N R solve V F)
    (P := fun j (X : List (Tensor K)) => Shaped (fun _ : Fin N => s) R V X ∧ ∃ G', 
      ((List.finRange N).take j).foldl (fun st i => Spec.modeUpdate (fun _ => s) R 0 solve
        (fun x r => Spec.mttkrp (fun _ => s) (arr V N) st.W i x r + mats F i x r) st i) ⟨mats W, G⟩ = ⟨mats X, G'⟩)
    ⟨hS, G, rfl⟩ (by
      rintro j X _ hj ⟨a1, G', a2⟩
      obtain ⟨X', b1, b2, b3⟩ := alsCPUpdate_ok h2 hN a1 hF solve ⟨j, by omega⟩ G'
      refine ⟨X', b1, b2, ?_⟩
      rw [List.take_add_one, List.foldl_append, a2, List.getElem?_eq_getElem (by simpa using hj)]
      simp only [List.getElem_finRange, Option.toList_some, List.foldl_cons, List.foldl_nil]
      refine ⟨(Spec.modeUpdate (fun _ => s) R 0 solve
        (fun x r => Spec.mttkrp (fun _ => s) (arr V N) (mats X) ⟨j, by omega⟩ x r + mats F ⟨j, by omega⟩ x r) ⟨mats X, G'⟩
          ⟨j, by omega⟩).G, ?_⟩
      rw [b3]
      rfl)
  rw [Nat.zero_add, List.take_of_length_le (by simp)] at h4
  exact ⟨W', by rw [List.range_eq_range', h1], h3, by rw [h4]⟩

end Ring

end Model

namespace Model

open Finset Function

variable {N : ℕ} {s R : ℕ} {V : Tensor ℝ} {W F G : List (Tensor ℝ)}

theorem fNorm_ok (hF : F.length = N) : fNorm N F = .ok (∑ i ∈ range N, norm2 (F.getD i ⟨[], fun _ => 0⟩)) := by
  obtain ⟨x, h1, h2⟩ := foldlM_range'_inv (s := 0) (n := N) (a := (0 : ℝ)) (f := fun s (i : ℕ) => do
      let f ← rd F i
      pure (s + norm2 f))
    (P := fun k x => x = ∑ i ∈ range k, norm2 (F.getD i ⟨[], fun _ => 0⟩)) (by simp) (by
      rintro j x _ hj rfl
      refine ⟨_, ?_, Finset.sum_range_succ _ _ |>.symm⟩
      rw [rd_of (x := F.getD j ⟨[], fun _ => 0⟩) (by
        rw [List.getD_eq_getElem?_getD, List.getElem?_eq_getElem (by omega)]; rfl)]
      rfl)
  unfold fNorm
  rw [List.range_eq_range', h1, h2, Nat.zero_add]

theorem fNorm_zero_iff (hF : Shaped (fun _ : Fin N => s) R V F) :
    ∑ i ∈ range N, norm2 (F.getD i ⟨[], fun _ => 0⟩) = 0 ↔ ∀ i : Fin N, ∀ x < s, ∀ r < R, mats F i x r = 0 := by
  rw [sum_eq_zero_iff_of_nonneg (f := fun i => norm2 (F.getD i ⟨[], fun _ => 0⟩)) (fun i _ => Real.sqrt_nonneg _)]
  have key : ∀ i : Fin N, norm2 (F.getD i.1 ⟨[], fun _ => 0⟩) = 0 ↔ ∀ x < s, ∀ r < R, mats F i x r = 0 := by
    intro i
    obtain ⟨M, m1, m2⟩ := hF.get i
    have e : F.getD i.1 ⟨[], fun _ => 0⟩ = M := by simp [m1]
    have e2 : (mats F i : ℕ → ℕ → ℝ) = mat M := by
      funext x r
      simp [mats, m1]
    rw [e, e2, norm2, sqNorm_mat m2, Real.sqrt_eq_zero (sum_nonneg fun _ _ => sum_nonneg fun _ _ => sq_nonneg _),
      sum_eq_zero_iff_of_nonneg (fun _ _ => sum_nonneg fun _ _ => sq_nonneg _)]
    constructor
    · intro h x hx r hr
      have := h x (mem_range.2 hx)
      rw [sum_eq_zero_iff_of_nonneg (fun _ _ => sq_nonneg _)] at this
      simpa using this r (mem_range.2 hr)
    · intro h x hx
      exact sum_eq_zero fun r hr => by rw [h x (mem_range.1 hx) r (mem_range.1 hr)]; simp
  constructor
  · intro h i
    exact (key i).1 (h i.1 (mem_range.2 i.2))
  · intro h i hi
    exact (key ⟨i, mem_range.1 hi⟩).2 (h ⟨i, mem_range.1 hi⟩)

theorem alsCPCheck_ok (h2 : 2 ≤ N) (hN : N ≤ 10) (hS : Shaped (fun _ : Fin N => s) R V W)
    (hF : Shaped (fun _ : Fin N => s) R V F) (hG : G.length = N) (n0 : ℝ) :
    ∃ G', alsCPCheck N R V F ⟨W, G, n0⟩ = .ok (⟨W, G', ∑ i ∈ range N, norm2 (F.getD i ⟨[], fun _ => 0⟩)⟩,
        Real.sqrt (∑ i : Fin N, ∑ x ∈ range s, ∑ r ∈ range R,
          (Spec.alsGrad (fun _ => s) R 0 (arr V N) (mats W) i x r - mats F i x r) ^ 2), 0) ∧ G'.length = N ∧
      ∀ i : Fin N, mats G' i = Spec.alsGrad (fun _ => s) R 0 (arr V N) (mats W) i := by
  obtain ⟨G', g1, g2, g3⟩ := gradientCP_ok h2 hN hS hG
  have hp : ∀ i : Fin N, ∃ P : Tensor ℝ, (do
      let g ← rd G' (i.1 : ℤ)
      let f ← rd F (i.1 : ℤ)
      zipT (· - ·) g f) = .ok P ∧ P.lens = [s, R] ∧ ∀ x < s, ∀ r < R, mat P x r =
        Spec.alsGrad (fun _ => s) R 0 (arr V N) (mats W) i x r - mats F i x r := by
    intro i
    obtain ⟨g, a1, a2, a3⟩ := g3 i
    obtain ⟨Fi, f1, _, f2, f3⟩ := mats_get hF i
    obtain ⟨P, p1, p2, p3, p4⟩ := zipT_ok (· - ·) (A := g) (B := Fi) (by rw [a2, f2])
    refine ⟨P, ?_, by rw [p3, a2], ?_⟩
    · simp only [bind, Except.bind]
      rw [rd_of a1]
      simp only
      rw [f1]
      exact p1
    · intro x hx r hr
      have := p4 [x, r] (by rw [a2]; exact fits_two.2 ⟨hx, hr⟩)
      rw [← a3, f3]
      exact this
  choose P p1 p2 p3 using hp
  have hP : ((List.range N).mapM fun (i : ℕ) => do
      let g ← rd G' i
      let f ← rd F i
      zipT (· - ·) g f) = Except.ok (List.ofFn P) := by
    rw [mapM_ok (g := fun i => if h : i < N then P ⟨i, h⟩ else ⟨[], fun _ => 0⟩)]
    · congr 1
      apply List.ext_getElem
      · simp
      · intro n h1 h2
        simp at h1
        simp [h1]
    · intro i hi
      have hi := List.mem_range.1 hi
      rw [dif_pos hi]
      exact p1 ⟨i, hi⟩
  have hg : gradnorm (List.ofFn P) N = .ok (Real.sqrt (∑ i : Fin N, ∑ x ∈ range s, ∑ r ∈ range R,
          (Spec.alsGrad (fun _ => s) R 0 (arr V N) (mats W) i x r - mats F i x r) ^ 2)) := by
    rw [gradnorm_eq (T := fun i => if h : i < N then P ⟨i, h⟩ else ⟨[], fun _ => 0⟩) (fun j hj => by
      simp [hj]), Finset.sum_range]
    congr 2
    refine sum_congr rfl fun j _ => ?_
    simp only [j.2, dif_pos]
    rw [sqNorm_mat (p2 j)]
    exact sum_congr rfl fun x hx => sum_congr rfl fun r hr => by rw [p3 j x (mem_range.1 hx) r (mem_range.1 hr)]
  refine ⟨G', ?_, g2, fun i => ?_⟩
  · unfold alsCPCheck
    simp only [bind, Except.bind] at hP ⊢
    rw [g1]
    simp only
    rw [hP]
    simp only
    rw [hg]
    simp only
    rw [fNorm_ok hF.count]
    rfl
  · obtain ⟨g, a1, a2, a3⟩ := g3 i
    rw [← a3]
    funext x r
    simp [mats, a1]

end Model
