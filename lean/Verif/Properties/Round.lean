import Verif.Proofs.RoundRun
import Verif.Proofs.RoundLegacy
import Verif.Proofs.RoundBuild
import Verif.Properties.Build
import Verif.Properties.Trees
import Verif.Properties.Legacy
import Verif.Properties.TuckLoop
import Mathlib.Analysis.InnerProductSpace.PiL2

/-! # C68: rounding errors

The standard model of floating-point arithmetic with unit roundoff `eps`: every addition and multiplication of a tensor contraction,
done in any order, has a relative error of at most `eps` (`FlEval`).  The linear solver is arbitrary, so it may round too. -/

namespace Properties

open Model Finset

variable {N : ℕ}

/-- Relative error bound of `k` successive contractions of up to `B` terms: `(1 + eps)^((B+1) k) - 1`, which is about `(B+1) k eps`. -/
noncomputable def errBound (eps : ℝ) (B k : ℕ) : ℝ := (1 + eps) ^ ((B + 1) * k) - 1

theorem errBound_eq (eps : ℝ) (B k : ℕ) : (1 + ((1 + eps) ^ (B + 1) - 1)) ^ k - 1 = errBound eps B k := by
  unfold errBound
  rw [add_sub_cancel, ← pow_mul]

theorem errU_nonneg {eps : ℝ} (he : 0 ≤ eps) (B : ℕ) : 0 ≤ (1 + eps) ^ (B + 1) - 1 :=
  sub_nonneg.2 (one_le_pow₀ (by linarith))

/-- **C68.** The bound is small: if `n = (B+1) k` operations satisfy `n eps ≤ 1`, it is at most `2 n eps`. -/
theorem C68_bound_small {eps : ℝ} (he : 0 ≤ eps) (B k : ℕ) (h : (((B + 1) * k : ℕ) : ℝ) * eps ≤ 1) :
    errBound eps B k ≤ 2 * (((B + 1) * k : ℕ) : ℝ) * eps := by
  unfold errBound
  generalize (B + 1) * k = n at *
  have key : ∀ m : ℕ, (m : ℝ) * eps ≤ 1 → (1 + eps) ^ m ≤ 1 + (m : ℝ) * eps + ((m : ℝ) * eps) ^ 2 := by
    intro m
    induction m with
    | zero => intro _; simp
    | succ m ih =>
      intro hm
      push_cast at hm ⊢
      have hm0 : (0 : ℝ) ≤ m := Nat.cast_nonneg m
      have h0 : (m : ℝ) * eps ≤ 1 := by nlinarith
      have := ih h0
      rw [pow_succ]
      nlinarith [mul_nonneg hm0 he, mul_nonneg (mul_nonneg hm0 he) he, mul_le_mul_of_nonneg_right this (show 0 ≤ 1 + eps by linarith), sq_nonneg eps,
        mul_nonneg (mul_nonneg (mul_nonneg hm0 he) he) (sub_nonneg.2 h0)]
  have := key n h
  have h0 : 0 ≤ (n : ℝ) * eps := mul_nonneg (Nat.cast_nonneg n) he
  nlinarith

/-- **C68 (DT).** Order 3..31, any shape, rank, tensor, factors, regularisation and solver, edge lengths and rank at most `B`: with
floating-point contractions, `2m` steps of a fresh `CPDTOptimizer` succeed and are `m` sweeps of ALS updates of the modes `0..N-1`, where
every MTTKRP, normal-equation matrix and gradient has, entry by entry, at most the stated error relative to the same expression of the
absolute values; the tree's reuse of intermediates loses nothing, and no error depends on earlier sweeps. -/
theorem C68_dt {eps : ℝ} (he : 0 ≤ eps) {P : Arith} (hP : FlEval eps P) (h3 : 3 ≤ N) (hN : N ≤ 31) {dims : Fin N → ℕ} {R B : ℕ} (hB : 1 ≤ B)
    (hd : ∀ j, dims j ≤ B) (hR : R ≤ B) {V : Tensor ℝ} {f : Fac ℝ} (hS : Shaped dims R V f.W) (hG : f.G.length = N) (lam : ℝ)
    (solve : Spec.Solver ℝ) (m : ℕ) :
    ∃ o0 s f', dtInit N = .ok o0 ∧ iterM (dtStepR P N R lam solve V) (2 * m) (o0, f) = .ok (s, f') ∧
      Spec.RoundedRun dims R lam solve (arr V N) (errBound eps B (N - 1)) (errBound eps B N) (errBound eps B (N + 2))
        (List.replicate m (List.finRange N)).flatten (facs N f) (facs N f') := by
  obtain ⟨o0, f', h1, h2, _, _, h5⟩ := dt_stepsR (hP.roundOk he B) (errU_nonneg he B) hB h3 hN hd hR hS hG lam solve m
  simp only [errBound_eq] at h5
  exact ⟨o0, o0, f', h1, h2, h5⟩

/-- **C68 (MSDT).** The same for `CPMSDTOptimizer`: `k` steps are the first `k(N-1)` updates of cyclic ALS. -/
theorem C68_msdt {eps : ℝ} (he : 0 ≤ eps) {P : Arith} (hP : FlEval eps P) (h3 : 3 ≤ N) (hN : N ≤ 31) {dims : Fin N → ℕ} {R B : ℕ} (hB : 1 ≤ B)
    (hd : ∀ j, dims j ≤ B) (hR : R ≤ B) {V : Tensor ℝ} {f : Fac ℝ} (hS : Shaped dims R V f.W) (hG : f.G.length = N) (lam : ℝ)
    (solve : Spec.Solver ℝ) (k : ℕ) :
    ∃ o0 s f', msdtInit N = .ok o0 ∧ iterM (msdtStepR P N R lam solve V) k (o0, f) = .ok (s, f') ∧
      Spec.RoundedRun dims R lam solve (arr V N) (errBound eps B (N - 1)) (errBound eps B N) (errBound eps B (N + 2))
        (Spec.cyclicModes N (by omega) (k * (N - 1))) (facs N f) (facs N f') := by
  obtain ⟨o0, h0, hl, ht⟩ := msdtInit_ok h3 hN
  obtain ⟨s, f', h2, _, _, _, _, h5⟩ := msdt_stepsR (hP.roundOk he B) (errU_nonneg he B) hB h3 hN hd hR ht hl hS hG lam solve k
  simp only [errBound_eq] at h5
  exact ⟨o0, s, f', h0, h2, h5⟩

/-- **C68 (direct method).** The same for `CPSimpleOptimizer` on equal mode lengths, order 2..10. -/
theorem C68_simple {eps : ℝ} (he : 0 ≤ eps) {P : Arith} (hP : FlEval eps P) (h2 : 2 ≤ N) (hN : N ≤ 10) {s R B : ℕ} (hB : 1 ≤ B)
    (hd : s ≤ B) (hR : R ≤ B) {V : Tensor ℝ} {f : Fac ℝ} (hS : Shaped (fun _ : Fin N => s) R V f.W) (hG : f.G.length = N) (lam : ℝ)
    (solve : Spec.Solver ℝ) (m : ℕ) :
    ∃ f', iterM (simpleStepR P N R lam solve V) m f = .ok f' ∧
      Spec.RoundedRun (fun _ => s) R lam solve (arr V N) (errBound eps B N) (errBound eps B N) (errBound eps B (N + 2))
        (List.replicate m (List.finRange N)).flatten (facs N f) (facs N f') := by
  obtain ⟨f', h1, _, _, h4⟩ := simple_stepsR (hP.roundOk he B) (errU_nonneg he B) hB h2 hN hd hR hS hG lam solve m
  simp only [errBound_eq] at h4
  exact ⟨f', h1, h4⟩

/-- **C68 (legacy tree).** The same for the updates of a sweep of `alsCP_DT` with `F = 0`, order 4 or 6..31; some leaves contract two
modes at once, so the number of terms is up to `b²` where `b` bounds the edge lengths and the rank. -/
theorem C68_legacy {eps : ℝ} (he : 0 ≤ eps) {P : Arith} (hP : FlEval eps P) (h4 : 4 ≤ N) (h5 : N ≠ 5) (hN : N ≤ 31) {dims : Fin N → ℕ}
    {R b : ℕ} (hb : 1 ≤ b) (hd : ∀ j, dims j ≤ b) (hR : R ≤ b) {V : Tensor ℝ} {F : List (Tensor ℝ)} (hF : Shaped dims R V F)
    (hF0 : ∀ i x r, mats (N := N) F i x r = 0) {f : Fac ℝ} (hS : Shaped dims R V f.W) (hG : f.G.length = N) (lam : ℝ) (solve : Spec.Solver ℝ) :
    ∃ f', legacyUpdatesR P N R lam solve V F f = .ok f' ∧ Shaped dims R V f'.W ∧ f'.G.length = N ∧
      Spec.RoundedRun dims R lam solve (arr V N) (errBound eps (b * b) N) (errBound eps (b * b) N) (errBound eps (b * b) (N + 2))
        (List.finRange N) (facs N f) (facs N f') := by
  obtain ⟨f', h1, h2, h3, h6⟩ := legacyUpdatesR_ok (hP.roundOk he (b * b)) (errU_nonneg he _) hb h4 h5 hN hd hR lam solve hF hF0 hS hG
  simp only [errBound_eq] at h6
  exact ⟨f', h1, h2, h3, h6⟩

/-- **C68 (`build_V`).** Entry by entry, the computed reconstruction is within `errBound` times the reconstruction of the absolute
values, orders 2 to 18. -/
theorem C68_build_V {eps : ℝ} (he : 0 ≤ eps) {P : Arith} (hP : FlEval eps P) (h2 : 2 ≤ N) (hN : N ≤ 18) {dims : Fin N → ℕ} {R B : ℕ}
    (hB : 1 ≤ B) (hd : ∀ j, dims j ≤ B) (hR : R ≤ B) {V : Tensor ℝ} {W : List (Tensor ℝ)} (hS : Shaped dims R V W) :
    ∃ T, buildVR P W N = .ok T ∧ T.lens = List.ofFn dims ∧ ∀ idx ∈ Spec.Box dims,
      |arr T N idx - Spec.recon R (mats W) idx| ≤ errBound eps B (N - 1) * Spec.recon R (Spec.absMats (mats W)) idx := by
  obtain ⟨E, A, T, e1, a1, t1, t2⟩ := buildVR_ok (hP.roundOk he B) (errU_nonneg he B) hB h2 (by omega)
    (fun j hj => by rw [dimsN, dif_pos hj]; exact hd _) hR (shaped_getN hS)
  obtain ⟨E', k1, k2, k3⟩ := C15_build_V h2 hN hS
  obtain ⟨A', l1, l2, l3⟩ := C15_build_V h2 hN hS.abs
  rw [e1] at k1
  rw [a1] at l1
  cases k1
  cases l1
  refine ⟨T, t1, by rw [← t2.1]; exact k2, fun idx hidx => ?_⟩
  rw [← k3 idx hidx, ← mats_abs, ← l3 idx hidx, ← errBound_eq]
  exact (t2.2.2 _).2

theorem sqrt_sum_triangle {ι : Type} (s : Finset ι) (a b : ι → ℝ) :
    |Real.sqrt (∑ i ∈ s, a i ^ 2) - Real.sqrt (∑ i ∈ s, b i ^ 2)| ≤ Real.sqrt (∑ i ∈ s, (a i - b i) ^ 2) := by
  have h := abs_norm_sub_norm_le (WithLp.toLp 2 (fun i : s => a i) : EuclideanSpace ℝ s) (WithLp.toLp 2 fun i : s => b i)
  rw [EuclideanSpace.norm_eq, EuclideanSpace.norm_eq, EuclideanSpace.norm_eq] at h
  simp only [Real.norm_eq_abs, sq_abs, PiLp.sub_apply] at h
  rwa [Finset.sum_coe_sort s fun i => a i ^ 2, Finset.sum_coe_sort s fun i => b i ^ 2, Finset.sum_coe_sort s fun i => (a i - b i) ^ 2] at h

/-- **C68 (residual).** The residual printed by `CPD::als` and `alsCP_DT` differs from `‖V - [[W]]‖_F` by at most `errBound` times
`‖ |V| + [[|W|]] ‖_F` (the norm itself taken exactly). -/
theorem C68_residual {eps : ℝ} (he : 0 ≤ eps) {P : Arith} (hP : FlEval eps P) (h2 : 2 ≤ N) (hN : N ≤ 18) {dims : Fin N → ℕ} {R B : ℕ}
    (hB : 1 ≤ B) (hd : ∀ j, dims j ≤ B) (hR : R ≤ B) {V : Tensor ℝ} {W : List (Tensor ℝ)} (hS : Shaped dims R V W) :
    ∃ r, residualR P V W N = .ok r ∧
      |r - Real.sqrt (∑ idx ∈ Spec.Box dims, (arr V N idx - Spec.recon R (mats W) idx) ^ 2)| ≤ errBound eps B N *
        Real.sqrt (∑ idx ∈ Spec.Box dims, (|arr V N idx| + Spec.recon R (Spec.absMats (mats W)) idx) ^ 2) := by
  have hu := errU_nonneg he B
  obtain ⟨T, t1, t2, t3⟩ := C68_build_V he hP h2 hN hB hd hR hS
  have hz : zipT (fun a b : ℝ => a - b) V T = .ok ⟨V.lens, fun idx => if fits V.lens idx = true then V.val idx - T.val idx else 0⟩ := by
    unfold zipT
    rw [if_pos (by rw [hS.lensV, t2])]
  obtain ⟨D, d1, d2, d3⟩ := (hP.roundOk he B).zp_ok (f := fun a b => a - b) ⟨1, -1, by simp, by simp, fun a b => by ring⟩ hz
  have hD : D.lens = List.ofFn dims := by rw [d2]; exact hS.lensV
  have hent : ∀ idx ∈ Spec.Box dims, |arr D N idx - (arr V N idx - Spec.recon R (mats W) idx)| ≤
      errBound eps B N * (|arr V N idx| + Spec.recon R (Spec.absMats (mats W)) idx) := by
    intro idx hidx
    have h1 := d3 (List.ofFn idx)
    simp only at h1
    rw [if_pos (by rw [hS.lensV, fits_ofFn]; exact Spec.mem_Box.1 hidx)] at h1
    have h2' := t3 idx hidx
    change |arr D N idx - (arr V N idx - arr T N idx)| ≤ _ * |arr V N idx - arr T N idx| at h1
    have hrec : |Spec.recon R (mats W) idx| ≤ Spec.recon R (Spec.absMats (mats W)) idx := by
      unfold Spec.recon
      refine (abs_sum_le_sum_abs _ _).trans (le_of_eq (sum_congr rfl fun r _ => ?_))
      rw [Finset.abs_prod]
      rfl
    have hc : (1 : ℝ) ≤ (1 + ((1 + eps) ^ (B + 1) - 1)) ^ (N - 1) := one_le_pow₀ (by linarith)
    have := Spec.add_rel hu hc (E1 := arr V N idx) (E2 := -Spec.recon R (mats W) idx) (A1 := |arr V N idx|)
      (A2 := Spec.recon R (Spec.absMats (mats W)) idx) (a := arr V N idx) (b := -arr T N idx) (v := arr D N idx) le_rfl
      (by rw [abs_neg]; exact hrec) (by
        rw [sub_self, abs_zero]
        exact mul_nonneg (by linarith) (abs_nonneg _)) (by
        rw [errBound_eq, show -arr T N idx - -Spec.recon R (mats W) idx = -(arr T N idx - Spec.recon R (mats W) idx) by ring, abs_neg]
        exact h2') (by simpa [sub_eq_add_neg] using h1)
    rw [mul_comm (1 + _), ← pow_succ, show N - 1 + 1 = N by omega, errBound_eq, ← sub_eq_add_neg] at this
    exact this
  refine ⟨norm2 D, ?_, ?_⟩
  · unfold residualR diffVR
    simp only [t1, bind, Except.bind, pure, Except.pure]
    rw [d1]
  · unfold norm2
    rw [sqNorm_eq hD]
    refine (sqrt_sum_triangle _ _ _).trans ?_
    have hb0 : 0 ≤ errBound eps B N := sub_nonneg.2 (one_le_pow₀ (by linarith))
    rw [show errBound eps B N * Real.sqrt (∑ idx ∈ Spec.Box dims, (|arr V N idx| + Spec.recon R (Spec.absMats (mats W)) idx) ^ 2) =
      Real.sqrt (∑ idx ∈ Spec.Box dims, (errBound eps B N * (|arr V N idx| + Spec.recon R (Spec.absMats (mats W)) idx)) ^ 2) by
      conv_lhs => rw [← Real.sqrt_sq hb0]
      rw [← Real.sqrt_mul (sq_nonneg _), Finset.mul_sum]
      simp only [mul_pow]]
    refine Real.sqrt_le_sqrt (sum_le_sum fun idx hidx => ?_)
    rw [← sq_abs]
    exact pow_le_pow_left₀ (abs_nonneg _) (hent idx hidx) 2

/-- **C68 (meaning of the bounds).** With all bounds 0 a rounded run is the exact ALS run of the same modes. -/
theorem C68_zero_bounds {dims : Fin N → ℕ} {R : ℕ} {lam : ℝ} {solve : Spec.Solver ℝ} {V : (Fin N → ℕ) → ℝ} {l : List (Fin N)}
    {st st' : Spec.AlsState N ℝ} (h : Spec.RoundedRun dims R lam solve V 0 0 0 l st st') :
    st' = Spec.alsRun dims R lam solve V l st := by
  induction h with
  | nil => rfl
  | @cons i l st st1 st2 h1 _ ih =>
    rw [ih]
    unfold Spec.alsRun
    rw [List.foldl_cons]
    congr 1
    obtain ⟨M, S, g, hM, hS, hg, hW, hG⟩ := h1
    simp only [zero_mul, abs_nonpos_iff, sub_eq_zero] at hM hS hg
    have eM : Spec.clip (dims i) R M = Spec.clip (dims i) R (Spec.mttkrp dims V st.W i) := by
      funext x r
      unfold Spec.clip
      split_ifs with h
      · exact hM x h.1 r h.2
      · rfl
    have eS : Spec.clip R R S = Spec.normalMat dims R lam st.W i := by
      funext x r
      unfold Spec.clip
      split_ifs with h
      · exact hS x h.1 r h.2
      · unfold Spec.normalMat Spec.clip
        rw [if_neg h]
    have eg : Spec.clip (dims i) R g = Spec.alsGrad dims R lam V st.W i := by
      funext x r
      unfold Spec.clip
      split_ifs with h
      · exact hg x h.1 r h.2
      · unfold Spec.alsGrad Spec.clip
        rw [if_neg h]
    obtain ⟨W1, G1⟩ := st1
    simp only at hW hG
    rw [hW, hG, eM, eS, eg]
    rfl

/-! Non-vacuity: the order-4 problem with four different mode lengths and rank 2, evaluated left to right with every operation
rounded down in absolute value by one part in 2^53; the exact evaluation is the case `eps = 0`. -/

/-- A rounding function. -/
noncomputable def exRnd (x : ℝ) : ℝ := x * (1 - 1 / 2 ^ 53)

theorem exFl : FlEval (1 / 2 ^ 53) (seqArith exRnd) := flEval_seq fun x => by
  unfold exRnd
  rw [show x * (1 - 1 / 2 ^ 53) - x = -((1 / 2 ^ 53) * x) by ring, abs_neg, abs_mul, abs_of_pos (show (0 : ℝ) < 1 / 2 ^ 53 by positivity)]

theorem exDims4 : ∀ j : Fin 4, (![2, 3, 1, 4] : Fin 4 → ℕ) j ≤ 4 := by decide

example := C68_dt (by positivity) exFl (by norm_num) (by norm_num) (B := 4) (by norm_num) exDims4 (by norm_num) exShapedR rfl 3
  (fun _ _ M _ => M) 5
example := C68_msdt (by positivity) exFl (by norm_num) (by norm_num) (B := 4) (by norm_num) exDims4 (by norm_num) exShapedR rfl 3
  (fun _ _ M _ => M) 7
example := C68_legacy (N := 4) (by positivity) exFl (by norm_num) (by norm_num) (by norm_num) (b := 4) (by norm_num) exDims4 (by norm_num)
  (V := exVR) (F := exF0) ⟨rfl, rfl, by intro j M h; fin_cases j <;> (simp [exF0] at h; subst h; rfl)⟩
  (by intro j x r; fin_cases j <;> rfl) exShapedR rfl 3 (fun _ _ M _ => M)
example := C68_simple (by positivity) exFl (by norm_num) (by norm_num) (B := 3) (by norm_num) (by norm_num) (by norm_num)
  (f := ⟨exCubeW, exCubeW⟩) exCubeShaped rfl 3 (fun _ _ M _ => M) 5
example := C68_build_V (by positivity) exFl (by norm_num) (by norm_num) (B := 4) (by norm_num) exDims4 (by norm_num) exShapedR
example := C68_residual (by positivity) exFl (by norm_num) (by norm_num) (B := 4) (by norm_num) exDims4 (by norm_num) exShapedR
example := C68_bound_small (eps := 1 / 2 ^ 53) (by positivity) 1000 30 (by norm_num)

end Properties
