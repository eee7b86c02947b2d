import Verif.Proofs.LowRankBest
import Verif.Properties.LowRank

/-! # C14 and C58: low-rank corrections are optimal; the low-rank dimension-tree optimizer never increases the objective -/

namespace Properties

open Model Finset Matrix EckartYoung

/-- **C14 (optimal, with the decomposition the code calls).** With kernels satisfying their contracts (Cholesky, triangular
solves, truncated SVD), `get_rankR_update_cholesky` without randomisation returns the best correction: for every positive
definite `γ`, `A + U s VT` minimises the mode objective among all modifications `A + P Q` of rank at most `q`, any
`q ≤ min(n, R)`. -/
theorem C14_rankR_optimal_svd {k : Kern ℝ} (hk : LRKernOk k) {X0 : Tensor ℝ} {n R q : ℕ} {M A gamma : Tensor ℝ}
    (hM : M.lens = [n, R]) (hA : A.lens = [n, R]) (hg : gamma.lens = [R, R]) (hp : Spec.PosDef R (mat gamma))
    (hq : q ≤ min n R) :
    ∃ u', rankRUpdate k X0 q M A gamma false = .ok u' ∧ LRShape u' n q R ∧
      ∀ (P : Matrix (Fin n) (Fin q) ℝ) (Q : Matrix (Fin q) (Fin R) ℝ),
        quadObj (toM R R gamma) (toM n R M) (toM n R A + usv n q R u') ≤
          quadObj (toM R R gamma) (toM n R M) (toM n R A + P * Q) :=
  C14_rankR_optimal hk.base.tri hM hA hg (hk.base.chol R gamma hg hp) fun X hX =>
    ⟨(hk.trunc n R q X hX hq).shape, fun P Q => (hk.trunc n R q X hX hq).best P Q⟩

/-- **C14 (randomised branch does not increase the objective).** -/
theorem C14_rankR_random_descends {k : Kern ℝ} (hk : LRKernOk k) {X0 : Tensor ℝ} {n R q : ℕ} {M A gamma : Tensor ℝ}
    (hM : M.lens = [n, R]) (hA : A.lens = [n, R]) (hg : gamma.lens = [R, R]) (hp : Spec.PosDef R (mat gamma))
    (hX0 : X0.lens = [R, q]) (hn : q ≤ n) (hR : q ≤ R) :
    ∃ u', rankRUpdate k X0 q M A gamma true = .ok u' ∧ LRShape u' n q R ∧
      quadObj (toM R R gamma) (toM n R M) (toM n R A + usv n q R u') ≤
        quadObj (toM R R gamma) (toM n R M) (toM n R A) := by
  have hL := hk.base.chol R gamma hg hp
  have hqr : ∀ X : Tensor ℝ, X.lens = [R, q] → QrSpec R q (k.qr X) := fun X hX => hk.qr R q X hX hR
  have hsvd : ∀ B : Tensor ℝ, B.lens = [n, q] → LRShape (k.svd B q) n q q ∧ usv n q q (k.svd B q) = toM n q B := by
    intro B hB
    have h := hk.trunc n q q B hB (by omega)
    exact ⟨h.shape, h.exact (by omega)⟩
  have hdec : ∀ X : Tensor ℝ, X.lens = [n, R] → ∃ u,
      (if true = true then randomizedSvd k X0 X q 1 else Except.ok (k.svd X q)) = .ok u ∧ LRShape u n q R := by
    intro X hX
    obtain ⟨u, Q, a1, a2, _, _⟩ := randomizedSvd_ok hX hX0 hqr hsvd 1
    exact ⟨u, by simpa using a1, a2⟩
  obtain ⟨X, u, u', h1, h2, h3, h4, h5, h6, h7⟩ := rankRUpdate_ok (X0 := X0) hk.base.tri hM hA hg hL true hdec
  obtain ⟨v, Q, a1, a2, a3, a4⟩ := randomizedSvd_ok h1 hX0 hqr hsvd 1
  simp only [if_true] at h3
  rw [a1] at h3
  cases h3
  refine ⟨u', h5, h6, ?_⟩
  rw [quadObj_square hL.toM h2, h7, a4]
  have hpy := fsq_pyth a3.2 (toM n R X)ᵀ
  have e : fsq ((toM n R X)ᵀ - toM R q Q * ((toM R q Q)ᵀ * (toM n R X)ᵀ)) =
      fsq (toM n R X - toM n R X * (toM R q Q * (toM R q Q)ᵀ)) := by
    rw [← fsq_transpose]
    congr 1
    simp only [transpose_sub, transpose_mul, transpose_transpose, Matrix.mul_assoc]
  rw [e, fsq_transpose] at hpy
  have h0 := fsq_nonneg ((toM R q Q)ᵀ * (toM n R X)ᵀ)
  unfold fsq at hpy h0
  linarith

/-- The routine plugged into the low-rank optimizers is the best one. -/
theorem C14_lrSolver_best {k : Kern ℝ} (hk : LRKernOk k)
    (X0 : ℕ → ℕ → (ℕ → ℕ → ℝ) → (ℕ → ℕ → ℝ) → (ℕ → ℕ → ℝ) → Tensor ℝ) (q : ℕ) : Spec.LRBest q (lrSolver k X0 q false) := by
  intro n R M A S hn hR hp P Q
  obtain ⟨u, h1, _, h3⟩ := C14_rankR_optimal_svd hk (X0 := X0 n R M A S) (M := ofMat n R M) (A := ofMat n R A)
    (gamma := ofMat R R S) rfl rfl rfl (posDef_ofMat hp) (le_min hn hR)
  unfold lrSolver
  rw [h1]
  rw [quad_eq, quad_eq, lrProd_of]
  have := h3 (Matrix.of fun x a => P x a) (Matrix.of fun a r => Q a r)
  rw [toM_ofMat, toM_ofMat] at this
  refine this.trans (le_of_eq ?_)
  congr 1
  rw [toM_ofMat]
  funext x r
  change A x r + _ = A x r + _
  rw [sum_range]
  rfl

/-- With randomisation the routine never increases the objective. -/
theorem C14_lrSolver_descends {k : Kern ℝ} (hk : LRKernOk k)
    {X0 : ℕ → ℕ → (ℕ → ℕ → ℝ) → (ℕ → ℕ → ℝ) → (ℕ → ℕ → ℝ) → Tensor ℝ} {q : ℕ} (hX0 : ∀ n R M A S, (X0 n R M A S).lens = [R, q])
    (random : Bool) : Spec.LRDescends q (lrSolver k X0 q random) := by
  cases random
  · exact (C14_lrSolver_best hk X0 q).descends
  · intro n R M A S hn hR hp
    obtain ⟨u, h1, _, h3⟩ := C14_rankR_random_descends hk (M := ofMat n R M) (A := ofMat n R A)
      (gamma := ofMat R R S) rfl rfl rfl (posDef_ofMat hp) (hX0 n R M A S) hn hR
    unfold lrSolver
    rw [h1]
    rw [quad_eq, quad_eq, lrProd_of]
    rw [toM_ofMat, toM_ofMat, toM_ofMat] at h3
    rw [toM_ofMat]
    exact h3

/-- **C58.** Any number of `CPDTLROptimizer` steps from a fresh optimizer, with or without randomised decompositions, never
increases `‖V - [[W]]‖² + lam ∑_j ‖W_j‖²`, for any shape, order 3..31, CP rank `R` and update rank `q` with `1 ≤ q ≤ R` and
`q` at most every mode length, `lam > 0`, and kernels satisfying their contracts. -/
theorem C58_dtlr_monotone {N : ℕ} (h3 : 3 ≤ N) (hN : N ≤ 31) {dims : Fin N → ℕ} {R : ℕ} {V : Tensor ℝ} {f : Fac ℝ}
    (hS : Shaped dims R V f.W) (hG : f.G.length = N) {lam : ℝ} (hl : 0 < lam) {kn : Kern ℝ} (hk : LRKernOk kn) {q : ℕ}
    (hq : 1 ≤ q) (hqd : ∀ j, q ≤ dims j) (hqR : q ≤ R)
    {X0 : ℕ → ℕ → (ℕ → ℕ → ℝ) → (ℕ → ℕ → ℝ) → (ℕ → ℕ → ℝ) → Tensor ℝ} (hX0 : ∀ n R M A S, (X0 n R M A S).lens = [R, q])
    (random : Bool) (k : ℕ) :
    ∃ o0 s f' s' f'', dtlrInit N = .ok o0 ∧
      iterM (dtlrStep N R lam (cholSolver kn) q (lrSolver kn X0 q random) V) k (o0, f) = .ok (s, f') ∧
      dtlrStep N R lam (cholSolver kn) q (lrSolver kn X0 q random) V (s, f') = .ok (s', f'') ∧
      Spec.fullObj2 dims R lam (arr V N) (mats f'.W) ≤ Spec.fullObj2 dims R lam (arr V N) (mats f.W) ∧
      Spec.fullObj2 dims R lam (arr V N) (mats f''.W) ≤ Spec.fullObj2 dims R lam (arr V N) (mats f'.W) := by
  obtain ⟨o0, h0, h⟩ := dtlr_reach h3 hN hS hG lam (cholSolver kn) q (lrSolver kn X0 q random)
  obtain ⟨s, f', a1, _, _, _, a5⟩ := h k
  obtain ⟨s', f'', b1, _, _, _, b5⟩ := h (k + 1)
  rw [iterM_succ_right, a1] at b1
  have hmono := fun ops st => Spec.lrRun_mono (V := arr V N) (dims := dims) (R := R) hl (C12_cholesky_solver hk.base)
    (C14_lrSolver_descends hk hX0 random) (fun j => lt_of_lt_of_le hq (hqd j)) hqd hqR ops st
  refine ⟨o0, s, f', s', f'', h0, a1, b1, ?_, ?_⟩
  · have := hmono ((List.range k).flatMap (Spec.dtlrOps N)) (facs N f)
    rw [← a5] at this
    exact this
  · rw [List.range_succ, List.flatMap_append, lrRun_append, ← a5] at b5
    have := hmono ((([k] : List ℕ).flatMap (Spec.dtlrOps N))) (facs N f')
    rw [← b5] at this
    exact this

/-- **C58 (optimality of each low-rank update).** The low-rank update of mode `i` that both low-rank optimizers perform (see
C07, C09 for when) sets the factor to the best modification `A + P Q` of its base matrix `A` of rank at most `q`, all other
factors being fixed. -/
theorem C58_lr_update_optimal {N : ℕ} {dims : Fin N → ℕ} {R : ℕ} {V : (Fin N → ℕ) → ℝ} {lam : ℝ} (hl : 0 < lam) {kn : Kern ℝ}
    (hk : LRKernOk kn) {q : ℕ} (hq : 1 ≤ q)
    (X0 : ℕ → ℕ → (ℕ → ℕ → ℝ) → (ℕ → ℕ → ℝ) → (ℕ → ℕ → ℝ) → Tensor ℝ) (A : ℕ → ℕ → ℝ) (st : Spec.AlsState N ℝ) (i : Fin N)
    (hqd : q ≤ dims i) (hqR : q ≤ R) (P Q : ℕ → ℕ → ℝ) :
    Spec.fullObj2 dims R lam V (Spec.lrUpdate dims R lam q (lrSolver kn X0 q false) V A st i).W ≤
      Spec.fullObj2 dims R lam V (Function.update st.W i fun x r => A x r + ∑ a ∈ range q, P x a * Q a r) :=
  Spec.lrUpdate_best hl (C14_lrSolver_best hk X0 q) A st i (lt_of_lt_of_le hq hqd) hqd hqR P Q

/-! Non-vacuity: the order-4 example with mode lengths 2, 3, 1, 4, update rank 1. -/

example : ∃ kn : Kern ℝ, LRKernOk kn ∧ ∀ random k, ∃ o0 s f' s' f'', dtlrInit 4 = .ok o0 ∧
    iterM (dtlrStep 4 2 (1 / 2) (cholSolver kn) 1 (lrSolver kn (fun _ R _ _ _ => ⟨[R, 1], fun _ => 1⟩) 1 random) exVR) k (o0, exFacR) =
      .ok (s, f') ∧
    dtlrStep 4 2 (1 / 2) (cholSolver kn) 1 (lrSolver kn (fun _ R _ _ _ => ⟨[R, 1], fun _ => 1⟩) 1 random) exVR (s, f') = .ok (s', f'') ∧
    Spec.fullObj2 ![2, 3, 1, 4] 2 (1 / 2) (arr exVR 4) (mats f'.W) ≤ Spec.fullObj2 ![2, 3, 1, 4] 2 (1 / 2) (arr exVR 4) (mats exFacR.W) ∧
    Spec.fullObj2 ![2, 3, 1, 4] 2 (1 / 2) (arr exVR 4) (mats f''.W) ≤ Spec.fullObj2 ![2, 3, 1, 4] 2 (1 / 2) (arr exVR 4) (mats f'.W) := by
  obtain ⟨kn, h⟩ := exists_lrKernOk
  exact ⟨kn, h, fun random k => C58_dtlr_monotone (by norm_num) (by norm_num) exShapedR rfl (by norm_num) h (le_refl 1)
    (by intro j; fin_cases j <;> simp) (by norm_num) (fun _ _ _ _ _ => rfl) random k⟩

end Properties
