import Verif.Proofs.Kernels
import Verif.Properties.Objective
import Mathlib.LinearAlgebra.Matrix.Trace

/-! # C12, C14, C28: the linear solves -/

namespace Properties

open Model Finset

section C12

variable {K : Type} [Field K]

/-- **C12 (Cholesky).** If `solve_tri` solves lower triangular systems and `S.cholesky` returned a Cholesky factor of `S`,
`cholesky_solve` returns the `n × R` matrix `W` with `W S = M`. -/
theorem C12_cholesky_solve {k : Kern K} (htri : TriSpec k.tri) {n R : ℕ} {M S : Tensor K}
    (hM : M.lens = [n, R]) (hS : CholSpec R (k.chol S) S) :
    ∃ W, choleskySolve k M S = .ok W ∧ W.lens = [n, R] ∧
      ∀ x < n, ∀ r < R, ∑ j ∈ range R, mat W x j * mat S j r = mat M x r := by
  obtain ⟨W, h1, h2, h3⟩ := choleskySolve_ok htri hM hS
  exact ⟨W, h1, h2, h3⟩

/-- The singular values of a nonsingular matrix are nonzero. -/
theorem svd_nonzero {R : ℕ} {u : LR K} {S : Tensor K} (h : SvdSpec R u S)
    (hinj : ∀ v : ℕ → K, (∀ a < R, ∑ b ∈ range R, mat S a b * v b = 0) → ∀ b < R, v b = 0) :
    ∀ j < R, u.s.val [j] ≠ 0 := by
  intro j hj h0
  have hv := hinj (fun b => mat u.VT j b) (fun a ha => ?_)
  · have h1 := h.orthV j hj j hj
    rw [if_pos rfl] at h1
    have : ∑ x ∈ range R, mat u.VT j x * mat u.VT j x = 0 :=
      sum_eq_zero fun x hx => by rw [hv x (mem_range.1 hx), zero_mul]
    rw [this] at h1
    exact zero_ne_one h1
  · have e : ∀ b ∈ range R, mat S a b * mat u.VT j b =
        ∑ l ∈ range R, mat u.U a l * u.s.val [l] * (mat u.VT l b * mat u.VT j b) := by
      intro b hb
      rw [← h.prod a ha b (mem_range.1 hb), sum_mul]
      exact sum_congr rfl fun l _ => by ring
    rw [sum_congr rfl e, sum_comm]
    refine sum_eq_zero fun l hl => ?_
    rw [← mul_sum, h.orthV l (mem_range.1 hl) j hj]
    split_ifs with hlj
    · rw [hlj, h0]; simp
    · simp

/-- **C12 (SVD).** If `S.svd` returned a singular value decomposition of the nonsingular matrix `S`, `SVD_solve` returns the
`n × R` matrix `W` with `W S = M`. -/
theorem C12_svd_solve {k : Kern K} {n R : ℕ} {M S : Tensor K} (hM : M.lens = [n, R]) (hSl : S.lens = [R, R])
    (hS : SvdSpec R (k.svd S R) S)
    (hinj : ∀ v : ℕ → K, (∀ a < R, ∑ b ∈ range R, mat S a b * v b = 0) → ∀ b < R, v b = 0) :
    ∃ W, svdSolve k [n, R] M S = .ok W ∧ W.lens = [n, R] ∧
      ∀ x < n, ∀ r < R, ∑ j ∈ range R, mat W x j * mat S j r = mat M x r := by
  obtain ⟨W, h1, _, h2, h3⟩ := svdSolve_ok hM hSl hS (svd_nonzero hS hinj)
  exact ⟨W, h1, h2, h3⟩

/-- **C28.** `SVD_solve_mod` returns `W` and `dW` with `W = W_init + dW` and `dW = ratio (X - W_init)`, `X` the solution of
`X S = M`, for every `ratio` (also 1). -/
theorem C28_svd_solve_mod [DecidableEq K] {k : Kern K} {n R : ℕ} {M Winit S : Tensor K} (hM : M.lens = [n, R])
    (hW : Winit.lens = [n, R]) (hSl : S.lens = [R, R]) (hS : SvdSpec R (k.svd S R) S)
    (hinj : ∀ v : ℕ → K, (∀ a < R, ∑ b ∈ range R, mat S a b * v b = 0) → ∀ b < R, v b = 0) (ratio : K) :
    ∃ (W dW : Tensor K) (X : ℕ → ℕ → K), svdSolveMod k M Winit S ratio = .ok (W, dW) ∧ W.lens = [n, R] ∧ dW.lens = [n, R] ∧
      (∀ x < n, ∀ r < R, ∑ j ∈ range R, X x j * mat S j r = mat M x r) ∧
      (∀ x < n, ∀ r < R, mat dW x r = ratio * (X x r - mat Winit x r)) ∧
      ∀ x < n, ∀ r < R, mat W x r = mat Winit x r + mat dW x r :=
  svdSolveMod_ok hM hW hSl hS (svd_nonzero hS hinj) ratio

end C12

section Contracts

variable {K : Type} [Field K] [LinearOrder K]

/-- The contract of CTF's dense kernels on the matrices the solvers pass to them. -/
structure KernOk (k : Kern K) : Prop where
  tri : TriSpec k.tri
  chol : ∀ (R : ℕ) (S : Tensor K), S.lens = [R, R] → Spec.PosDef R (mat S) → CholSpec R (k.chol S) S
  svd : ∀ (R : ℕ) (S : Tensor K), S.lens = [R, R] → (∀ a < R, ∀ b < R, mat S a b = mat S b a) →
    SvdSpec R (k.svd S R) S

/-- The contract is satisfiable over the reals (Cholesky by the LDL decomposition, SVD by the spectral theorem). -/
theorem exists_kernOk : ∃ k : Kern ℝ, KernOk k := by
  obtain ⟨chol, h1⟩ := exists_chol_kernel
  obtain ⟨tri, h2⟩ := exists_tri_kernel
  obtain ⟨svd, h3⟩ := exists_svd_kernel
  exact ⟨⟨chol, tri, svd, id⟩, h2, h1, h3⟩

theorem mat_ofMat {n R : ℕ} {f : ℕ → ℕ → K} {x r : ℕ} (hx : x < n) (hr : r < R) : mat (ofMat n R f) x r = f x r := by
  simp [mat, ofMat, Spec.clip, hx, hr]

theorem posDef_ofMat {R : ℕ} {S : ℕ → ℕ → K} (h : Spec.PosDef R S) : Spec.PosDef R (mat (ofMat R R S)) := by
  refine ⟨fun a ha b hb => by rw [mat_ofMat ha hb, mat_ofMat hb ha, h.1 a ha b hb], fun v hv => ?_⟩
  refine (h.2 v hv).trans_eq ?_
  refine sum_congr rfl fun a ha => sum_congr rfl fun b hb => ?_
  rw [mat_ofMat (mem_range.1 ha) (mem_range.1 hb)]

theorem solves_ofMat {n R : ℕ} {X M S : ℕ → ℕ → K}
    (h : Spec.Solves n R X (mat (ofMat R R S)) (mat (ofMat n R M))) : Spec.Solves n R X S M := by
  intro x hx r hr
  have := h x hx r hr
  rw [mat_ofMat hx hr] at this
  rw [← this]
  exact sum_congr rfl fun k hk => by rw [mat_ofMat (mem_range.1 hk) hr]

/-- With kernels satisfying the contract, `cholesky_solve` is exact on positive definite systems. -/
theorem C12_cholesky_solver {k : Kern K} (hk : KernOk k) : Spec.SolvesPosDef (cholSolver k) := by
  intro n R M S hS
  obtain ⟨W, h1, _, h3⟩ := choleskySolve_ok hk.tri (n := n) (M := ofMat n R M) rfl
    (hk.chol R (ofMat R R S) rfl (posDef_ofMat hS))
  unfold cholSolver
  rw [h1]
  exact solves_ofMat h3

theorem posDef_inj [IsStrictOrderedRing K] {R : ℕ} {S : ℕ → ℕ → K} (h : Spec.PosDef R S) (v : ℕ → K)
    (hv : ∀ a < R, ∑ b ∈ range R, S a b * v b = 0) : ∀ b < R, v b = 0 := by
  intro b hb
  by_contra hne
  have := h.2 v ⟨b, hb, hne⟩
  have h0 : ∑ a ∈ range R, ∑ b ∈ range R, v a * S a b * v b = 0 := by
    refine sum_eq_zero fun a ha => ?_
    rw [← mul_zero (v a), ← hv a (mem_range.1 ha), mul_sum]
    exact sum_congr rfl fun b _ => by ring
  exact absurd this (by rw [h0]; exact lt_irrefl _)

/-- With kernels satisfying the contract, `SVD_solve` is exact on positive definite systems. -/
theorem C12_svd_solver [IsStrictOrderedRing K] {k : Kern K} (hk : KernOk k) : Spec.SolvesPosDef (svdSolver k) := by
  intro n R M S hS
  have hP := posDef_ofMat hS
  have hu := hk.svd R (ofMat R R S) rfl hP.1
  obtain ⟨W, h1, _, _, h3⟩ := svdSolve_ok (n := n) (M := ofMat n R M) rfl rfl hu (svd_nonzero hu (posDef_inj hP))
  unfold svdSolver
  rw [h1]
  exact solves_ofMat h3

/-- **C13 with the solver the code uses.** With `lam > 0` and kernels satisfying their contract, `CPDTOptimizer` with
`cholesky_solve` never increases the regularised objective. -/
theorem C13_dt_monotone_cholesky [IsStrictOrderedRing K] {N : ℕ} (h3 : 3 ≤ N) (hN : N ≤ 31) {dims : Fin N → ℕ}
    {R : ℕ} {V : Tensor K} {f : Fac K} (hS : Shaped dims R V f.W) (hG : f.G.length = N) {lam : K} (hl : 0 < lam)
    {kn : Kern K} (hk : KernOk kn) (k : ℕ) :
    ∃ o0 s f', dtInit N = .ok o0 ∧ iterM (dtStep N R lam (cholSolver kn) V) k (o0, f) = .ok (s, f') ∧
      Spec.fullObj2 dims R lam (arr V N) (mats f'.W) ≤ Spec.fullObj2 dims R lam (arr V N) (mats f.W) :=
  C13_dt_monotone h3 hN hS hG (Or.inr ⟨hl, C12_cholesky_solver hk⟩) k

theorem C13_msdt_monotone_cholesky [IsStrictOrderedRing K] {N : ℕ} (h3 : 3 ≤ N) (hN : N ≤ 31) {dims : Fin N → ℕ}
    {R : ℕ} {V : Tensor K} {f : Fac K} (hS : Shaped dims R V f.W) (hG : f.G.length = N) {lam : K} (hl : 0 < lam)
    {kn : Kern K} (hk : KernOk kn) (k : ℕ) :
    ∃ o0 s f', msdtInit N = .ok o0 ∧ iterM (msdtStep N R lam (cholSolver kn) V) k (o0, f) = .ok (s, f') ∧
      Spec.fullObj2 dims R lam (arr V N) (mats f'.W) ≤ Spec.fullObj2 dims R lam (arr V N) (mats f.W) :=
  C13_msdt_monotone h3 hN hS hG (Or.inr ⟨hl, C12_cholesky_solver hk⟩) k

theorem C13_simple_monotone_cholesky [IsStrictOrderedRing K] {N : ℕ} (h2 : 2 ≤ N) (hN : N ≤ 10) {s R : ℕ}
    {V : Tensor K} {f : Fac K} (hS : Shaped (fun _ : Fin N => s) R V f.W) (hG : f.G.length = N) {lam : K}
    (hl : 0 < lam) {kn : Kern K} (hk : KernOk kn) (k : ℕ) :
    ∃ f', iterM (simpleStep N R lam (cholSolver kn) V) k f = .ok f' ∧
      Spec.fullObj2 (fun _ => s) R lam (arr V N) (mats f'.W) ≤
        Spec.fullObj2 (fun _ => s) R lam (arr V N) (mats f.W) :=
  C13_simple_monotone h2 hN hS hG (Or.inr ⟨hl, C12_cholesky_solver hk⟩) k

end Contracts

section C14

open Matrix

variable {K : Type} [Field K]

/-- The quadratic function of the factor `Y` that a mode update minimises: `tr(Y γ Yᵀ) - 2 tr(Y Mᵀ)`. -/
def quadObj {n R : ℕ} (gamma : Matrix (Fin R) (Fin R) K) (M Y : Matrix (Fin n) (Fin R) K) : K :=
  (Y * gamma * Yᵀ).trace - 2 * (Y * Mᵀ).trace

/-- Completing the square with a Cholesky factor. -/
theorem quadObj_square {n R : ℕ} {L gamma : Matrix (Fin R) (Fin R) K} {M A X D : Matrix (Fin n) (Fin R) K}
    (hL : L * Lᵀ = gamma) (hX : X * Lᵀ = M - A * gamma) :
    quadObj gamma M (A + D) = quadObj gamma M A - (X * Xᵀ).trace + ((X - D * L) * (X - D * L)ᵀ).trace := by
  have hM : M = X * Lᵀ + A * gamma := by rw [hX]; abel
  have hg : gammaᵀ = gamma := by rw [← hL, transpose_mul, transpose_transpose]
  subst hM
  unfold quadObj
  have t1 : (A * gamma * Dᵀ).trace = (D * gamma * Aᵀ).trace := by
    rw [← trace_transpose]; simp only [transpose_mul, transpose_transpose, hg, Matrix.mul_assoc]
  have t2 : (X * (Lᵀ * Dᵀ)).trace = (D * L * Xᵀ).trace := by
    rw [← trace_transpose]; simp only [transpose_mul, transpose_transpose, Matrix.mul_assoc]
  have t3 : D * L * (Lᵀ * Dᵀ) = D * gamma * Dᵀ := by
    rw [← hL]; simp only [Matrix.mul_assoc]
  simp only [transpose_add, transpose_sub, transpose_mul, transpose_transpose, hg, Matrix.add_mul, Matrix.mul_add,
    Matrix.sub_mul, Matrix.mul_sub, trace_add, trace_sub, t2, t3]
  rw [t1]
  simp only [Matrix.mul_assoc]
  ring

variable {k : Kern K} {n q R : ℕ} {X0 M A gamma : Tensor K}

/-- **C14 (exact).** `get_rankR_update_cholesky` returns `U`, `s`, `VT` such that the residual of the normal equations is
the decomposition error of the matrix `X` (with `X Lᵀ = M - A γ`) times `Lᵀ`; in particular, if the (truncated or
randomised) decomposition of `X` is exact, `(A + U s VT) γ = M`. -/
theorem C14_rankR_residual (htri : TriSpec k.tri) (hM : M.lens = [n, R]) (hA : A.lens = [n, R])
    (hg : gamma.lens = [R, R]) (hL : CholSpec R (k.chol gamma) gamma) (random : Bool)
    (hdec : ∀ X : Tensor K, X.lens = [n, R] → ∃ u,
      (if random then randomizedSvd k X0 X q 1 else Except.ok (k.svd X q)) = .ok u ∧ LRShape u n q R) :
    ∃ X u u', toM n R X * (toM R R (k.chol gamma))ᵀ = toM n R M - toM n R A * toM R R gamma ∧
      (if random then randomizedSvd k X0 X q 1 else Except.ok (k.svd X q)) = .ok u ∧
      rankRUpdate k X0 q M A gamma random = .ok u' ∧ LRShape u' n q R ∧
      toM n R M - (toM n R A + usv n q R u') * toM R R gamma =
        (toM n R X - usv n q R u) * (toM R R (k.chol gamma))ᵀ ∧
      (usv n q R u = toM n R X → (toM n R A + usv n q R u') * toM R R gamma = toM n R M) := by
  obtain ⟨X, u, u', h1, h2, h3, h4, h5, h6, h7⟩ := rankRUpdate_ok htri hM hA hg hL random hdec
  have hr := rankR_residual (q := q) hL h2 (usv n q R u')
  rw [h7] at hr
  refine ⟨X, u, u', h2, h3, h5, h6, hr, fun he => ?_⟩
  rw [he, sub_self, Matrix.zero_mul, sub_eq_zero] at hr
  exact hr.symm

/-- **C14 (optimal).** If the decomposition of `X` is a best rank-`q` approximation in the Frobenius norm (which the exact
truncated SVD is, by Eckart-Young), `A + U s VT` minimises the mode objective among all rank-`q` modifications of `A`. -/
theorem C14_rankR_optimal [LinearOrder K] [IsStrictOrderedRing K] (htri : TriSpec k.tri)
    (hM : M.lens = [n, R]) (hA : A.lens = [n, R]) (hg : gamma.lens = [R, R])
    (hL : CholSpec R (k.chol gamma) gamma)
    (hbest : ∀ X : Tensor K, X.lens = [n, R] → LRShape (k.svd X q) n q R ∧
      ∀ (P : Matrix (Fin n) (Fin q) K) (Q : Matrix (Fin q) (Fin R) K),
        ((toM n R X - usv n q R (k.svd X q)) * (toM n R X - usv n q R (k.svd X q))ᵀ).trace ≤
          ((toM n R X - P * Q) * (toM n R X - P * Q)ᵀ).trace) :
    ∃ u', rankRUpdate k X0 q M A gamma false = .ok u' ∧ LRShape u' n q R ∧
      ∀ (P : Matrix (Fin n) (Fin q) K) (Q : Matrix (Fin q) (Fin R) K),
        quadObj (toM R R gamma) (toM n R M) (toM n R A + usv n q R u') ≤
          quadObj (toM R R gamma) (toM n R M) (toM n R A + P * Q) := by
  obtain ⟨X, u, u', h1, h2, h3, h4, h5, h6, h7⟩ := rankRUpdate_ok (X0 := X0) htri hM hA hg hL false
    (fun X hX => ⟨k.svd X q, by simp, (hbest X hX).1⟩)
  refine ⟨u', h5, h6, fun P Q => ?_⟩
  rw [quadObj_square hL.toM h2, quadObj_square hL.toM h2, h7]
  have hu : k.svd X q = u := by simpa using h3
  have := (hbest X h1).2 P (Q * toM R R (k.chol gamma))
  rw [hu] at this
  rw [Matrix.mul_assoc P Q]
  linarith

/-- **C14 (randomised branch).** With `random`, the decomposition used is `X Q Qᵀ` for a matrix `Q` with orthonormal
columns; so the update is `A + (M - A γ) L⁻ᵀ Q Qᵀ L⁻¹`. -/
theorem C14_rankR_random (htri : TriSpec k.tri) (hM : M.lens = [n, R]) (hA : A.lens = [n, R])
    (hg : gamma.lens = [R, R]) (hL : CholSpec R (k.chol gamma) gamma) (hX0 : X0.lens = [R, q])
    (hqr : ∀ X : Tensor K, X.lens = [R, q] → QrSpec R q (k.qr X))
    (hsvd : ∀ B : Tensor K, B.lens = [n, q] → LRShape (k.svd B q) n q q ∧ usv n q q (k.svd B q) = toM n q B) :
    ∃ u' Q, rankRUpdate k X0 q M A gamma true = .ok u' ∧ LRShape u' n q R ∧ QrSpec R q Q ∧
      usv n q R u' = (toM n R M - toM n R A * toM R R gamma) * ((toM R R (k.chol gamma))ᵀ)⁻¹ *
        (toM R q Q * (toM R q Q)ᵀ) * (toM R R (k.chol gamma))⁻¹ := by
  have hdec : ∀ X : Tensor K, X.lens = [n, R] → ∃ u,
      (if true = true then randomizedSvd k X0 X q 1 else Except.ok (k.svd X q)) = .ok u ∧ LRShape u n q R := by
    intro X hX
    obtain ⟨u, Q, a1, a2, _, _⟩ := randomizedSvd_ok hX hX0 hqr hsvd 1
    exact ⟨u, by simpa using a1, a2⟩
  obtain ⟨X, u, u', h1, h2, h3, h4, h5, h6, h7⟩ := rankRUpdate_ok (X0 := X0) htri hM hA hg hL true hdec
  obtain ⟨v, Q, a1, a2, a3, a4⟩ := randomizedSvd_ok h1 hX0 hqr hsvd 1
  simp only [if_true] at h3
  rw [a1] at h3
  cases h3
  refine ⟨u', Q, h5, h6, a3, ?_⟩
  have hu := hL.tri.isUnit
  have huT : IsUnit ((toM R R (k.chol gamma))ᵀ).det := by rw [det_transpose]; exact hu
  have hX : toM n R X = (toM n R M - toM n R A * toM R R gamma) * ((toM R R (k.chol gamma))ᵀ)⁻¹ := by
    rw [← h2, Matrix.mul_assoc, Matrix.mul_nonsing_inv _ huT, Matrix.mul_one]
  rw [← hX, ← a4, ← h7, Matrix.mul_assoc, Matrix.mul_nonsing_inv _ hu, Matrix.mul_one]

/-- Kernels meeting the hypotheses of `C14_rankR_optimal` exist (here `q = R`: the decomposition `X · 1 · I`). -/
theorem exists_optimal_kern {k : Kern ℝ} (hk : KernOk k) (R : ℕ) : ∃ k' : Kern ℝ, KernOk ⟨k'.chol, k'.tri, k.svd, k'.qr⟩ ∧
    ∀ n, ∀ X : Tensor ℝ, X.lens = [n, R] → LRShape (k'.svd X R) n R R ∧
      ∀ (P : Matrix (Fin n) (Fin R) ℝ) (Q : Matrix (Fin R) (Fin R) ℝ),
        ((toM n R X - usv n R R (k'.svd X R)) * (toM n R X - usv n R R (k'.svd X R))ᵀ).trace ≤
          ((toM n R X - P * Q) * (toM n R X - P * Q)ᵀ).trace := by
  refine ⟨⟨k.chol, k.tri, fun X q => ⟨X, ⟨[q], fun idx => match idx with
    | [_] => 1
    | _ => 0⟩, ofFinMat (1 : Matrix (Fin q) (Fin q) ℝ)⟩, k.qr⟩, hk, fun n X hX => ⟨⟨hX, rfl, rfl⟩, fun P Q => ?_⟩⟩
  have e : usv n R R ⟨X, ⟨[R], fun idx => match idx with
    | [_] => 1
    | _ => 0⟩, ofFinMat (1 : Matrix (Fin R) (Fin R) ℝ)⟩ = toM n R X := by
    unfold usv
    have h1 : toM R R (ofFinMat (1 : Matrix (Fin R) (Fin R) ℝ)) = 1 := by
      funext a b
      exact mat_ofFinMat _ a.2 b.2
    have h2 : diagonal (toV R (⟨[R], fun idx => match idx with
      | [_] => 1
      | _ => 0⟩ : Tensor ℝ)) = 1 := by
      rw [← Matrix.diagonal_one]
      rfl
    simp only [h1, h2, Matrix.mul_one]
  simp only [e, sub_self, Matrix.zero_mul, Matrix.trace_zero]
  rw [Matrix.trace]
  refine sum_nonneg fun a _ => ?_
  rw [Matrix.diag_apply, Matrix.mul_apply]
  exact sum_nonneg fun b _ => mul_self_nonneg _

end C14

/-! Non-vacuity. -/

/-- The example problem over `ℝ`. -/
noncomputable def exFacR : Fac ℝ :=
  ⟨[⟨[2, 2], fun idx => idx.getD 0 0 + 1⟩, ⟨[3, 2], fun idx => idx.getD 1 0⟩,
    ⟨[1, 2], fun idx => idx.getD 1 0 + 5⟩, ⟨[4, 2], fun idx => 3 - idx.getD 0 0⟩],
   [⟨[2, 2], fun _ => 0⟩, ⟨[3, 2], fun _ => 0⟩, ⟨[1, 2], fun _ => 0⟩, ⟨[4, 2], fun _ => 0⟩]⟩

/-- Example tensor over `ℝ`. -/
noncomputable def exVR : Tensor ℝ :=
  ⟨[2, 3, 1, 4], fun idx => 1 + idx.getD 0 0 + 2 * idx.getD 1 0 + 7 * idx.getD 3 0⟩

theorem exShapedR : Shaped (N := 4) ![2, 3, 1, 4] 2 exVR exFacR.W where
  lensV := rfl
  count := rfl
  lensW := by
    intro j M h
    fin_cases j <;> (simp [exFacR] at h; subst h; rfl)

/-- Kernels satisfying the contract exist and run the DT optimizer on a concrete problem. -/
example : ∃ kn : Kern ℝ, KernOk kn ∧ ∃ o0 s f', dtInit 4 = .ok o0 ∧
    iterM (dtStep 4 2 (1 / 2) (cholSolver kn) exVR) 5 (o0, exFacR) = .ok (s, f') ∧
    Spec.fullObj2 ![2, 3, 1, 4] 2 (1 / 2) (arr exVR 4) (mats f'.W) ≤
      Spec.fullObj2 ![2, 3, 1, 4] 2 (1 / 2) (arr exVR 4) (mats exFacR.W) := by
  obtain ⟨kn, h⟩ := exists_kernOk
  exact ⟨kn, h, C13_dt_monotone_cholesky (by norm_num) (by norm_num) exShapedR rfl (by norm_num) h 5⟩

end Properties
