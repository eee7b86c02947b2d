import Verif.Proofs.RankR
import Verif.Proofs.LowRankBest

/-! `get_rankR_update_svd`: the rank-`q` update computed with a singular value decomposition of `γ`. -/

namespace Model

open Finset Matrix Properties

section Einsum

variable {K : Type} [Field K]

theorem envIJ_k (a b : ℕ) : envIJ a b lk = b := by simp [envIJ, li, lk]

/-- `C["ik"] = s["k"]*A["ij"]*B["jk"]`. -/
theorem einsum_scaleRight {A s B : Tensor K} {n m q : ℕ} (hA : A.lens = [n, m]) (hs : s.lens = [q])
    (hB : B.lens = [m, q]) :
    ∃ T, einsum [n, q] [li, lk] [(s, [lk]), (A, [li, lj]), (B, [lj, lk])] = .ok T ∧
      T.lens = [n, q] ∧ toM n q T = toM n m A * toM m q B * diagonal (toV q s) := by
  obtain ⟨T, e1, e2, e3⟩ := einsum_one (K := K) (d := dIJK n m q) (sc := [li, lk])
    (ops := [(s, [lk]), (A, [li, lj]), (B, [lj, lk])]) (by simp [hA, hB, hs]) lj (by simp)
    (by simp [li, lj, lk]) (by simp [li, lj, lk])
  refine ⟨T, by simpa using e1, by simpa using e3.1, ?_⟩
  funext a b
  have := e3.2 (envIJ a b) (by simp [envIJ_k])
  simp only [List.map_cons, List.map_nil, envIJ_i, envIJ_k, dIJK_j, List.prod_cons, List.prod_nil,
    mul_one, Function.update_self] at this
  rw [toM, mat, this, sum_range, Matrix.mul_diagonal, Matrix.mul_apply, Finset.sum_mul]
  refine Finset.sum_congr rfl fun x _ => ?_
  rw [Function.update_of_ne (by simp [li, lj, lk]), Function.update_of_ne (by simp [li, lj, lk])]
  simp only [toM, toV, mat, envIJ_i, envIJ_k]
  ring

/-- `C["ik"] = A["ij"]*s["j"]*B["jk"]`. -/
theorem einsum_scaleMid {A s B : Tensor K} {n m q : ℕ} (hA : A.lens = [n, m]) (hs : s.lens = [m])
    (hB : B.lens = [m, q]) :
    ∃ T, einsum [n, q] [li, lk] [(A, [li, lj]), (s, [lj]), (B, [lj, lk])] = .ok T ∧
      T.lens = [n, q] ∧ toM n q T = toM n m A * diagonal (toV m s) * toM m q B := by
  obtain ⟨T, e1, e2, e3⟩ := einsum_one (K := K) (d := dIJK n m q) (sc := [li, lk])
    (ops := [(A, [li, lj]), (s, [lj]), (B, [lj, lk])]) (by simp [hA, hB, hs]) lj (by simp)
    (by simp [li, lj, lk]) (by simp [li, lj, lk])
  refine ⟨T, by simpa using e1, by simpa using e3.1, ?_⟩
  funext a b
  have := e3.2 (envIJ a b) (by simp [envIJ_k])
  simp only [List.map_cons, List.map_nil, envIJ_i, envIJ_k, dIJK_j, List.prod_cons, List.prod_nil,
    mul_one, Function.update_self] at this
  rw [toM, mat, this, sum_range, Matrix.mul_apply]
  refine Finset.sum_congr rfl fun x _ => ?_
  rw [Function.update_of_ne (by simp [li, lj, lk]), Function.update_of_ne (by simp [li, lj, lk])]
  simp [Matrix.mul_diagonal, toM, toV, mat, mul_assoc, envIJ_k]

end Einsum

/-- A quadratic form summed over the columns of a matrix. -/
theorem trace_cols {n m : ℕ} (D : Matrix (Fin n) (Fin m) ℝ) (G : Matrix (Fin n) (Fin n) ℝ) :
    (Dᵀ * G * D).trace = ∑ j, (fun a => D a j) ⬝ᵥ G *ᵥ (fun a => D a j) := by
  rw [Matrix.mul_assoc]
  simp only [Matrix.trace, Matrix.diag, Matrix.mul_apply, dotProduct, Matrix.mulVec, transpose_apply]

/-- Two symmetric positive (semi)definite matrices with the same square are equal. -/
theorem sq_unique {R : ℕ} {P G : Matrix (Fin R) (Fin R) ℝ} (hP : Pᵀ = P) (hG : Gᵀ = G)
    (h1 : ∀ v, 0 ≤ v ⬝ᵥ P *ᵥ v) (h2 : ∀ v, v ≠ 0 → 0 < v ⬝ᵥ G *ᵥ v) (h : P * P = G * G) : P = G := by
  have hD : (P - G)ᵀ = P - G := by rw [transpose_sub, hP, hG]
  have e : P * (P - G) = -((P - G) * G) := by rw [Matrix.mul_sub, Matrix.sub_mul, h]; abel
  have t1 : ((P - G)ᵀ * P * (P - G)).trace = -((P - G)ᵀ * G * (P - G)).trace := by
    rw [Matrix.mul_assoc, e, Matrix.mul_neg, trace_neg, hD, Matrix.mul_assoc (P - G) G, Matrix.trace_mul_comm,
      Matrix.mul_assoc, trace_mul_comm (P - G), Matrix.mul_assoc]
  have p : 0 ≤ ((P - G)ᵀ * P * (P - G)).trace := by
    rw [trace_cols]; exact Finset.sum_nonneg fun j _ => h1 _
  have g0 : ∀ v, 0 ≤ v ⬝ᵥ G *ᵥ v := fun v => by
    by_cases hv : v = 0
    · simp [hv]
    · exact (h2 v hv).le
  have z : ∑ j, (fun a => (P - G) a j) ⬝ᵥ G *ᵥ (fun a => (P - G) a j) = 0 := by
    refine le_antisymm ?_ (Finset.sum_nonneg fun j _ => g0 _)
    rw [← trace_cols]
    linarith
  rw [Finset.sum_eq_zero_iff_of_nonneg (fun j _ => g0 _)] at z
  rw [← sub_eq_zero]
  funext a j
  by_contra hne
  have hv : (fun a => (P - G) a j) ≠ 0 := fun h0 => hne (congrFun h0 a)
  exact absurd (z j (mem_univ j)) (h2 _ hv).ne'

/-- For a symmetric positive definite matrix both factors of a singular value decomposition coincide. -/
theorem svd_symm {R : ℕ} {G U V : Matrix (Fin R) (Fin R) ℝ} {s : Fin R → ℝ} (hG : Gᵀ = G)
    (hpd : ∀ v, v ≠ 0 → 0 < v ⬝ᵥ G *ᵥ v) (hU : Uᵀ * U = 1) (hV : V * Vᵀ = 1) (hs : ∀ a, 0 ≤ s a)
    (hp : U * diagonal s * V = G) : (∀ a, 0 < s a) ∧ U = Vᵀ := by
  have hV' : Vᵀ * V = 1 := mul_eq_one_comm.1 hV
  have hU' : U * Uᵀ = 1 := mul_eq_one_comm.1 hU
  have hP : (U * diagonal s * Uᵀ)ᵀ = U * diagonal s * Uᵀ := by
    simp only [transpose_mul, transpose_transpose, diagonal_transpose, Matrix.mul_assoc]
  have hpsd : ∀ v, 0 ≤ v ⬝ᵥ (U * diagonal s * Uᵀ) *ᵥ v := by
    intro v
    have : v ⬝ᵥ (U * diagonal s * Uᵀ) *ᵥ v = ∑ a, s a * (Uᵀ *ᵥ v) a ^ 2 := by
      rw [← Matrix.mulVec_mulVec, ← Matrix.mulVec_mulVec, Matrix.dotProduct_mulVec, ← Matrix.mulVec_transpose]
      simp only [dotProduct, Matrix.mulVec_diagonal]
      exact Finset.sum_congr rfl fun a _ => by ring
    rw [this]
    exact Finset.sum_nonneg fun a _ => mul_nonneg (hs a) (sq_nonneg _)
  have hsq : (U * diagonal s * Uᵀ) * (U * diagonal s * Uᵀ) = G * G := by
    have h1 : G * G = G * Gᵀ := by rw [hG]
    rw [h1, ← hp]
    simp only [transpose_mul, diagonal_transpose, Matrix.mul_assoc]
    rw [← Matrix.mul_assoc V Vᵀ, hV, Matrix.one_mul, ← Matrix.mul_assoc Uᵀ U, hU, Matrix.one_mul]
  have he := sq_unique hP hG hpsd hpd hsq
  have hdet : IsUnit G.det := by
    rw [isUnit_iff_ne_zero]
    intro h0
    obtain ⟨v, hv, hv0⟩ := Matrix.exists_mulVec_eq_zero_iff.2 h0
    have := hpd v hv
    rw [hv0, dotProduct_zero] at this
    exact lt_irrefl _ this
  have hne : ∀ a, s a ≠ 0 := by
    rw [← hp, det_mul, det_mul, det_diagonal] at hdet
    intro a h0
    rw [Finset.prod_eq_zero (mem_univ a) h0] at hdet
    simp at hdet
  refine ⟨fun a => lt_of_le_of_ne (hs a) (hne a).symm, ?_⟩
  rw [← hp] at he
  have e1 : diagonal s * Uᵀ = diagonal s * V := by
    have := congrArg (fun X => Uᵀ * X) he
    simpa only [← Matrix.mul_assoc, hU, Matrix.one_mul] using this
  have e2 : diagonal (fun a => (s a)⁻¹) * diagonal s = 1 := by
    rw [diagonal_mul_diagonal, ← diagonal_one]
    congr 1
    funext a
    exact inv_mul_cancel₀ (hne a)
  have e3 := congrArg (fun X => diagonal (fun a => (s a)⁻¹) * X) e1
  simp only [← Matrix.mul_assoc, e2, Matrix.one_mul] at e3
  rw [← e3, transpose_transpose]

theorem posDef_mat {R : ℕ} {gamma : Tensor ℝ} (hp : Spec.PosDef R (mat gamma)) :
    (toM R R gamma)ᵀ = toM R R gamma ∧ ∀ v, v ≠ 0 → 0 < v ⬝ᵥ toM R R gamma *ᵥ v := by
  refine ⟨by funext a b; exact hp.1 b.1 b.2 a.1 a.2, fun v hv => ?_⟩
  obtain ⟨a, ha⟩ := Function.ne_iff.1 hv
  have := hp.2 (fun i => if h : i < R then v ⟨i, h⟩ else 0) ⟨a.1, a.2, by simpa using ha⟩
  simp only [sum_range] at this
  refine this.trans_eq ?_
  simp only [dotProduct, Matrix.mulVec, Finset.mul_sum, Fin.is_lt, dif_pos, Fin.eta, toM]
  exact Finset.sum_congr rfl fun x _ => Finset.sum_congr rfl fun y _ => by ring

/-- `S = 1./S**.5`, common.cxx:801. -/
noncomputable def sqrtinv (d : ℝ) : ℝ := 1 / √d

/-- Effect of `get_rankR_update_svd` up to the decomposition of `X`: with `L = U diag(√s)` for the decomposition
`γ = U diag(s) Uᵀ`, the same equations as for the Cholesky variant. -/
theorem rankRUpdateSvd_ok {k : Kern ℝ} (hk : LRKernOk k) {n q R : ℕ} {X0 M A gamma : Tensor ℝ}
    (hM : M.lens = [n, R]) (hA : A.lens = [n, R]) (hg : gamma.lens = [R, R]) (hp : Spec.PosDef R (mat gamma))
    (random : Bool)
    (hdec : ∀ X : Tensor ℝ, X.lens = [n, R] → ∃ u,
      (if random then randomizedSvd k X0 X q 1 else Except.ok (k.svd X q)) = .ok u ∧ LRShape u n q R) :
    ∃ (L : Matrix (Fin R) (Fin R) ℝ) (X : Tensor ℝ) (u u' : LR ℝ), X.lens = [n, R] ∧ L * Lᵀ = toM R R gamma ∧
      toM n R X * Lᵀ = toM n R M - toM n R A * toM R R gamma ∧
      (if random then randomizedSvd k X0 X q 1 else Except.ok (k.svd X q)) = .ok u ∧
      LRShape u n q R ∧ rankRUpdateSvd k sqrtinv X0 q M A gamma random = .ok u' ∧ LRShape u' n q R ∧
      usv n q R u' * L = usv n q R u := by
  obtain ⟨P, p1, p2, p3⟩ := matrixDot_ok hA hg
  obtain ⟨D, d1, d2, d3⟩ := zipT_sub hM p2
  have hsv := hk.base.svd R gamma hg hp.1
  have htr := hk.trunc R R R gamma hg (by simp)
  set g := k.svd gamma R with hgd
  have hnn : ∀ a, 0 ≤ toV R g.s a := by
    obtain ⟨hq, P', σ, Q, hS, _, h2, _⟩ := htr.full
    intro a
    rw [h2]
    exact hS.nonneg _
  obtain ⟨hsym, hpd⟩ := posDef_mat hp
  obtain ⟨hpos, hUV⟩ := svd_symm hsym hpd hsv.mU hsv.mV hnn (usv_mul hsv.prod)
  let S : Tensor ℝ := ⟨g.s.lens, fun idx => if fits g.s.lens idx = true then sqrtinv (g.s.val idx) else 0⟩
  have hSl : S.lens = [R] := hsv.shape.s
  have hSv : toV R S = fun a => sqrtinv (toV R g.s a) := by
    funext a
    simp [toV, S, hsv.shape.s, fits]
  obtain ⟨X, x1, x2, x3⟩ := einsum_scaleRight d2 hSl hsv.shape.U
  obtain ⟨u, u1, u2⟩ := hdec X x2
  obtain ⟨VT, v1, v2, v3⟩ := einsum_scaleMid u2.VT hSl hsv.shape.VT
  have hroot : diagonal (fun a => sqrtinv (toV R g.s a)) * diagonal (fun a => √(toV R g.s a)) = 1 := by
    rw [diagonal_mul_diagonal, ← diagonal_one]
    congr 1
    funext a
    unfold sqrtinv
    exact one_div_mul_cancel (Real.sqrt_pos.2 (hpos a)).ne'
  refine ⟨toM R R g.U * diagonal (fun a => √(toV R g.s a)), X, u, { u with VT := VT }, x2, ?_, ?_, u1, u2, ?_,
    ⟨u2.U, u2.s, v2⟩, ?_⟩
  · rw [← usv_mul hsv.prod, transpose_mul, diagonal_transpose]
    rw [show toM R R g.VT = (toM R R g.U)ᵀ by rw [hUV, transpose_transpose]]
    rw [Matrix.mul_assoc, ← Matrix.mul_assoc (diagonal _) (diagonal _), diagonal_mul_diagonal, Matrix.mul_assoc]
    congr 3
    funext a
    exact Real.mul_self_sqrt (hpos a).le
  · rw [x3, hSv, transpose_mul, diagonal_transpose, Matrix.mul_assoc, ← Matrix.mul_assoc (diagonal _) (diagonal _),
      hroot, Matrix.one_mul, Matrix.mul_assoc, mul_eq_one_comm.1 hsv.mU, Matrix.mul_one, d3, p3]
  · unfold rankRUpdateSvd
    have hgc : ncol gamma = R := by simp [ncol, hg]
    have hDr : nrow D = n := by simp [nrow, d2]
    have hDc : ncol D = R := by simp [ncol, d2]
    have hv : einsum u.VT.lens [li, lk] [(u.VT, [li, lj]), (S, [lj]), (g.VT, [lj, lk])] = .ok VT := by
      rw [u2.VT]; exact v1
    have hx : einsum [nrow D, ncol D] [li, lk] [(S, [lk]), (D, [li, lj]), (g.U, [lj, lk])] = .ok X := by
      rw [hDr, hDc]; exact x1
    simp only [p1, d1, bind, Except.bind, hgc, ← hgd]
    erw [hx]
    cases random
    · simp only [Bool.false_eq_true, if_false, pure, Except.pure] at u1 ⊢
      cases u1
      erw [hv]
    · simp only [if_true] at u1 ⊢
      rw [u1]
      simp only []
      erw [hv]
      rfl
  · unfold usv
    simp only [v3, hSv]
    rw [show toM R R g.VT = (toM R R g.U)ᵀ by rw [hUV, transpose_transpose]]
    have h1 := hsv.mU
    calc toM n q u.U * diagonal (toV q u.s) * (toM q R u.VT * diagonal (fun a => sqrtinv (toV R g.s a)) * (toM R R g.U)ᵀ) *
          (toM R R g.U * diagonal (fun a => √(toV R g.s a)))
        = toM n q u.U * diagonal (toV q u.s) * (toM q R u.VT * (diagonal (fun a => sqrtinv (toV R g.s a)) *
          (((toM R R g.U)ᵀ * toM R R g.U) * diagonal (fun a => √(toV R g.s a))))) := by simp only [Matrix.mul_assoc]
      _ = _ := by rw [h1, Matrix.one_mul, hroot, Matrix.mul_one]

end Model
