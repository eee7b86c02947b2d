import Verif.Proofs.EckartYoung

/-! The leading left singular vectors of a matrix near a positive semidefinite one almost maximise the trace. -/

namespace KyFan

open Finset Matrix

variable {n r : ℕ}

theorem row_le {X : Matrix (Fin n) (Fin r) ℝ} (hX : Xᵀ * X = 1) (x : Fin n) : ∑ a, X x a ^ 2 ≤ 1 := by
  set s := ∑ a, X x a ^ 2 with hs
  have h1 : (X * Xᵀ) x x = s := by
    rw [Matrix.mul_apply, hs]
    exact sum_congr rfl fun a _ => by rw [Matrix.transpose_apply, sq]
  have h2 : (X * Xᵀ) * (X * Xᵀ) = X * Xᵀ := by
    rw [Matrix.mul_assoc, ← Matrix.mul_assoc Xᵀ, hX, Matrix.one_mul]
  have h3 : s = ∑ y, (X * Xᵀ) x y ^ 2 := by
    rw [← h1, ← h2, Matrix.mul_apply, h2]
    refine sum_congr rfl fun y _ => ?_
    rw [sq]
    congr 1
    rw [Matrix.mul_apply, Matrix.mul_apply]
    exact sum_congr rfl fun a _ => by rw [Matrix.transpose_apply, Matrix.transpose_apply, mul_comm]
  have h4 : s ^ 2 ≤ s := by
    conv_rhs => rw [h3]
    rw [← h1]
    exact Finset.single_le_sum (f := fun y => (X * Xᵀ) x y ^ 2) (fun y _ => sq_nonneg _) (mem_univ x)
  by_contra h
  have : 1 < s := not_le.1 h
  nlinarith

theorem trace_mul3 (X Y : Matrix (Fin n) (Fin r) ℝ) (E : Matrix (Fin n) (Fin n) ℝ) :
    (Xᵀ * E * Y).trace = ∑ x, ∑ y, E x y * ∑ a, X x a * Y y a := by
  rw [Matrix.trace]
  simp only [Matrix.diag_apply, Matrix.mul_apply, Matrix.transpose_apply, mul_sum, sum_mul]
  rw [sum_comm]
  rw [sum_congr rfl fun y _ => sum_comm]
  rw [sum_comm]
  refine sum_congr rfl fun x _ => sum_congr rfl fun y _ => sum_congr rfl fun a _ => by ring

theorem trace_small {X Y : Matrix (Fin n) (Fin r) ℝ} (hX : Xᵀ * X = 1) (hY : Yᵀ * Y = 1) (E : Matrix (Fin n) (Fin n) ℝ) :
    |(Xᵀ * E * Y).trace| ≤ ∑ x, ∑ y, |E x y| := by
  rw [trace_mul3]
  refine (abs_sum_le_sum_abs _ _).trans (sum_le_sum fun x _ => (abs_sum_le_sum_abs _ _).trans (sum_le_sum fun y _ => ?_))
  rw [abs_mul]
  refine mul_le_of_le_one_right (abs_nonneg _) ?_
  refine (abs_sum_le_sum_abs _ _).trans ?_
  have : ∀ a, |X x a * Y y a| ≤ (X x a ^ 2 + Y y a ^ 2) / 2 := fun a => by
    rw [abs_mul]
    nlinarith [sq_nonneg (|X x a| - |Y y a|), sq_abs (X x a), sq_abs (Y y a)]
  refine (sum_le_sum fun a _ => this a).trans ?_
  rw [← sum_div, sum_add_distrib]
  have := row_le hX x
  have := row_le hY y
  linarith

theorem trace_diag (C D : Matrix (Fin r) (Fin n) ℝ) (σ : Fin n → ℝ) :
    (C * diagonal σ * Dᵀ).trace = ∑ a, ∑ k, σ k * (C a k * D a k) := by
  rw [Matrix.trace]
  refine sum_congr rfl fun a _ => ?_
  rw [Matrix.diag_apply, Matrix.mul_apply]
  refine sum_congr rfl fun k _ => ?_
  rw [Matrix.mul_diagonal, Matrix.transpose_apply]
  ring

theorem trace_bilinear {M P Q : Matrix (Fin n) (Fin n) ℝ} {σ : Fin n → ℝ} (hP : Pᵀ * P = 1) (hQ : Qᵀ * Q = 1) (hanti : Antitone σ)
    (h0 : ∀ k, 0 ≤ σ k) (h : M = P * diagonal σ * Qᵀ) (hr : r ≤ n) {X Y : Matrix (Fin n) (Fin r) ℝ} (hX : Xᵀ * X = 1) (hY : Yᵀ * Y = 1) :
    (Xᵀ * M * Y).trace ≤ ∑ a : Fin r, σ (Fin.castLE hr a) := by
  have h1 := trace_le hP hanti rfl hr hX
  have h2 := trace_le hQ hanti rfl hr hY
  rw [trace_firstCols hP rfl hr] at h1
  rw [trace_firstCols hQ rfl hr] at h2
  have e : Xᵀ * M * Y = (Xᵀ * P) * diagonal σ * (Yᵀ * Q)ᵀ := by
    rw [h, transpose_mul, transpose_transpose]; simp only [Matrix.mul_assoc]
  have e1 : Xᵀ * (P * diagonal σ * Pᵀ) * X = (Xᵀ * P) * diagonal σ * (Xᵀ * P)ᵀ := by
    rw [transpose_mul, transpose_transpose]; simp only [Matrix.mul_assoc]
  have e2 : Yᵀ * (Q * diagonal σ * Qᵀ) * Y = (Yᵀ * Q) * diagonal σ * (Yᵀ * Q)ᵀ := by
    rw [transpose_mul, transpose_transpose]; simp only [Matrix.mul_assoc]
  rw [e1, trace_diag] at h1
  rw [e2, trace_diag] at h2
  rw [e, trace_diag]
  have : ∑ a, ∑ k, σ k * ((Xᵀ * P) a k * (Yᵀ * Q) a k) ≤
      (∑ a, ∑ k, σ k * ((Xᵀ * P) a k * (Xᵀ * P) a k) + ∑ a, ∑ k, σ k * ((Yᵀ * Q) a k * (Yᵀ * Q) a k)) / 2 := by
    rw [← sum_add_distrib, sum_div]
    refine sum_le_sum fun a _ => ?_
    rw [← sum_add_distrib, sum_div]
    refine sum_le_sum fun k _ => ?_
    nlinarith [mul_nonneg (h0 k) (sq_nonneg ((Xᵀ * P) a k - (Yᵀ * Q) a k))]
  linarith

theorem trace_firstCols2 {M P Q : Matrix (Fin n) (Fin n) ℝ} {σ : Fin n → ℝ} (hP : Pᵀ * P = 1) (hQ : Qᵀ * Q = 1)
    (h : M = P * diagonal σ * Qᵀ) (hr : r ≤ n) :
    ((firstCols hr P)ᵀ * M * firstCols hr Q).trace = ∑ a : Fin r, σ (Fin.castLE hr a) := by
  have h2 : Pᵀ * (M * Q) = diagonal σ := by
    rw [h, Matrix.mul_assoc (P * _), hQ, Matrix.mul_one, ← Matrix.mul_assoc, hP, Matrix.one_mul]
  rw [Matrix.mul_assoc, Matrix.trace]
  refine sum_congr rfl fun a _ => ?_
  have := congrFun (congrFun h2 (Fin.castLE hr a)) (Fin.castLE hr a)
  rw [diagonal_apply_eq] at this
  rw [← this]
  rfl

theorem trace_polar {G : Matrix (Fin n) (Fin n) ℝ} (hG : G.PosSemidef) (X Y : Matrix (Fin n) (Fin r) ℝ) :
    (Xᵀ * G * Y).trace ≤ ((Xᵀ * G * X).trace + (Yᵀ * G * Y).trace) / 2 := by
  have h1 : 0 ≤ ((X - Y)ᵀ * G * (X - Y)).trace := by
    have := (hG.conjTranspose_mul_mul_same (X - Y)).trace_nonneg
    rwa [Matrix.conjTranspose_eq_transpose_of_trivial] at this
  have hGt : Gᵀ = G := by
    have := hG.1
    rwa [Matrix.IsHermitian, Matrix.conjTranspose_eq_transpose_of_trivial] at this
  have h2 : (Yᵀ * G * X).trace = (Xᵀ * G * Y).trace := by
    rw [← Matrix.trace_transpose, transpose_mul, transpose_mul, transpose_transpose, hGt, Matrix.mul_assoc]
  rw [transpose_sub, Matrix.sub_mul, Matrix.sub_mul, Matrix.mul_sub, Matrix.mul_sub] at h1
  simp only [Matrix.trace_sub] at h1
  linarith

theorem firstCols_orth (hr : r ≤ n) {P : Matrix (Fin n) (Fin n) ℝ} (hP : Pᵀ * P = 1) : (firstCols hr P)ᵀ * firstCols hr P = 1 :=
  EckartYoung.cols_orth hr hP

/-- If `M` is near the positive semidefinite `G`, the leading left singular vectors of `M` are near-optimal for `G`. -/
theorem near_best {M G P Q : Matrix (Fin n) (Fin n) ℝ} {σ : Fin n → ℝ} (hP : Pᵀ * P = 1) (hQ : Qᵀ * Q = 1) (hanti : Antitone σ)
    (h0 : ∀ k, 0 ≤ σ k) (h : M = P * diagonal σ * Qᵀ) (hr : r ≤ n) (hG : G.PosSemidef) {δ : ℝ} (hδ : ∑ x, ∑ y, |M x y - G x y| ≤ δ)
    {B : Matrix (Fin n) (Fin r) ℝ} (hB : Bᵀ * B = 1) :
    (Bᵀ * G * B).trace ≤ ((firstCols hr P)ᵀ * G * firstCols hr P).trace + 4 * δ := by
  set U := firstCols hr P
  set Z := firstCols hr Q
  have hU : Uᵀ * U = 1 := firstCols_orth hr hP
  have hZ : Zᵀ * Z = 1 := firstCols_orth hr hQ
  have key : ∀ {X Y : Matrix (Fin n) (Fin r) ℝ}, Xᵀ * X = 1 → Yᵀ * Y = 1 → |(Xᵀ * M * Y).trace - (Xᵀ * G * Y).trace| ≤ δ := by
    intro X Y hX hY
    rw [← Matrix.trace_sub, ← Matrix.sub_mul, ← Matrix.mul_sub]
    exact (trace_small hX hY (M - G)).trans hδ
  have k1 := abs_le.1 (key hB hB)
  have k2 := abs_le.1 (key hZ hZ)
  have k3 := abs_le.1 (key hU hZ)
  have b1 := trace_bilinear hP hQ hanti h0 h hr hB hB
  have b2 := trace_bilinear hP hQ hanti h0 h hr hZ hZ
  have b3 := trace_firstCols2 hP hQ h hr
  have b4 := trace_polar hG U Z
  change (Uᵀ * M * Z).trace = _ at b3
  linarith [k1.1, k1.2, k2.1, k2.2, k3.1, k3.2]

end KyFan
