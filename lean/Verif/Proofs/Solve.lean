import Verif.Model.Solve
import Verif.Proofs.LowRank
import Verif.Proofs.Solvable
import Mathlib.LinearAlgebra.Matrix.NonsingularInverse

namespace Model

open Finset Matrix

variable {K : Type} [Field K]

/-- An order-2 tensor as a Mathlib matrix. -/
def toM (n m : ℕ) (A : Tensor K) : Matrix (Fin n) (Fin m) K := fun i j => mat A i j

/-- An order-1 tensor as a vector. -/
def toV (n : ℕ) (s : Tensor K) : Fin n → K := fun i => s.val [i.1]

theorem toM_ofMat {n m : ℕ} {f : ℕ → ℕ → K} : toM n m (ofMat n m f) = fun (i : Fin n) (j : Fin m) => f i j := by
  funext i j
  simp [toM, mat, ofMat, Spec.clip]

/-- Product `C["ij"] = A["ik"]*B["kj"]`. -/
theorem einsum_mul {A B : Tensor K} {n m R : ℕ} (hA : A.lens = [n, m]) (hB : B.lens = [m, R]) :
    ∃ T, einsum [n, R] [li, lj] [(A, [li, lk]), (B, [lk, lj])] = .ok T ∧ Canon T ∧
      T.lens = [n, R] ∧ toM n R T = toM n m A * toM m R B := by
  obtain ⟨T, h1, h2, h3, h4⟩ := einsum_matmul hA hB
  refine ⟨T, h1, h2, h3, ?_⟩
  funext a b
  rw [toM, h4 a.1 a.2 b.1 b.2, sum_range, Matrix.mul_apply]
  rfl

/-- `C["ij"] = A["ki"]*s["k"]*B["jk"]`. -/
theorem einsum_rev {A s B : Tensor K} {n m q : ℕ} (hA : A.lens = [q, n]) (hs : s.lens = [q])
    (hB : B.lens = [m, q]) :
    ∃ T, einsum [n, m] [li, lj] [(A, [lk, li]), (s, [lk]), (B, [lj, lk])] = .ok T ∧ Canon T ∧
      T.lens = [n, m] ∧ toM n m T = (toM q n A)ᵀ * diagonal (toV q s) * (toM m q B)ᵀ := by
  obtain ⟨T, e1, e2, e3⟩ := einsum_one (K := K) (d := dIJK n m q) (sc := [li, lj])
    (ops := [(A, [lk, li]), (s, [lk]), (B, [lj, lk])]) (by simp [hA, hB, hs]) lk (by simp)
    (by simp [li, lj, lk]) (by simp [li, lj, lk])
  refine ⟨T, by simpa using e1, e2, by simpa using e3.1, ?_⟩
  funext a b
  have := e3.2 (envIJ a b) (by simp)
  simp only [List.map_cons, List.map_nil, envIJ_i, envIJ_j, dIJK_k, List.prod_cons, List.prod_nil,
    mul_one, Function.update_self] at this
  rw [toM, mat, this, sum_range, Matrix.mul_apply]
  refine Finset.sum_congr rfl fun x _ => ?_
  rw [Function.update_of_ne (by simp [li, lk]), Function.update_of_ne (by simp [lj, lk])]
  simp [Matrix.mul_diagonal, toM, toV, mat, mul_assoc]

/-- `C["ij"] = A["ik"]*B["jk"]`. -/
theorem einsum_mulT {A B : Tensor K} {n m q : ℕ} (hA : A.lens = [n, q]) (hB : B.lens = [m, q]) :
    ∃ T, einsum [n, m] [li, lj] [(A, [li, lk]), (B, [lj, lk])] = .ok T ∧ Canon T ∧
      T.lens = [n, m] ∧ toM n m T = toM n q A * (toM m q B)ᵀ := by
  obtain ⟨T, e1, e2, e3⟩ := einsum_one (K := K) (d := dIJK n m q) (sc := [li, lj])
    (ops := [(A, [li, lk]), (B, [lj, lk])]) (by simp [hA, hB]) lk (by simp)
    (by simp [li, lj, lk]) (by simp [li, lj, lk])
  refine ⟨T, by simpa using e1, e2, by simpa using e3.1, ?_⟩
  funext a b
  have := e3.2 (envIJ a b) (by simp)
  simp only [List.map_cons, List.map_nil, envIJ_i, envIJ_j, dIJK_k, List.prod_cons, List.prod_nil,
    mul_one, Function.update_self] at this
  rw [toM, mat, this, sum_range, Matrix.mul_apply]
  refine Finset.sum_congr rfl fun x _ => ?_
  rw [Function.update_of_ne (by simp [li, lk]), Function.update_of_ne (by simp [lj, lk])]
  simp [toM, mat]

theorem solves_iff {n R : ℕ} {X S M : Tensor K} :
    Spec.Solves n R (mat X) (mat S) (mat M) ↔ toM n R X * toM R R S = toM n R M := by
  constructor
  · intro h
    funext a b
    rw [Matrix.mul_apply]
    have := h a.1 a.2 b.1 b.2
    rw [sum_range] at this
    exact this
  · intro h x hx r hr
    have := congrFun (congrFun h ⟨x, hx⟩) ⟨r, hr⟩
    rw [Matrix.mul_apply] at this
    rw [sum_range]
    exact this

/-- `L` is an `R × R` lower triangular matrix with nonzero diagonal. -/
structure LowerTri (R : ℕ) (L : Tensor K) : Prop where
  lens : L.lens = [R, R]
  low : ∀ a < R, ∀ b < R, a < b → mat L a b = 0
  diag : ∀ a < R, mat L a a ≠ 0

/-- Contract of `solve_tri(L, X, lower = true, from_left = false, transp)`: `X op(L) = B`. -/
def TriSpec (tri : Tensor K → Tensor K → Bool → Bool → Bool → Tensor K) : Prop :=
  ∀ (n R : ℕ) (B L : Tensor K) (transp : Bool), B.lens = [n, R] → LowerTri R L →
    (tri B L true false transp).lens = [n, R] ∧
    ∀ x < n, ∀ r < R, ∑ k ∈ range R, mat (tri B L true false transp) x k *
      (if transp then mat L r k else mat L k r) = mat B x r

/-- `L` is a Cholesky factor of `S`. -/
structure CholSpec (R : ℕ) (L S : Tensor K) : Prop where
  tri : LowerTri R L
  prod : ∀ a < R, ∀ b < R, ∑ k ∈ range R, mat L a k * mat L b k = mat S a b

theorem CholSpec.toM {R : ℕ} {L S : Tensor K} (h : CholSpec R L S) :
    Model.toM R R L * (Model.toM R R L)ᵀ = Model.toM R R S := by
  funext a b
  rw [Matrix.mul_apply]
  have := h.prod a.1 a.2 b.1 b.2
  rw [sum_range] at this
  exact this

theorem TriSpec.transp {tri : Tensor K → Tensor K → Bool → Bool → Bool → Tensor K} (h : TriSpec tri)
    {n R : ℕ} {B L : Tensor K} (hB : B.lens = [n, R]) (hL : LowerTri R L) :
    (tri B L true false true).lens = [n, R] ∧
      toM n R (tri B L true false true) * (toM R R L)ᵀ = toM n R B := by
  refine ⟨(h n R B L true hB hL).1, ?_⟩
  funext a b
  rw [Matrix.mul_apply]
  have := (h n R B L true hB hL).2 a.1 a.2 b.1 b.2
  rw [sum_range] at this
  simpa [toM] using this

theorem TriSpec.plain {tri : Tensor K → Tensor K → Bool → Bool → Bool → Tensor K} (h : TriSpec tri)
    {n R : ℕ} {B L : Tensor K} (hB : B.lens = [n, R]) (hL : LowerTri R L) :
    (tri B L true false false).lens = [n, R] ∧
      toM n R (tri B L true false false) * toM R R L = toM n R B := by
  refine ⟨(h n R B L false hB hL).1, ?_⟩
  funext a b
  rw [Matrix.mul_apply]
  have := (h n R B L false hB hL).2 a.1 a.2 b.1 b.2
  rw [sum_range] at this
  simpa [toM] using this

theorem einsum_LLT {L : Tensor K} {R : ℕ} (hL : L.lens = [R, R]) :
    ∃ T, einsum [R, R] [li, lk] [(L, [li, lj]), (L, [lk, lj])] = .ok T := by
  let d : Label → ℕ := fun _ => R
  obtain ⟨T, e1, _⟩ := einsum_rep (K := K) (d := d) (sc := [li, lk]) (ops := [(L, [li, lj]), (L, [lk, lj])])
    (by simp [hL, d])
  exact ⟨T, by simpa [d] using e1⟩

theorem choleskySolve_ok {k : Kern K} (htri : TriSpec k.tri) {n R : ℕ} {M S : Tensor K}
    (hM : M.lens = [n, R]) (hS : CholSpec R (k.chol S) S) :
    ∃ W, choleskySolve k M S = .ok W ∧ W.lens = [n, R] ∧ Spec.Solves n R (mat W) (mat S) (mat M) := by
  obtain ⟨T0, hT0⟩ := einsum_LLT hS.tri.lens
  obtain ⟨a1, a2⟩ := htri.transp hM hS.tri
  obtain ⟨b1, b2⟩ := htri.plain a1 hS.tri
  refine ⟨_, ?_, b1, ?_⟩
  · unfold choleskySolve
    simp only [hS.tri.lens, hT0, bind, Except.bind]
    rfl
  · rw [solves_iff, ← hS.toM, ← Matrix.mul_assoc, b2, a2]

/-- `u` is a full singular value decomposition of the `R × R` matrix `S`. -/
structure SvdSpec (R : ℕ) (u : LR K) (S : Tensor K) : Prop where
  shape : LRShape u R R R
  prod : ∀ a < R, ∀ b < R, ∑ k ∈ range R, mat u.U a k * u.s.val [k] * mat u.VT k b = mat S a b
  orthU : ∀ a < R, ∀ b < R, ∑ x ∈ range R, mat u.U x a * mat u.U x b = if a = b then 1 else 0
  orthV : ∀ a < R, ∀ b < R, ∑ x ∈ range R, mat u.VT a x * mat u.VT b x = if a = b then 1 else 0

theorem usv_mul {u : LR K} {n q R : ℕ} {S : Tensor K}
    (h : ∀ a < n, ∀ b < R, ∑ k ∈ range q, mat u.U a k * u.s.val [k] * mat u.VT k b = mat S a b) :
    toM n q u.U * diagonal (toV q u.s) * toM q R u.VT = toM n R S := by
  funext a b
  rw [Matrix.mul_apply]
  have := h a.1 a.2 b.1 b.2
  rw [sum_range] at this
  simpa [Matrix.mul_diagonal, toM, toV] using this

theorem SvdSpec.mU {R : ℕ} {u : LR K} {S : Tensor K} (h : SvdSpec R u S) :
    (toM R R u.U)ᵀ * toM R R u.U = 1 := by
  funext a b
  rw [Matrix.mul_apply]
  have := h.orthU a.1 a.2 b.1 b.2
  rw [sum_range] at this
  simpa [toM, Matrix.one_apply, Fin.ext_iff] using this

theorem SvdSpec.mV {R : ℕ} {u : LR K} {S : Tensor K} (h : SvdSpec R u S) :
    toM R R u.VT * (toM R R u.VT)ᵀ = 1 := by
  funext a b
  rw [Matrix.mul_apply]
  have := h.orthV a.1 a.2 b.1 b.2
  rw [sum_range] at this
  simpa [toM, Matrix.one_apply, Fin.ext_iff] using this

theorem toV_inv {R : ℕ} {s : Tensor K} (hs : s.lens = [R]) (hne : ∀ k < R, s.val [k] ≠ 0) :
    diagonal (toV R (invVec s)) * diagonal (toV R s) = 1 := by
  rw [Matrix.diagonal_mul_diagonal, ← Matrix.diagonal_one]
  congr 1
  funext i
  simp [toV, invVec, hs, fits, hne i.1 i.2]

theorem svdSolve_ok {k : Kern K} {n R : ℕ} {M S : Tensor K} (hM : M.lens = [n, R]) (hSl : S.lens = [R, R])
    (hS : SvdSpec R (k.svd S R) S) (hne : ∀ j < R, (k.svd S R).s.val [j] ≠ 0) :
    ∃ W, svdSolve k [n, R] M S = .ok W ∧ Canon W ∧ W.lens = [n, R] ∧
      Spec.Solves n R (mat W) (mat S) (mat M) := by
  set u := k.svd S R with hu
  obtain ⟨Sr, r1, r2, r3, r4⟩ := einsum_rev (n := R) (m := R) hS.shape.VT
    (s := invVec u.s) (by simp [invVec, hS.shape.s]) hS.shape.U
  obtain ⟨W, w1, w2, w3, w4⟩ := einsum_mul hM r3
  refine ⟨W, ?_, w2, w3, ?_⟩
  · unfold svdSolve
    simp only [show ncol S = R by simp [ncol, hSl], ← hu, hSl, r1, bind, Except.bind, w1]
  · rw [solves_iff, w4, r4, ← usv_mul hS.prod]
    have hVV : (toM R R u.VT)ᵀ * toM R R u.VT = 1 := mul_eq_one_comm.1 hS.mV
    have hd := toV_inv hS.shape.s hne
    set A := toM R R u.VT
    set B := toM R R u.U
    calc toM n R M * (Aᵀ * diagonal (toV R (invVec u.s)) * Bᵀ) * (B * diagonal (toV R u.s) * A)
        = toM n R M * (Aᵀ * (diagonal (toV R (invVec u.s)) * ((Bᵀ * B) * diagonal (toV R u.s))) * A) := by
          simp only [Matrix.mul_assoc]
      _ = toM n R M * (Aᵀ * A) := by rw [hS.mU, Matrix.one_mul, hd, Matrix.mul_one]
      _ = toM n R M := by rw [hVV, Matrix.mul_one]

theorem svdSolveMod_ok [DecidableEq K] {k : Kern K} {n R : ℕ} {M Winit S : Tensor K} (hM : M.lens = [n, R])
    (hW : Winit.lens = [n, R]) (hSl : S.lens = [R, R])
    (hS : SvdSpec R (k.svd S R) S) (hne : ∀ j < R, (k.svd S R).s.val [j] ≠ 0) (ratio : K) :
    ∃ W dW X, svdSolveMod k M Winit S ratio = .ok (W, dW) ∧ W.lens = [n, R] ∧ dW.lens = [n, R] ∧
      Spec.Solves n R X (mat S) (mat M) ∧
      (∀ x < n, ∀ r < R, mat dW x r = ratio * (X x r - mat Winit x r)) ∧
      ∀ x < n, ∀ r < R, mat W x r = mat Winit x r + mat dW x r := by
  obtain ⟨X, x1, x2, x3, x4⟩ := svdSolve_ok hM hSl hS hne
  obtain ⟨D, d1, d2, d3, d4⟩ := zipT_ok (fun a b : K => ratio * (a - b)) (A := X) (B := Winit) (by rw [x3, hW])
  rw [x3] at d3 d4
  have hD : ∀ x < n, ∀ r < R, mat D x r = ratio * (mat X x r - mat Winit x r) :=
    fun x hx r hr => d4 _ (fits_two.2 ⟨hx, hr⟩)
  by_cases hr : ratio = 1
  · refine ⟨X, D, mat X, ?_, x3, d3, x4, hD, ?_⟩
    · unfold svdSolveMod
      simp only [hW, x1, d1, bind, Except.bind, hr, ne_eq, not_true, if_false]
      rw [hr] at d1
      simp only [d1]
      rfl
    · intro x hx r hr'
      rw [hD x hx r hr', hr]; ring
  · obtain ⟨W, w1, w2, w3, w4⟩ := zipT_ok (· + ·) (A := Winit) (B := D) (by rw [d3, hW])
    rw [hW] at w3 w4
    refine ⟨W, D, mat X, ?_, w3, d3, x4, hD, fun x hx r hr => w4 _ (fits_two.2 ⟨hx, hr⟩)⟩
    unfold svdSolveMod
    simp only [hW, x1, d1, bind, Except.bind, ne_eq, hr, not_false_eq_true, if_true, w1]
    rfl

end Model
