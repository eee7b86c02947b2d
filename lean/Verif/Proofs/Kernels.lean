import Verif.Proofs.RankR
import Mathlib.Analysis.Matrix.LDL
import Mathlib.Analysis.Matrix.Spectrum
import Mathlib.LinearAlgebra.Matrix.Block

/-! # The contracts assumed of CTF's dense kernels are satisfiable over `ℝ` -/

namespace Model

open Finset Matrix

theorem posDef_iff {R : ℕ} {S : Tensor ℝ} (h : Spec.PosDef R (mat S)) : (toM R R S).PosDef := by
  rw [Matrix.posDef_iff_dotProduct_mulVec]
  refine ⟨?_, ?_⟩
  · ext a b
    simp [toM, h.1 a.1 a.2 b.1 b.2]
  · intro x hx
    have hx' : ∃ a, x a ≠ 0 := by
      by_contra hc
      push Not at hc
      exact hx (funext hc)
    obtain ⟨a, ha⟩ := hx'
    have := h.2 (fun k => if hk : k < R then x ⟨k, hk⟩ else 0) ⟨a.1, a.2, by simpa using ha⟩
    rw [sum_range] at this
    refine this.trans_eq ?_
    simp only [dotProduct, mulVec, star_trivial]
    refine sum_congr rfl fun a _ => ?_
    rw [sum_range, mul_sum]
    refine sum_congr rfl fun b _ => ?_
    simp [toM, mul_assoc]

theorem exists_cholesky {R : ℕ} {S : Matrix (Fin R) (Fin R) ℝ} (hS : S.PosDef) :
    ∃ L : Matrix (Fin R) (Fin R) ℝ, (∀ a b, a < b → L a b = 0) ∧ (∀ a, L a a ≠ 0) ∧ L * Lᵀ = S := by
  have hd : ∀ i, 0 < LDL.diagEntries hS i := by
    intro i
    have hne : Star.star (LDL.lowerInv hS i) ≠ 0 := by
      intro h0
      have hrow : LDL.lowerInv hS i = 0 := by simpa using h0
      have hdet : (LDL.lowerInv hS).det = 0 := Matrix.det_eq_zero_of_row_eq_zero i (fun j => congrFun hrow j)
      have hu : IsUnit (LDL.lowerInv hS).det :=
        (Matrix.isUnit_iff_isUnit_det _).1 (isUnit_of_invertible (LDL.lowerInv hS))
      exact hu.ne_zero hdet
    have := hS.dotProduct_mulVec_pos hne
    unfold LDL.diagEntries
    rw [EuclideanSpace.inner_toLp_toLp, dotProduct_comm]
    exact this
  have hlow : ∀ a b, a < b → LDL.lower hS a b = 0 := by
    have hb : (LDL.lowerInv hS).BlockTriangular OrderDual.toDual := fun i j hij => LDL.lowerInv_triangular hS hij
    have := Matrix.blockTriangular_inv_of_blockTriangular hb
    exact fun a b hab => this hab
  refine ⟨LDL.lower hS * diagonal (fun i => Real.sqrt (LDL.diagEntries hS i)), ?_, ?_, ?_⟩
  · intro a b hab
    rw [Matrix.mul_diagonal, hlow a b hab, zero_mul]
  · intro a
    rw [Matrix.mul_diagonal]
    refine mul_ne_zero ?_ (Real.sqrt_pos.2 (hd a)).ne'
    have hu : IsUnit (LDL.lower hS).det := by
      unfold LDL.lower
      rw [Matrix.isUnit_nonsing_inv_det_iff]
      exact (Matrix.isUnit_iff_isUnit_det _).1 (isUnit_of_invertible (LDL.lowerInv hS))
    rw [Matrix.det_of_lowerTriangular _ (fun a b hab => hlow a b hab), isUnit_iff_ne_zero,
      Finset.prod_ne_zero_iff] at hu
    exact hu a (mem_univ a)
  · have hL := LDL.lower_conj_diag hS
    rw [Matrix.transpose_mul, Matrix.diagonal_transpose]
    have hdd : diagonal (fun i => Real.sqrt (LDL.diagEntries hS i)) *
        diagonal (fun i => Real.sqrt (LDL.diagEntries hS i)) = LDL.diag hS := by
      rw [Matrix.diagonal_mul_diagonal]
      unfold LDL.diag
      congr 1
      funext i
      exact Real.mul_self_sqrt (hd i).le
    rw [Matrix.mul_assoc, ← Matrix.mul_assoc (diagonal _), hdd, ← Matrix.mul_assoc]
    exact hL

/-- A matrix as a CTF object. -/
noncomputable def ofFinMat {n m : ℕ} (A : Matrix (Fin n) (Fin m) ℝ) : Tensor ℝ :=
  ofMat n m fun a b => if h : a < n ∧ b < m then A ⟨a, h.1⟩ ⟨b, h.2⟩ else 0

theorem mat_ofFinMat {n m : ℕ} (A : Matrix (Fin n) (Fin m) ℝ) {a b : ℕ} (ha : a < n) (hb : b < m) :
    mat (ofFinMat A) a b = A ⟨a, ha⟩ ⟨b, hb⟩ := by
  simp [mat, ofFinMat, ofMat, Spec.clip, ha, hb]

theorem exists_chol_kernel : ∃ chol : Tensor ℝ → Tensor ℝ, ∀ (R : ℕ) (S : Tensor ℝ), S.lens = [R, R] →
    Spec.PosDef R (mat S) → CholSpec R (chol S) S := by
  classical
  refine ⟨fun S => if h : ∃ L, CholSpec (nrow S) L S then h.choose else S, fun R S hl hS => ?_⟩
  have hn : nrow S = R := by simp [nrow, hl]
  have hex : ∃ L, CholSpec R L S := by
    obtain ⟨L, h1, h2, h3⟩ := exists_cholesky (posDef_iff hS)
    refine ⟨ofFinMat L, ⟨rfl, fun a ha b hb hab => ?_, fun a ha => ?_⟩, fun a ha b hb => ?_⟩
    · rw [mat_ofFinMat L ha hb]; exact h1 _ _ hab
    · rw [mat_ofFinMat L ha ha]; exact h2 _
    · have := congrFun (congrFun h3 ⟨a, ha⟩) ⟨b, hb⟩
      rw [Matrix.mul_apply] at this
      rw [sum_range]
      refine Eq.trans (sum_congr rfl fun k _ => ?_) this
      rw [mat_ofFinMat L ha k.2, mat_ofFinMat L hb k.2]
      rfl
  simp only [hn, dif_pos hex]
  exact hex.choose_spec

theorem exists_tri_kernel : ∃ tri : Tensor ℝ → Tensor ℝ → Bool → Bool → Bool → Tensor ℝ, TriSpec tri := by
  refine ⟨fun B L _ _ transp => match B.lens with
    | [n, R] => ofFinMat (toM n R B * (if transp then (toM R R L)ᵀ else toM R R L)⁻¹)
    | _ => B, ?_⟩
  intro n R B L transp hB hL
  simp only [hB]
  refine ⟨rfl, fun x hx r hr => ?_⟩
  set A := if transp then (toM R R L)ᵀ else toM R R L with hA
  have hu : IsUnit A.det := by
    rw [hA]; split_ifs
    · rw [det_transpose]; exact hL.isUnit
    · exact hL.isUnit
  have e : toM n R B * A⁻¹ * A = toM n R B := by
    rw [Matrix.mul_assoc, Matrix.nonsing_inv_mul _ hu, Matrix.mul_one]
  have := congrFun (congrFun e ⟨x, hx⟩) ⟨r, hr⟩
  rw [Matrix.mul_apply] at this
  rw [sum_range]
  refine Eq.trans (sum_congr rfl fun k _ => ?_) this
  rw [mat_ofFinMat _ hx k.2]
  congr 1
  rw [hA]
  cases transp <;> rfl

theorem exists_svd_kernel : ∃ svd : Tensor ℝ → ℕ → LR ℝ, ∀ (R : ℕ) (S : Tensor ℝ), S.lens = [R, R] →
    (∀ a < R, ∀ b < R, mat S a b = mat S b a) → SvdSpec R (svd S R) S := by
  classical
  refine ⟨fun S R => if h : ∃ u, SvdSpec R u S then h.choose else ⟨S, S, S⟩, fun R S hl hS => ?_⟩
  have hex : ∃ u, SvdSpec R u S := by
    have hA : (toM R R S).IsHermitian := by
      ext a b
      simp [toM, hS a.1 a.2 b.1 b.2]
    set U : Matrix (Fin R) (Fin R) ℝ := (hA.eigenvectorUnitary).1 with hU
    have hsp : toM R R S = U * diagonal hA.eigenvalues * Uᵀ := by
      have := hA.spectral_theorem
      rw [Unitary.conjStarAlgAut_apply] at this
      exact this
    have hUU : Uᵀ * U = 1 := Unitary.coe_star_mul_self hA.eigenvectorUnitary
    refine ⟨⟨ofFinMat U, ⟨[R], fun idx => match idx with
      | [k] => if h : k < R then hA.eigenvalues ⟨k, h⟩ else 0
      | _ => 0⟩, ofFinMat Uᵀ⟩, ⟨rfl, rfl, rfl⟩, ?_, ?_, ?_⟩
    · intro a ha b hb
      have := congrFun (congrFun hsp ⟨a, ha⟩) ⟨b, hb⟩
      rw [Matrix.mul_apply] at this
      rw [sum_range]
      refine Eq.trans (sum_congr rfl fun k _ => ?_) this.symm
      rw [mat_ofFinMat _ ha k.2, mat_ofFinMat _ k.2 hb, Matrix.mul_diagonal]
      simp
    · intro a ha b hb
      have := congrFun (congrFun hUU ⟨a, ha⟩) ⟨b, hb⟩
      rw [Matrix.mul_apply] at this
      rw [sum_range]
      refine Eq.trans (sum_congr rfl fun k _ => ?_) (this.trans ?_)
      · rw [mat_ofFinMat _ k.2 ha, mat_ofFinMat _ k.2 hb]; rfl
      · simp [Matrix.one_apply]
    · intro a ha b hb
      have := congrFun (congrFun hUU ⟨a, ha⟩) ⟨b, hb⟩
      rw [Matrix.mul_apply] at this
      rw [sum_range]
      refine Eq.trans (sum_congr rfl fun k _ => ?_) (this.trans ?_)
      · rw [mat_ofFinMat _ ha k.2, mat_ofFinMat _ hb k.2]; rfl
      · simp [Matrix.one_apply]
  simp only [dif_pos hex]
  exact hex.choose_spec

end Model
