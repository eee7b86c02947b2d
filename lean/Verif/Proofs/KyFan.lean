import Mathlib.Analysis.Matrix.Spectrum
import Mathlib.Analysis.Matrix.PosDef
import Mathlib.LinearAlgebra.Matrix.Trace
import Mathlib.Tactic.Linarith
import Mathlib.Tactic.Positivity

/-! The leading left singular vectors of a positive semidefinite matrix maximise the trace (Ky Fan). -/

namespace KyFan

open Finset Matrix

variable {n r : ℕ}

/-- The first `r` columns. -/
def firstCols (hr : r ≤ n) (P : Matrix (Fin n) (Fin n) ℝ) : Matrix (Fin n) (Fin r) ℝ := fun x a => P x (Fin.castLE hr a)

/-- A symmetric positive semidefinite matrix with singular value decomposition `P Σ Qᵀ` equals `P Σ Pᵀ`. -/
theorem svd_psd {M P Q : Matrix (Fin n) (Fin n) ℝ} {σ : Fin n → ℝ} (hM : M.PosSemidef) (hP : Pᵀ * P = 1) (hQ : Qᵀ * Q = 1)
    (hσ : ∀ a, 0 ≤ σ a) (h : M = P * diagonal σ * Qᵀ) : M = P * diagonal σ * Pᵀ := by
  have hMt : Mᵀ = M := by
    have := hM.1
    rwa [Matrix.IsHermitian, Matrix.conjTranspose_eq_transpose_of_trivial] at this
  have hPP : P * Pᵀ = 1 := mul_eq_one_comm.1 hP
  -- M M P = P Σ²
  have h2 : M * (M * P) = P * diagonal (fun a => σ a * σ a) := by
    have e : M * M = P * diagonal (fun a => σ a * σ a) * Pᵀ := by
      conv_lhs => rw [← hMt]
      conv_lhs => lhs; rw [hMt]
      rw [h, transpose_mul, transpose_mul, transpose_transpose, diagonal_transpose]
      calc P * diagonal σ * Qᵀ * (Q * (diagonal σ * Pᵀ)) = P * diagonal σ * (Qᵀ * Q) * diagonal σ * Pᵀ := by
            simp only [Matrix.mul_assoc]
        _ = P * (diagonal σ * diagonal σ) * Pᵀ := by rw [hQ, Matrix.mul_one]; simp only [Matrix.mul_assoc]
        _ = _ := by rw [diagonal_mul_diagonal]
    rw [← Matrix.mul_assoc, e, Matrix.mul_assoc, hP, Matrix.mul_one]
  -- column by column
  have hcol : ∀ a, M *ᵥ (fun x => P x a) = σ a • (fun x => P x a) := by
    intro a
    set p : Fin n → ℝ := fun x => P x a with hp
    have hMM : M *ᵥ (M *ᵥ p) = (σ a * σ a) • p := by
      funext x
      have := congrFun (congrFun h2 x) a
      rw [Matrix.mul_diagonal] at this
      rw [Pi.smul_apply, smul_eq_mul, mul_comm, ← this]
      rfl
    by_cases h0 : σ a = 0
    · have : M *ᵥ p ⬝ᵥ M *ᵥ p = 0 := by
        have e : M *ᵥ p ⬝ᵥ M *ᵥ p = p ⬝ᵥ M *ᵥ (M *ᵥ p) := by
          rw [Matrix.dotProduct_mulVec p, ← Matrix.mulVec_transpose, hMt]
        rw [e, hMM, h0]; simp
      rw [dotProduct_self_eq_zero.1 this, h0, zero_smul]
    · have hpos : 0 < σ a := lt_of_le_of_ne (hσ a) (Ne.symm h0)
      set d : Fin n → ℝ := M *ᵥ p - σ a • p with hd
      have e1 : M *ᵥ d = -(σ a • d) := by
        rw [hd, Matrix.mulVec_sub, hMM, Matrix.mulVec_smul, smul_sub, smul_smul]
        abel
      have e2 : 0 ≤ d ⬝ᵥ M *ᵥ d := by
        have := hM.dotProduct_mulVec_nonneg d
        simpa using this
      rw [e1, dotProduct_neg, dotProduct_smul, smul_eq_mul] at e2
      have e3 : 0 ≤ d ⬝ᵥ d := by
        rw [dotProduct]; exact sum_nonneg fun i _ => mul_self_nonneg _
      have e4 : d ⬝ᵥ d = 0 := by
        rcases e3.lt_or_eq with hlt | heq
        · have := mul_pos hpos hlt; linarith
        · exact heq.symm
      exact sub_eq_zero.1 (dotProduct_self_eq_zero.1 e4)
  have hMP : M * P = P * diagonal σ := by
    funext x a
    rw [Matrix.mul_diagonal]
    have := congrFun (hcol a) x
    rw [Pi.smul_apply, smul_eq_mul, mul_comm] at this
    exact this
  rw [← hMP, Matrix.mul_assoc, hPP, Matrix.mul_one]

/-- The rearrangement step of Ky Fan's theorem. -/
theorem weighted_le {σ c : Fin n → ℝ} (hr : r ≤ n) (hanti : Antitone σ) (h0 : ∀ k, 0 ≤ c k) (h1 : ∀ k, c k ≤ 1)
    (hs : ∑ k, c k = r) : ∑ k, σ k * c k ≤ ∑ a : Fin r, σ (Fin.castLE hr a) := by
  rcases Nat.eq_zero_or_pos r with rfl | hpos
  · have : ∀ k, c k = 0 := by
      have := (Finset.sum_eq_zero_iff_of_nonneg (fun k _ => h0 k)).1 (by simpa using hs)
      exact fun k => this k (mem_univ k)
    simp [this]
  · set t := σ ⟨r - 1, by omega⟩ with ht
    have hsum : ∑ a : Fin r, σ (Fin.castLE hr a) = ∑ k : Fin n, if k.1 < r then σ k else 0 := by
      rw [← Finset.sum_filter]
      refine Finset.sum_bij (fun a _ => Fin.castLE hr a) ?_ ?_ ?_ ?_
      · intro a _; simp
      · intro a _ b _ h; exact Fin.castLE_injective hr h
      · intro k hk
        exact ⟨⟨k.1, by simpa using hk⟩, mem_univ _, by ext; rfl⟩
      · intro a _; rfl
    have hcard : (∑ k : Fin n, if k.1 < r then (1 : ℝ) else 0) = r := by
      have : (∑ k : Fin n, if k.1 < r then (1 : ℝ) else 0) = ∑ a : Fin r, (1 : ℝ) := by
        rw [← Finset.sum_filter]
        symm
        refine Finset.sum_bij (fun a _ => Fin.castLE hr a) ?_ ?_ ?_ ?_
        · intro a _; simp
        · intro a _ b _ h; exact Fin.castLE_injective hr h
        · intro k hk
          exact ⟨⟨k.1, by simpa using hk⟩, mem_univ _, by ext; rfl⟩
        · intro a _; rfl
      rw [this]; simp
    have key : ∀ k : Fin n, t * ((if k.1 < r then 1 else 0) - c k) ≤ (if k.1 < r then σ k else 0) - σ k * c k := by
      intro k
      by_cases hk : k.1 < r
      · rw [if_pos hk, if_pos hk]
        have : t ≤ σ k := hanti (by rw [Fin.le_def]; simp only; omega)
        have := mul_le_mul_of_nonneg_right this (sub_nonneg.2 (h1 k))
        linarith
      · rw [if_neg hk, if_neg hk]
        have : σ k ≤ t := hanti (by rw [Fin.le_def]; simp only; omega)
        have := mul_le_mul_of_nonneg_right this (h0 k)
        linarith
    have := Finset.sum_le_sum fun k (_ : k ∈ univ) => key k
    rw [← mul_sum, sum_sub_distrib, hcard, hs, sub_self, mul_zero, sum_sub_distrib] at this
    rw [hsum]
    linarith

theorem trace_firstCols {M P : Matrix (Fin n) (Fin n) ℝ} {σ : Fin n → ℝ} (hP : Pᵀ * P = 1) (h : M = P * diagonal σ * Pᵀ)
    (hr : r ≤ n) : ((firstCols hr P)ᵀ * M * firstCols hr P).trace = ∑ a : Fin r, σ (Fin.castLE hr a) := by
  have hMP : M * P = P * diagonal σ := by rw [h, Matrix.mul_assoc, hP, Matrix.mul_one]
  have h2 : Pᵀ * (M * P) = diagonal σ := by rw [hMP, ← Matrix.mul_assoc, hP, Matrix.one_mul]
  rw [Matrix.mul_assoc, Matrix.trace]
  refine sum_congr rfl fun a _ => ?_
  have := congrFun (congrFun h2 (Fin.castLE hr a)) (Fin.castLE hr a)
  rw [diagonal_apply_eq] at this
  rw [← this]
  rfl

/-- **Ky Fan.** Among all matrices with orthonormal columns the first `r` columns of `P` maximise the trace. -/
theorem trace_le {M P : Matrix (Fin n) (Fin n) ℝ} {σ : Fin n → ℝ} (hP : Pᵀ * P = 1) (hanti : Antitone σ)
    (h : M = P * diagonal σ * Pᵀ) (hr : r ≤ n) {B : Matrix (Fin n) (Fin r) ℝ} (hB : Bᵀ * B = 1) :
    (Bᵀ * M * B).trace ≤ ((firstCols hr P)ᵀ * M * firstCols hr P).trace := by
  have hPP : P * Pᵀ = 1 := mul_eq_one_comm.1 hP
  rw [trace_firstCols hP h hr]
  set C : Matrix (Fin r) (Fin n) ℝ := Bᵀ * P with hC
  have e1 : (Bᵀ * M * B).trace = ∑ k, σ k * ∑ a, C a k ^ 2 := by
    have : Bᵀ * M * B = C * diagonal σ * Cᵀ := by
      rw [h, hC, transpose_mul, transpose_transpose]; simp only [Matrix.mul_assoc]
    rw [this, Matrix.trace]
    have e : ∀ a, (C * diagonal σ * Cᵀ) a a = ∑ k, σ k * C a k ^ 2 := fun a => by
      rw [Matrix.mul_apply]
      refine sum_congr rfl fun k _ => ?_
      rw [Matrix.mul_diagonal, Matrix.transpose_apply]; ring
    simp only [Matrix.diag_apply, e]
    rw [sum_comm]
    exact sum_congr rfl fun k _ => by rw [mul_sum]
  rw [e1]
  refine weighted_le hr hanti (fun k => sum_nonneg fun a _ => sq_nonneg _) ?_ ?_
  · intro k
    -- ‖Bᵀ p‖² ≤ ‖p‖² = 1
    set p : Fin n → ℝ := fun x => P x k with hp
    have hpp : p ⬝ᵥ p = 1 := by
      have := congrFun (congrFun hP k) k
      rw [Matrix.one_apply_eq] at this
      rw [← this]; rfl
    have hc : ∑ a, C a k ^ 2 = (Bᵀ *ᵥ p) ⬝ᵥ (Bᵀ *ᵥ p) := by
      rw [dotProduct]
      refine sum_congr rfl fun a _ => ?_
      rw [sq]; rfl
    have h3 : 0 ≤ (p - B *ᵥ (Bᵀ *ᵥ p)) ⬝ᵥ (p - B *ᵥ (Bᵀ *ᵥ p)) := by
      rw [dotProduct]; exact sum_nonneg fun i _ => mul_self_nonneg _
    have h4 : p ⬝ᵥ B *ᵥ (Bᵀ *ᵥ p) = (Bᵀ *ᵥ p) ⬝ᵥ (Bᵀ *ᵥ p) := by
      rw [Matrix.dotProduct_mulVec, ← Matrix.mulVec_transpose]
    have h5 : (B *ᵥ (Bᵀ *ᵥ p)) ⬝ᵥ (B *ᵥ (Bᵀ *ᵥ p)) = (Bᵀ *ᵥ p) ⬝ᵥ (Bᵀ *ᵥ p) := by
      rw [Matrix.dotProduct_mulVec, ← Matrix.mulVec_transpose, Matrix.mulVec_mulVec, hB, Matrix.one_mulVec]
    rw [sub_dotProduct, dotProduct_sub, dotProduct_sub, h5, dotProduct_comm (B *ᵥ _) p, h4, hpp] at h3
    rw [hc]; linarith
  · have : (C * Cᵀ).trace = r := by
      rw [hC, transpose_mul, transpose_transpose, Matrix.mul_assoc, ← Matrix.mul_assoc P, hPP, Matrix.one_mul, hB,
        Matrix.trace_one, Fintype.card_fin]
    rw [← this, Matrix.trace, sum_comm]
    refine sum_congr rfl fun a _ => ?_
    rw [Matrix.diag_apply, Matrix.mul_apply]
    exact sum_congr rfl fun k _ => by rw [sq]; rfl

/-- Every positive semidefinite matrix has a decomposition with decreasing nonnegative values. -/
theorem exists_svd {M : Matrix (Fin n) (Fin n) ℝ} (hM : M.PosSemidef) :
    ∃ (P : Matrix (Fin n) (Fin n) ℝ) (σ : Fin n → ℝ), Pᵀ * P = 1 ∧ (∀ a, 0 ≤ σ a) ∧ Antitone σ ∧ M = P * diagonal σ * Pᵀ := by
  have hA := hM.1
  set U : Matrix (Fin n) (Fin n) ℝ := (hA.eigenvectorUnitary).1 with hU
  have hsp : M = U * diagonal hA.eigenvalues * Uᵀ := by
    have := hA.spectral_theorem
    rw [Unitary.conjStarAlgAut_apply] at this
    exact this
  have hUU : Uᵀ * U = 1 := Unitary.coe_star_mul_self hA.eigenvectorUnitary
  let e : Fin n ≃ Fin n := (finCongr (Fintype.card_fin n).symm).trans (Fintype.equivOfCardEq (Fintype.card_fin _))
  have he : ∀ a, hA.eigenvalues (e a) = hA.eigenvalues₀ (Fin.cast (Fintype.card_fin n).symm a) := by
    intro a
    simp [e, IsHermitian.eigenvalues]
  refine ⟨Matrix.of fun x a => U x (e a), fun a => hA.eigenvalues (e a), ?_, fun a => hM.eigenvalues_nonneg _, ?_, ?_⟩
  · ext a b
    have h1 := congrFun (congrFun hUU (e a)) (e b)
    have h2 : ((Matrix.of fun x a => U x (e a))ᵀ * Matrix.of fun x a => U x (e a)) a b = (Uᵀ * U) (e a) (e b) := rfl
    rw [h2, h1, Matrix.one_apply, Matrix.one_apply]
    by_cases hab : a = b
    · rw [if_pos hab, if_pos (by rw [hab])]
    · rw [if_neg hab, if_neg (fun h => hab (e.injective h))]
  · intro a b hab
    beta_reduce
    rw [he, he]
    exact hA.eigenvalues₀_antitone (Fin.le_def.2 (Fin.le_def.1 hab))
  · conv_lhs => rw [hsp]
    ext x y
    rw [Matrix.mul_apply, Matrix.mul_apply, ← Equiv.sum_comp e]
    refine sum_congr rfl fun a _ => ?_
    rw [Matrix.mul_diagonal, Matrix.mul_diagonal]
    rfl

end KyFan
