import Verif.Proofs.Objective
import Mathlib.LinearAlgebra.Matrix.Rank
import Mathlib.LinearAlgebra.FiniteDimensional.Lemmas

namespace Spec

open Finset Matrix

variable {K : Type*} {N : ℕ} [Field K] [LinearOrder K] [IsStrictOrderedRing K]

/-- `AᵀA v = Aᵀc` always has a solution. -/
theorem exists_normal_solution {ι : Type*} [Fintype ι] {R : ℕ} (A : Matrix ι (Fin R) K) (c : ι → K) :
    ∃ v : Fin R → K, (Aᵀ * A) *ᵥ v = Aᵀ *ᵥ c := by
  have hle : LinearMap.range (Aᵀ * A).mulVecLin ≤ LinearMap.range Aᵀ.mulVecLin := by
    rintro _ ⟨v, rfl⟩
    exact ⟨A *ᵥ v, by simp [mulVecLin_apply, mulVec_mulVec]⟩
  have hrank : Module.finrank K (LinearMap.range (Aᵀ * A).mulVecLin) =
      Module.finrank K (LinearMap.range Aᵀ.mulVecLin) := by
    change (Aᵀ * A).rank = Aᵀ.rank
    rw [rank_transpose_mul_self, rank_transpose]
  have heq := Submodule.eq_of_le_of_finrank_eq hle hrank
  have : Aᵀ *ᵥ c ∈ LinearMap.range (Aᵀ * A).mulVecLin := by
    rw [heq]; exact ⟨c, rfl⟩
  obtain ⟨v, hv⟩ := this
  exact ⟨v, hv⟩

variable {dims : Fin N → ℕ} {R : ℕ} {V : (Fin N → ℕ) → K} {W : Fin N → ℕ → ℕ → K} {i : Fin N}

theorem gramExcept_symm (a b : ℕ) : gramExcept dims W i a b = gramExcept dims W i b a := by
  unfold gramExcept gram
  exact prod_congr rfl fun j _ => sum_congr rfl fun x _ => mul_comm _ _

/-- The quadratic form of the Gram product is a sum of squares (over any slice). -/
theorem gram_quad_nonneg (hd : 0 < dims i) (v : ℕ → K) :
    0 ≤ ∑ a ∈ range R, ∑ b ∈ range R, v a * gramExcept dims W i a b * v b := by
  have h := change_inner (dims := dims) (R := R) (W := W) (i := i) (fun x k => if x = 0 then v k else 0)
    (fun x k => if x = 0 then v k else 0)
  have h2 : ∑ x ∈ range (dims i), ∑ r ∈ range R,
      (∑ k ∈ range R, (if x = 0 then v k else 0) * gramExcept dims W i k r) * (if x = 0 then v r else 0) =
      ∑ a ∈ range R, ∑ b ∈ range R, v a * gramExcept dims W i a b * v b := by
    rw [sum_eq_single 0]
    · simp only [if_true]
      rw [sum_comm]
      exact sum_congr rfl fun r _ => by rw [sum_mul]
    · intro x _ hx
      simp [hx]
    · intro h; exact absurd (mem_range.2 hd) h
  rw [← h2, ← h]
  exact sum_nonneg fun _ _ => mul_self_nonneg _

/-- With `lam > 0` the normal matrix is positive definite. -/
theorem normalMat_posDef {lam : K} (hlam : 0 < lam) (hd : 0 < dims i) :
    PosDef R (normalMat dims R lam W i) := by
  refine ⟨fun a ha b hb => ?_, fun v hv => ?_⟩
  · simp only [normalMat, clip, ha, hb, and_self, if_true, gramExcept_symm a b, eq_comm (a := a)]
  · have h : ∑ a ∈ range R, ∑ b ∈ range R, v a * normalMat dims R lam W i a b * v b =
        ∑ a ∈ range R, ∑ b ∈ range R, v a * gramExcept dims W i a b * v b +
          lam * ∑ a ∈ range R, v a * v a := by
      rw [mul_sum, ← sum_add_distrib]
      refine sum_congr rfl fun a ha => ?_
      have : lam * (v a * v a) = ∑ b ∈ range R, if a = b then lam * (v a * v b) else 0 := by
        rw [sum_ite_eq]; simp [mem_range.1 ha]
      rw [this, ← sum_add_distrib]
      refine sum_congr rfl fun b hb => ?_
      simp only [normalMat, clip, mem_range.1 ha, mem_range.1 hb, and_self, if_true]
      split_ifs <;> ring
    rw [h]
    obtain ⟨a, ha, hne⟩ := hv
    have h1 : 0 < ∑ a ∈ range R, v a * v a :=
      sum_pos' (fun _ _ => mul_self_nonneg _) ⟨a, mem_range.2 ha, mul_self_pos.2 hne⟩
    have := mul_pos hlam h1
    have := gram_quad_nonneg (W := W) (R := R) hd v
    linarith

/-- A positive definite system has a solution. -/
theorem posDef_solvable {n : ℕ} {S M : ℕ → ℕ → K} (hS : PosDef R S) : ∃ X, Solves n R X S M := by
  let A : Matrix (Fin R) (Fin R) K := fun a b => S b a
  have hinj : Function.Injective A.mulVecLin := by
    rw [← LinearMap.ker_eq_bot, LinearMap.ker_eq_bot']
    intro v hv
    by_contra hne
    obtain ⟨a, ha⟩ : ∃ a, v a ≠ 0 := by
      by_contra h; push Not at h; exact hne (funext h)
    have hpos := hS.2 (fun k => if h : k < R then v ⟨k, h⟩ else 0) ⟨a.1, a.2, by simpa [a.2] using ha⟩
    have hz : ∑ a ∈ range R, ∑ b ∈ range R, (if h : a < R then v ⟨a, h⟩ else 0) * S a b *
        (if h : b < R then v ⟨b, h⟩ else 0) = 0 := by
      rw [sum_comm, sum_range]
      refine sum_eq_zero fun b _ => ?_
      rw [sum_range]
      have := congrFun hv b
      simp only [mulVecLin_apply, mulVec, dotProduct, A, Pi.zero_apply] at this
      simp only [Fin.is_lt, dite_true, Fin.eta]
      rw [← sum_mul]
      have e : ∑ x : Fin R, v x * S x.1 b.1 = 0 := by
        rw [← this]; exact sum_congr rfl fun _ _ => mul_comm _ _
      rw [e, zero_mul]
    rw [hz] at hpos
    exact lt_irrefl _ hpos
  have hsurj := LinearMap.injective_iff_surjective.1 hinj
  choose g hg using hsurj
  refine ⟨fun x k => if h : k < R then g (fun r => M x r) ⟨k, h⟩ else 0, fun x _ r hr => ?_⟩
  have := congrFun (hg (fun r => M x r)) ⟨r, hr⟩
  simp only [mulVecLin_apply, mulVec, dotProduct, A] at this
  rw [sum_range, ← this]
  refine sum_congr rfl fun k _ => ?_
  simp [mul_comm]

/-- The normal equations of every mode are solvable, even if the Gram product is singular. -/
theorem normal_solvable {lam : K} (hlam : 0 ≤ lam) :
    ∃ X, Solves (dims i) R X (normalMat dims R lam W i) (mttkrp dims V W i) := by
  rcases hlam.lt_or_eq with h | h
  · rcases Nat.eq_zero_or_pos (dims i) with hd | hd
    · exact ⟨fun _ _ => 0, fun x hx => by omega⟩
    · exact posDef_solvable (normalMat_posDef h hd)
  · subst h
    have key : ∀ x, ∃ v : Fin R → K, x < dims i → ∀ r : Fin R,
        ∑ k : Fin R, v k * gramExcept dims W i k.1 r.1 = mttkrp dims V W i x r := by
      intro x
      let A : Matrix {idx // idx ∈ (Box dims).filter (fun idx => idx i = x)} (Fin R) K :=
        fun idx r => ∏ j ∈ univ.erase i, W j (idx.1 j) r
      obtain ⟨v, hv⟩ := exists_normal_solution A (fun idx => V idx.1)
      refine ⟨v, fun hx r => ?_⟩
      have := congrFun hv r
      simp only [mulVec, dotProduct, Matrix.mul_apply, transpose_apply] at this
      change ∑ k : Fin R, (∑ idx : {idx // idx ∈ (Box dims).filter (fun idx => idx i = x)},
          (∏ j ∈ univ.erase i, W j (idx.1 j) r.1) * ∏ j ∈ univ.erase i, W j (idx.1 j) k.1) * v k =
        ∑ idx : {idx // idx ∈ (Box dims).filter (fun idx => idx i = x)},
          (∏ j ∈ univ.erase i, W j (idx.1 j) r.1) * V idx.1 at this
      have e1 : ∀ k : Fin R, ∑ idx : {idx // idx ∈ (Box dims).filter (fun idx => idx i = x)},
          (∏ j ∈ univ.erase i, W j (idx.1 j) r.1) * ∏ j ∈ univ.erase i, W j (idx.1 j) k.1 =
          gramExcept dims W i k.1 r.1 := by
        intro k
        rw [gramExcept_symm, ← slice_gram hx]
        exact Finset.sum_coe_sort ((Box dims).filter (fun idx => idx i = x))
          (fun idx => (∏ j ∈ univ.erase i, W j (idx j) r.1) * ∏ j ∈ univ.erase i, W j (idx j) k.1)
      have e2 : ∑ idx : {idx // idx ∈ (Box dims).filter (fun idx => idx i = x)},
          (∏ j ∈ univ.erase i, W j (idx.1 j) r.1) * V idx.1 = mttkrp dims V W i x r := by
        unfold mttkrp
        rw [Finset.sum_coe_sort ((Box dims).filter (fun idx => idx i = x))
          (fun idx => (∏ j ∈ univ.erase i, W j (idx j) r.1) * V idx)]
        exact sum_congr rfl fun _ _ => mul_comm _ _
      rw [e2] at this
      rw [← this]
      refine sum_congr rfl fun k _ => ?_
      rw [e1 k, mul_comm]
    choose v hv using key
    refine ⟨fun x k => if h : k < R then v x ⟨k, h⟩ else 0, fun x hx r hr => ?_⟩
    rw [sum_range, ← hv x hx ⟨r, hr⟩]
    refine sum_congr rfl fun k _ => ?_
    simp [normalMat, clip, hr]

end Spec
