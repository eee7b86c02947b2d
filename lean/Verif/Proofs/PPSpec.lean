import Verif.Spec.PP
import Verif.Proofs.SpecLemmas
import Mathlib.Algebra.BigOperators.Ring.Finset
import Mathlib.Algebra.BigOperators.Group.Finset.Sigma
import Mathlib.Algebra.BigOperators.Group.Finset.Powerset
import Mathlib.Data.Finset.Powerset

/-! Pairwise perturbation is the part of the exact MTTKRP that is affine in each displacement. -/

namespace Spec

open Finset

variable {K : Type*} {N : ℕ} [CommSemiring K] {dims : Fin N → ℕ} {V : (Fin N → ℕ) → K}

theorem mttkrp_congr {W W' : Fin N → ℕ → ℕ → K} {i : Fin N} {r : ℕ} (h : ∀ j, j ≠ i → ∀ y < dims j, W j y r = W' j y r)
    (x : ℕ) : mttkrp dims V W i x r = mttkrp dims V W' i x r := by
  unfold mttkrp
  refine Finset.sum_congr rfl fun idx hidx => ?_
  congr 1
  refine Finset.prod_congr rfl fun j hj => ?_
  exact h j (Finset.ne_of_mem_erase hj) _ (mem_Box.1 (Finset.mem_filter.1 hidx).1 j)

/-- The MTTKRP at displaced factors, expanded over the sets of displaced modes. -/
theorem mttkrp_displace (W dW : Fin N → ℕ → ℕ → K) (i : Fin N) (x r : ℕ) :
    mttkrp dims V (displace W dW) i x r = ∑ S ∈ (univ.erase i).powerset, mttkrp dims V (mix W dW S) i x r := by
  unfold mttkrp
  rw [Finset.sum_comm]
  refine Finset.sum_congr rfl fun idx _ => ?_
  rw [← Finset.mul_sum]
  congr 1
  unfold displace
  simp_rw [add_comm (W _ _ _) (dW _ _ _)]
  rw [Finset.prod_add]
  refine Finset.sum_congr rfl fun S hS => ?_
  rw [Finset.mem_powerset] at hS
  rw [← Finset.prod_sdiff hS, mul_comm]
  congr 1
  · refine Finset.prod_congr rfl fun j hj => ?_
    rw [mix, if_neg (Finset.mem_sdiff.1 hj).2]
  · refine Finset.prod_congr rfl fun j hj => ?_
    rw [mix, if_pos hj]

theorem mix_singleton (W dW : Fin N → ℕ → ℕ → K) (j : Fin N) : mix W dW {j} = Function.update W j (dW j) := by
  funext k
  by_cases h : k = j
  · subst h; simp [mix]
  · simp [mix, h]

/-- Pairwise perturbation keeps exactly the terms with at most one displaced mode. -/
theorem ppMttkrp_eq (W dW : Fin N → ℕ → ℕ → K) (i : Fin N) (x r : ℕ) :
    ppMttkrp dims V W dW i x r = ∑ S ∈ (univ.erase i).powerset with S.card ≤ 1, mttkrp dims V (mix W dW S) i x r := by
  haveI : Nonempty (Fin N) := ⟨i⟩
  have hset : (univ.erase i).powerset.filter (fun S => S.card ≤ 1) =
      insert ∅ ((univ.erase i).image fun j => ({j} : Finset (Fin N))) := by
    ext S
    simp only [mem_filter, mem_powerset, mem_insert, mem_image, Finset.card_le_one_iff_subset_singleton]
    constructor
    · rintro ⟨h1, j, h2⟩
      rcases Finset.subset_singleton_iff.1 h2 with h | h
      · exact .inl h
      · exact .inr ⟨j, h1 (by simp [h]), h.symm⟩
    · rintro (rfl | ⟨j, hj, rfl⟩)
      · exact ⟨by simp, i, by simp⟩
      · exact ⟨by simpa using hj, j, Finset.Subset.refl _⟩
  rw [hset, Finset.sum_insert (by simp), Finset.sum_image (by intro a _ b _ h; simpa using h)]
  unfold ppMttkrp
  congr 1
  · refine Finset.sum_congr rfl fun j _ => ?_
    rw [mix_singleton]

/-- The exact MTTKRP is the pairwise-perturbation one plus the terms with two or more displaced modes. -/
theorem mttkrp_displace_eq (W dW : Fin N → ℕ → ℕ → K) (i : Fin N) (x r : ℕ) :
    mttkrp dims V (displace W dW) i x r = ppMttkrp dims V W dW i x r +
      ∑ S ∈ (univ.erase i).powerset with 2 ≤ S.card, mttkrp dims V (mix W dW S) i x r := by
  rw [mttkrp_displace, ppMttkrp_eq, ← Finset.sum_filter_add_sum_filter_not _ (fun S : Finset (Fin N) => S.card ≤ 1)]
  congr 1
  refine Finset.sum_congr ?_ fun _ _ => rfl
  apply Finset.filter_congr
  intro S _
  omega

theorem mttkrp_zero {W : Fin N → ℕ → ℕ → K} {i j : Fin N} (hij : j ≠ i) {r : ℕ} (h : ∀ y < dims j, W j y r = 0) (x : ℕ) :
    mttkrp dims V W i x r = 0 := by
  unfold mttkrp
  refine Finset.sum_eq_zero fun idx hidx => ?_
  rw [Finset.prod_eq_zero (i := j) (by simp [hij]) (h _ (mem_Box.1 (Finset.mem_filter.1 hidx).1 j)), mul_zero]

/-- If at most one of the other modes is displaced, pairwise perturbation is exact. -/
theorem ppMttkrp_exact {W dW : Fin N → ℕ → ℕ → K} {i j0 : Fin N} {r : ℕ}
    (h : ∀ j, j ≠ i → j ≠ j0 → ∀ y < dims j, dW j y r = 0) (x : ℕ) :
    mttkrp dims V (displace W dW) i x r = ppMttkrp dims V W dW i x r := by
  rw [mttkrp_displace_eq]
  rw [Finset.sum_eq_zero, add_zero]
  intro S hS
  simp only [mem_filter, mem_powerset] at hS
  obtain ⟨a, ha, b, hb, hab⟩ := Finset.one_lt_card.1 (show 1 < S.card by omega)
  obtain ⟨c, hc, hcj⟩ : ∃ c ∈ S, c ≠ j0 := by
    by_cases e : a = j0
    · exact ⟨b, hb, fun h => hab (e.trans h.symm)⟩
    · exact ⟨a, ha, e⟩
  have hci : c ≠ i := Finset.ne_of_mem_erase (hS.1 hc)
  refine mttkrp_zero hci (fun y hy => ?_) x
  rw [mix, if_pos hc]
  exact h c hci hcj y hy

/-- Scaling the displacements by `t` scales the term of `S` by `t^|S|`. -/
theorem mttkrp_mix_scale (t : K) (W dW : Fin N → ℕ → ℕ → K) {i : Fin N} {S : Finset (Fin N)} (hS : S ⊆ univ.erase i)
    (x r : ℕ) : mttkrp dims V (mix W (fun j y r => t * dW j y r) S) i x r = t ^ S.card * mttkrp dims V (mix W dW S) i x r := by
  unfold mttkrp
  rw [Finset.mul_sum]
  refine Finset.sum_congr rfl fun idx _ => ?_
  rw [← Finset.prod_sdiff hS, ← Finset.prod_sdiff hS]
  have h1 : ∏ j ∈ S, mix W (fun j y r => t * dW j y r) S j (idx j) r = t ^ S.card * ∏ j ∈ S, mix W dW S j (idx j) r := by
    rw [← Finset.prod_const, ← Finset.prod_mul_distrib]
    refine Finset.prod_congr rfl fun j hj => ?_
    simp [mix, hj]
  have h2 : ∏ j ∈ univ.erase i \ S, mix W (fun j y r => t * dW j y r) S j (idx j) r =
      ∏ j ∈ univ.erase i \ S, mix W dW S j (idx j) r := by
    refine Finset.prod_congr rfl fun j hj => ?_
    simp [mix, (Finset.mem_sdiff.1 hj).2]
  rw [h1, h2]
  ring

end Spec
