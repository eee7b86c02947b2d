import Verif.Spec.Objective
import Verif.Proofs.SpecLemmas
import Mathlib.Tactic.Linarith
import Mathlib.Tactic.LinearCombination
import Mathlib.Algebra.Order.BigOperators.Ring.Finset
import Mathlib.Algebra.BigOperators.Group.Finset.Sigma

namespace Spec

open Finset

variable {K : Type*} {N : ℕ}

section ring

variable [CommRing K] {dims : Fin N → ℕ} {R : ℕ} {V : (Fin N → ℕ) → K} {W : Fin N → ℕ → ℕ → K} {i : Fin N}

/-- Sum over the slice `idx i = x` of a product of one-mode functions. -/
theorem sum_slice_prod (i : Fin N) {x : ℕ} (hx : x < dims i) (f : Fin N → ℕ → K) :
    ∑ idx ∈ Box dims with idx i = x, ∏ j ∈ univ.erase i, f j (idx j) =
      ∏ j ∈ univ.erase i, ∑ y ∈ range (dims j), f j y := by
  have hset : (Box dims).filter (fun idx => idx i = x) =
      Fintype.piFinset (fun j => if j = i then {x} else range (dims j)) := by
    ext idx
    simp only [mem_filter, mem_Box, Fintype.mem_piFinset]
    constructor
    · rintro ⟨h1, h2⟩ j
      by_cases e : j = i
      · subst e; simp [h2]
      · simp [e, h1 j]
    · intro h
      refine ⟨fun j => ?_, by simpa using h i⟩
      by_cases e : j = i
      · subst e; have := h j; simp at this; omega
      · have := h j; simpa [e] using this
  rw [hset]
  have h := Finset.prod_univ_sum (fun j => if j = i then ({x} : Finset ℕ) else range (dims j))
    (fun j y => if j = i then (1 : K) else f j y)
  have hl : (∏ j, ∑ y ∈ (if j = i then ({x} : Finset ℕ) else range (dims j)),
      (if j = i then (1 : K) else f j y)) = ∏ j ∈ univ.erase i, ∑ y ∈ range (dims j), f j y := by
    rw [← Finset.mul_prod_erase univ _ (mem_univ i)]
    simp only [if_true, sum_singleton, one_mul]
    refine prod_congr rfl fun j hj => ?_
    simp [ne_of_mem_erase hj]
  rw [← hl, h]
  refine sum_congr rfl fun idx _ => ?_
  rw [← Finset.mul_prod_erase univ _ (mem_univ i)]
  simp only [if_true, one_mul]
  refine prod_congr rfl fun j hj => ?_
  simp [ne_of_mem_erase hj]

/-- Sum over the box, slice by slice. -/
theorem sum_box_slices (i : Fin N) (F : (Fin N → ℕ) → K) :
    ∑ idx ∈ Box dims, F idx = ∑ x ∈ range (dims i), ∑ idx ∈ Box dims with idx i = x, F idx := by
  rw [← sum_fiberwise_of_maps_to (g := fun idx => idx i) (t := range (dims i))]
  intro idx h
  simpa using mem_Box.1 h i

theorem slice_gram {x : ℕ} (hx : x < dims i) (k r : ℕ) :
    ∑ idx ∈ Box dims with idx i = x,
      (∏ j ∈ univ.erase i, W j (idx j) k) * (∏ j ∈ univ.erase i, W j (idx j) r) =
      gramExcept dims W i k r := by
  simp_rw [← prod_mul_distrib]
  rw [sum_slice_prod i hx (fun j y => W j y k * W j y r)]
  rfl

theorem recon_update (D : ℕ → ℕ → K) (idx : Fin N → ℕ) :
    recon R (Function.update W i (fun x r => W i x r + D x r)) idx =
      recon R W idx + modelChange R W i D idx := by
  unfold recon modelChange
  rw [← sum_add_distrib]
  refine sum_congr rfl fun r _ => ?_
  rw [← mul_prod_erase univ _ (mem_univ i), ← mul_prod_erase univ _ (mem_univ i)]
  simp only [Function.update_self]
  have : ∏ j ∈ univ.erase i, Function.update W i (fun x r => W i x r + D x r) j (idx j) r =
      ∏ j ∈ univ.erase i, W j (idx j) r :=
    prod_congr rfl fun j hj => by rw [Function.update_of_ne (ne_of_mem_erase hj)]
  rw [this]; ring

theorem recon_eq_change (idx : Fin N → ℕ) : recon R W idx = modelChange R W i (W i) idx := by
  unfold recon modelChange
  exact sum_congr rfl fun r _ => (mul_prod_erase univ _ (mem_univ i)).symm

/-- Inner product of two model changes of the same mode. -/
theorem change_inner (A D : ℕ → ℕ → K) :
    ∑ idx ∈ Box dims, modelChange R W i A idx * modelChange R W i D idx =
      ∑ x ∈ range (dims i), ∑ r ∈ range R, (∑ k ∈ range R, A x k * gramExcept dims W i k r) * D x r := by
  rw [sum_box_slices i]
  refine sum_congr rfl fun x hx => ?_
  rw [mem_range] at hx
  have : ∀ idx ∈ (Box dims).filter (fun idx => idx i = x),
      modelChange R W i A idx * modelChange R W i D idx =
      ∑ r ∈ range R, ∑ k ∈ range R, A x k * D x r *
        ((∏ j ∈ univ.erase i, W j (idx j) k) * (∏ j ∈ univ.erase i, W j (idx j) r)) := by
    intro idx hidx
    have e : idx i = x := (mem_filter.1 hidx).2
    unfold modelChange
    rw [e, sum_mul_sum, sum_comm]
    exact sum_congr rfl fun r _ => sum_congr rfl fun k _ => by ring
  rw [sum_congr rfl this, sum_comm]
  refine sum_congr rfl fun r _ => ?_
  rw [sum_comm, sum_mul]
  refine sum_congr rfl fun k _ => ?_
  rw [← mul_sum, slice_gram hx]; ring

theorem tensor_inner (D : ℕ → ℕ → K) :
    ∑ idx ∈ Box dims, V idx * modelChange R W i D idx =
      ∑ x ∈ range (dims i), ∑ r ∈ range R, mttkrp dims V W i x r * D x r := by
  rw [sum_box_slices i]
  refine sum_congr rfl fun x hx => ?_
  have : ∀ idx ∈ (Box dims).filter (fun idx => idx i = x),
      V idx * modelChange R W i D idx =
      ∑ r ∈ range R, D x r * (V idx * (∏ j ∈ univ.erase i, W j (idx j) r)) := by
    intro idx hidx
    have e : idx i = x := (mem_filter.1 hidx).2
    unfold modelChange
    rw [e, mul_sum]
    exact sum_congr rfl fun r _ => by ring
  rw [sum_congr rfl this, sum_comm]
  refine sum_congr rfl fun r _ => ?_
  rw [← mul_sum, mttkrp]; ring

/-- Expansion of the objective around `W`, in the direction `D` of mode `i`. -/
theorem modeObj2_expand (lam : K) (D : ℕ → ℕ → K) :
    modeObj2 dims R lam V (Function.update W i (fun x r => W i x r + D x r)) i =
      modeObj2 dims R lam V W i + 2 * frob (dims i) R (alsGrad dims R lam V W i) D +
        (∑ idx ∈ Box dims, modelChange R W i D idx ^ 2 + lam * frob (dims i) R D D) := by
  have hg : frob (dims i) R (alsGrad dims R lam V W i) D =
      - (∑ x ∈ range (dims i), ∑ r ∈ range R, mttkrp dims V W i x r * D x r) +
      (∑ x ∈ range (dims i), ∑ r ∈ range R, (∑ k ∈ range R, W i x k * gramExcept dims W i k r) * D x r) +
      lam * frob (dims i) R (W i) D := by
    unfold frob
    rw [mul_sum, ← sum_neg_distrib, ← sum_add_distrib, ← sum_add_distrib]
    refine sum_congr rfl fun x hx => ?_
    rw [mul_sum, ← sum_neg_distrib, ← sum_add_distrib, ← sum_add_distrib]
    refine sum_congr rfl fun r hr => ?_
    rw [mem_range] at hx hr
    have : ∑ k ∈ range R, W i x k * normalMat dims R lam W i k r =
        ∑ k ∈ range R, W i x k * gramExcept dims W i k r + W i x r * lam := by
      rw [← Finset.sum_ite_eq' (range R) r (fun k => W i x k * lam) |>.trans (if_pos (mem_range.2 hr)),
        ← sum_add_distrib]
      refine sum_congr rfl fun k hk => ?_
      rw [mem_range] at hk
      simp only [normalMat, clip, hk, hr, and_self, if_true]
      split_ifs <;> ring
    simp only [alsGrad, clip, hx, hr, and_self, if_true, this]
    ring
  have hW : frob (dims i) R (fun x r => W i x r + D x r) (fun x r => W i x r + D x r) =
      frob (dims i) R (W i) (W i) + 2 * frob (dims i) R (W i) D + frob (dims i) R D D := by
    unfold frob
    rw [mul_sum, ← sum_add_distrib, ← sum_add_distrib]
    refine sum_congr rfl fun x _ => ?_
    rw [mul_sum, ← sum_add_distrib, ← sum_add_distrib]
    exact sum_congr rfl fun r _ => by ring
  unfold modeObj2
  rw [Function.update_self, hW, hg, ← tensor_inner, ← change_inner]
  unfold resid2
  have : ∀ idx ∈ Box dims, (V idx - recon R (Function.update W i (fun x r => W i x r + D x r)) idx) ^ 2 =
      (V idx - recon R W idx) ^ 2 + (- (2 * (V idx * modelChange R W i D idx)) +
        2 * (modelChange R W i (W i) idx * modelChange R W i D idx) + modelChange R W i D idx ^ 2) := by
    intro idx _
    rw [recon_update, recon_eq_change (i := i)]
    ring
  rw [sum_congr rfl this]
  simp only [sum_add_distrib, sum_neg_distrib, ← mul_sum]
  ring

end ring

section order

variable [Field K] [LinearOrder K] [IsStrictOrderedRing K] {dims : Fin N → ℕ} {R : ℕ}
  {V : (Fin N → ℕ) → K} {W : Fin N → ℕ → ℕ → K} {i : Fin N}

theorem frob_self_nonneg (n R : ℕ) (D : ℕ → ℕ → K) : 0 ≤ frob n R D D :=
  sum_nonneg fun _ _ => sum_nonneg fun _ _ => mul_self_nonneg _

theorem modeObj2_congr {lam : K} {W' : Fin N → ℕ → ℕ → K}
    (h : ∀ j, ∀ x < dims j, ∀ r < R, W j x r = W' j x r) :
    modeObj2 dims R lam V W i = modeObj2 dims R lam V W' i := by
  unfold modeObj2 resid2 recon frob
  congr 1
  · refine sum_congr rfl fun idx hidx => ?_
    congr 2
    refine sum_congr rfl fun r hr => prod_congr rfl fun j _ => ?_
    exact h j _ (mem_Box.1 hidx j) r (mem_range.1 hr)
  · congr 1
    refine sum_congr rfl fun x hx => sum_congr rfl fun r hr => ?_
    rw [h i x (mem_range.1 hx) r (mem_range.1 hr)]

/-- A solution of the normal equations is a global minimiser over its mode. -/
theorem solves_minimises {lam : K} (hlam : 0 ≤ lam) {X : ℕ → ℕ → K}
    (hX : Solves (dims i) R X (normalMat dims R lam W i) (mttkrp dims V W i)) (Y : ℕ → ℕ → K) :
    modeObj2 dims R lam V (Function.update W i X) i ≤ modeObj2 dims R lam V (Function.update W i Y) i := by
  have hS : normalMat dims R lam (Function.update W i X) i = normalMat dims R lam W i := by
    unfold normalMat gramExcept
    funext a b
    congr 1
    funext a b
    congr 1
    exact prod_congr rfl fun j hj => by rw [Function.update_of_ne (ne_of_mem_erase hj)]
  have hM : mttkrp dims V (Function.update W i X) i = mttkrp dims V W i := by
    unfold mttkrp
    funext a b
    refine sum_congr rfl fun idx _ => ?_
    congr 1
    exact prod_congr rfl fun j hj => by rw [Function.update_of_ne (ne_of_mem_erase hj)]
  have hg : ∀ x r, alsGrad dims R lam V (Function.update W i X) i x r = 0 := by
    intro x r
    unfold alsGrad clip
    split_ifs with h
    · rw [hS, hM, Function.update_self]
      simp only
      rw [hX x h.1 r h.2]; ring
    · rfl
  have e := modeObj2_expand (dims := dims) (R := R) (V := V) (W := Function.update W i X) (i := i) lam
    (fun x r => Y x r - X x r)
  rw [Function.update_self, Function.update_idem] at e
  have hY : (fun x r => X x r + (Y x r - X x r)) = Y := by funext x r; ring
  rw [hY] at e
  rw [e]
  have h0 : frob (dims i) R (alsGrad dims R lam V (Function.update W i X) i) (fun x r => Y x r - X x r) = 0 := by
    unfold frob
    exact sum_eq_zero fun x _ => sum_eq_zero fun r _ => by rw [hg]; ring
  rw [h0]
  have h1 : 0 ≤ ∑ idx ∈ Box dims, modelChange R (Function.update W i X) i (fun x r => Y x r - X x r) idx ^ 2 :=
    sum_nonneg fun _ _ => sq_nonneg _
  have h2 := mul_nonneg hlam (frob_self_nonneg (dims i) R (fun x r => Y x r - X x r))
  linarith

theorem fullObj2_eq (lam : K) (W : Fin N → ℕ → ℕ → K) (i : Fin N) :
    fullObj2 dims R lam V W = modeObj2 dims R lam V W i +
      lam * ∑ j ∈ univ.erase i, frob (dims j) R (W j) (W j) := by
  unfold fullObj2 modeObj2
  rw [← add_sum_erase univ _ (mem_univ i)]
  ring

/-- Replacing one factor by a minimiser over that mode does not increase the full objective. -/
theorem fullObj2_update_le {lam : K} (hlam : 0 ≤ lam) {X : ℕ → ℕ → K}
    (hX : Solves (dims i) R X (normalMat dims R lam W i) (mttkrp dims V W i)) :
    fullObj2 dims R lam V (Function.update W i X) ≤ fullObj2 dims R lam V W := by
  rw [fullObj2_eq lam _ i, fullObj2_eq lam W i]
  have h := solves_minimises hlam hX (W i)
  rw [Function.update_eq_self] at h
  have : ∑ j ∈ univ.erase i, frob (dims j) R (Function.update W i X j) (Function.update W i X j) =
      ∑ j ∈ univ.erase i, frob (dims j) R (W j) (W j) :=
    sum_congr rfl fun j hj => by rw [Function.update_of_ne (ne_of_mem_erase hj)]
  rw [this]
  linarith

end order

end Spec
