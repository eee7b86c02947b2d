import Verif.Spec.Tensor
import Mathlib.Tactic.Ring

/-! Lemmas about the specification (contraction one mode at a time). -/

namespace Spec

open Finset

variable {K : Type*} {N : ℕ}

/-- Common generalisation of `partialMttkrp` and `multiTTM`: kept modes are read at `y`, contracted
modes `j` use column `c j` of `W j`. -/
def genContract [CommSemiring K] (dims : Fin N → ℕ) (V : (Fin N → ℕ) → K)
    (W : Fin N → ℕ → ℕ → K) (keep : Finset (Fin N)) (y c : Fin N → ℕ) : K :=
  ∑ idx ∈ Box dims with (∀ j ∈ keep, idx j = y j), V idx * ∏ j ∈ keepᶜ, W j (idx j) (c j)

variable [CommSemiring K] {dims : Fin N → ℕ} {V : (Fin N → ℕ) → K} {W : Fin N → ℕ → ℕ → K}

theorem mem_Box {idx : Fin N → ℕ} : idx ∈ Box dims ↔ ∀ j, idx j < dims j := by
  simp [Box]

theorem genContract_congr {keep : Finset (Fin N)} {y y' c c' : Fin N → ℕ}
    {W' : Fin N → ℕ → ℕ → K}
    (hy : ∀ j ∈ keep, y j = y' j) (hc : ∀ j ∉ keep, c j = c' j)
    (hW : ∀ j ∉ keep, ∀ x < dims j, W j x (c j) = W' j x (c j)) :
    genContract dims V W keep y c = genContract dims V W' keep y' c' := by
  unfold genContract
  have : (Box dims).filter (fun idx => ∀ j ∈ keep, idx j = y j) =
      (Box dims).filter (fun idx => ∀ j ∈ keep, idx j = y' j) := by
    apply Finset.filter_congr
    intro idx _
    constructor
    · intro h j hj; rw [h j hj, hy j hj]
    · intro h j hj; rw [h j hj, hy j hj]
  rw [this]
  apply Finset.sum_congr rfl
  intro idx hidx
  congr 1
  apply Finset.prod_congr rfl
  intro j hj
  rw [hW j (by simpa using hj) _ (mem_Box.1 (Finset.mem_filter.1 hidx).1 j), hc j (by simpa using hj)]

theorem genContract_univ {y c : Fin N → ℕ} (hy : ∀ j, y j < dims j) :
    genContract dims V W univ y c = V y := by
  unfold genContract
  have : (Box dims).filter (fun idx => ∀ j ∈ univ, idx j = y j) = {y} := by
    ext idx
    simp only [mem_filter, mem_Box, mem_univ, true_implies, mem_singleton]
    constructor
    · rintro ⟨_, h⟩; exact funext h
    · rintro rfl; exact ⟨hy, fun _ => rfl⟩
  rw [this]
  simp

/-- Contracting one more mode. -/
theorem genContract_contract {keep : Finset (Fin N)} {y c : Fin N → ℕ} {j : Fin N} (hj : j ∈ keep) :
    ∑ x ∈ range (dims j), genContract dims V W keep (Function.update y j x) c * W j x (c j) =
      genContract dims V W (keep.erase j) y c := by
  unfold genContract
  have hcompl : (keep.erase j)ᶜ = insert j keepᶜ := by
    ext k; by_cases h : k = j <;> simp [h]
  have hnot : j ∉ keepᶜ := by simpa using hj
  rw [hcompl]
  simp_rw [Finset.prod_insert hnot]
  have hmaps : ∀ idx ∈ (Box dims).filter (fun idx => ∀ k ∈ keep.erase j, idx k = y k),
      idx j ∈ range (dims j) := by
    intro idx h
    simpa using mem_Box.1 (Finset.mem_filter.1 h).1 j
  rw [← Finset.sum_fiberwise_of_maps_to hmaps]
  apply Finset.sum_congr rfl
  intro x hx
  rw [Finset.sum_mul]
  have hset : ((Box dims).filter (fun idx => ∀ k ∈ keep.erase j, idx k = y k)).filter
      (fun idx => idx j = x) =
      (Box dims).filter (fun idx => ∀ k ∈ keep, idx k = Function.update y j x k) := by
    rw [Finset.filter_filter]
    apply Finset.filter_congr
    intro idx _
    constructor
    · rintro ⟨h1, h2⟩ k hk
      by_cases e : k = j
      · subst e; simpa using h2
      · rw [Function.update_of_ne e]; exact h1 k (by simp [e, hk])
    · intro h
      refine ⟨?_, by simpa using h j hj⟩
      intro k hk
      have hk' := Finset.mem_erase.1 hk
      have := h k hk'.2
      rwa [Function.update_of_ne hk'.1] at this
  rw [hset]
  apply Finset.sum_congr rfl
  intro idx hidx
  have hx' : idx j = x := by
    have := (Finset.mem_filter.1 hidx).2 j hj
    simpa using this
  rw [hx']
  ring

theorem partialMttkrp_eq (keep : Finset (Fin N)) (y : Fin N → ℕ) (r : ℕ) :
    partialMttkrp dims V W keep y r = genContract dims V W keep y (fun _ => r) := rfl

theorem multiTTM_eq (keep : Finset (Fin N)) (z : Fin N → ℕ) :
    multiTTM dims V W keep z = genContract dims V W keep z z := rfl

theorem partialMttkrp_univ {y : Fin N → ℕ} {r : ℕ} (hy : ∀ j, y j < dims j) :
    partialMttkrp dims V W univ y r = V y := genContract_univ hy

theorem partialMttkrp_contract {keep : Finset (Fin N)} {y : Fin N → ℕ} {r : ℕ} {j : Fin N}
    (hj : j ∈ keep) :
    ∑ x ∈ range (dims j), partialMttkrp dims V W keep (Function.update y j x) r * W j x r =
      partialMttkrp dims V W (keep.erase j) y r := genContract_contract hj

theorem partialMttkrp_single (i : Fin N) (y : Fin N → ℕ) (r : ℕ) :
    partialMttkrp dims V W {i} y r = mttkrp dims V W i (y i) r := by
  unfold partialMttkrp mttkrp
  have : ({i} : Finset (Fin N))ᶜ = univ.erase i := by ext; simp
  rw [this]
  simp

theorem partialMttkrp_congr {keep : Finset (Fin N)} {y y' : Fin N → ℕ} {r : ℕ}
    {W' : Fin N → ℕ → ℕ → K}
    (hy : ∀ j ∈ keep, y j = y' j) (hW : ∀ j ∉ keep, ∀ x < dims j, W j x r = W' j x r) :
    partialMttkrp dims V W keep y r = partialMttkrp dims V W' keep y' r :=
  genContract_congr hy (fun _ _ => rfl) hW

end Spec
