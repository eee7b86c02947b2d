import Mathlib.Algebra.BigOperators.Ring.Finset
import Mathlib.Data.Fintype.Pi
import Mathlib.Data.Fin.Basic

/-!
# Specification of the multilinear algebra

This file is independent of the model of the code.  An `N`-way array of shape `dims` is a function on
multi-indices `Fin N → ℕ`; only its values on the box `Box dims` matter.  A matrix is a function
`row → column → value`.
-/

namespace Spec

open Finset

variable {K : Type*} {N : ℕ}

/-- All multi-indices of an array with `dims j` entries along mode `j`. -/
def Box (dims : Fin N → ℕ) : Finset (Fin N → ℕ) :=
  Fintype.piFinset fun j => range (dims j)

/-- Matricised-tensor-times-Khatri-Rao-product for mode `i`:
`M[x,r] = ∑_{idx, idx_i = x} V[idx] · ∏_{j ≠ i} W_j[idx_j, r]`. -/
def mttkrp [CommSemiring K] (dims : Fin N → ℕ) (V : (Fin N → ℕ) → K) (W : Fin N → ℕ → ℕ → K)
    (i : Fin N) (x r : ℕ) : K :=
  ∑ idx ∈ Box dims with idx i = x, V idx * ∏ j ∈ univ.erase i, W j (idx j) r

/-- The array obtained by contracting `V` with `W_j[·,r]` along every mode `j ∉ keep`, at position `y`
of the kept modes. -/
def partialMttkrp [CommSemiring K] (dims : Fin N → ℕ) (V : (Fin N → ℕ) → K)
    (W : Fin N → ℕ → ℕ → K) (keep : Finset (Fin N)) (y : Fin N → ℕ) (r : ℕ) : K :=
  ∑ idx ∈ Box dims with (∀ j ∈ keep, idx j = y j), V idx * ∏ j ∈ keepᶜ, W j (idx j) r

/-- CP reconstruction `[[W]][idx] = ∑_r ∏_j W_j[idx_j, r]`. -/
def recon [CommSemiring K] (R : ℕ) (W : Fin N → ℕ → ℕ → K) (idx : Fin N → ℕ) : K :=
  ∑ r ∈ range R, ∏ j, W j (idx j) r

/-- Gram matrix `WᵀW` of a matrix with `n` rows. -/
def gram [CommSemiring K] (n : ℕ) (W : ℕ → ℕ → K) (a b : ℕ) : K :=
  ∑ x ∈ range n, W x a * W x b

/-- Hadamard product of the Gram matrices of all factors but the `i`-th. -/
def gramExcept [CommSemiring K] (dims : Fin N → ℕ) (W : Fin N → ℕ → ℕ → K) (i : Fin N)
    (a b : ℕ) : K :=
  ∏ j ∈ univ.erase i, gram (dims j) (W j) a b

/-- Squared Frobenius distance between `V` and the CP reconstruction. -/
def resid2 [CommRing K] (dims : Fin N → ℕ) (R : ℕ) (V : (Fin N → ℕ) → K)
    (W : Fin N → ℕ → ℕ → K) : K :=
  ∑ idx ∈ Box dims, (V idx - recon R W idx) ^ 2

/-- Multi-mode product: contract `V` along every mode `j ∉ keep` with `W_j[·, z_j]`; at the kept modes
read position `z_j`. -/
def multiTTM [CommSemiring K] (dims : Fin N → ℕ) (V : (Fin N → ℕ) → K)
    (W : Fin N → ℕ → ℕ → K) (keep : Finset (Fin N)) (z : Fin N → ℕ) : K :=
  ∑ idx ∈ Box dims with (∀ j ∈ keep, idx j = z j), V idx * ∏ j ∈ keepᶜ, W j (idx j) (z j)

end Spec
