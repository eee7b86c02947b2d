import Verif.Spec.Tensor

/-! # Specification of the Tucker computations (independent of the model of the code) -/

namespace Spec

open Finset

variable {K : Type*} {N : ℕ}

/-- Shape of the multi-mode product with mode set `keep` untouched: `dims` on `keep`, the ranks elsewhere. -/
def ttmShape (dims rk : Fin N → ℕ) (keep : Finset (Fin N)) (j : Fin N) : ℕ := if j ∈ keep then dims j else rk j

/-- Gram matrix `Y_(i) Y_(i)^T` of the mode-`i` unfolding of `Y`. -/
def unfoldGram [CommSemiring K] (lens : Fin N → ℕ) (Y : (Fin N → ℕ) → K) (i : Fin N) (x y : ℕ) : K :=
  ∑ z ∈ Box lens with z i = x, Y z * Y (Function.update z i y)

/-- Sum of the squares of all entries. -/
def sumSq [CommSemiring K] (lens : Fin N → ℕ) (Y : (Fin N → ℕ) → K) : K := ∑ z ∈ Box lens, Y z ^ 2

/-- The columns of an `n × r` matrix are orthonormal. -/
def Orthonormal [CommRing K] (n r : ℕ) (W : ℕ → ℕ → K) : Prop :=
  ∀ a < r, ∀ b < r, gram n W a b = if a = b then 1 else 0

/-- Tucker reconstruction: the core multiplied by `W_j` in every mode. -/
def tuckRecon [CommSemiring K] (rk : Fin N → ℕ) (C : (Fin N → ℕ) → K) (W : Fin N → ℕ → ℕ → K) (idx : Fin N → ℕ) : K :=
  ∑ z ∈ Box rk, C z * ∏ j, W j (idx j) (z j)

/-- Squared norm of the core belonging to the factors `W`. -/
def coreNormSq [CommSemiring K] (dims rk : Fin N → ℕ) (V : (Fin N → ℕ) → K) (W : Fin N → ℕ → ℕ → K) : K :=
  sumSq rk (multiTTM dims V W ∅)

/-- Squared error of the Tucker approximation of `V` by the factors `W` and their core. -/
def tuckErrSq [CommRing K] (dims rk : Fin N → ℕ) (V : (Fin N → ℕ) → K) (W : Fin N → ℕ → ℕ → K) : K :=
  ∑ idx ∈ Box dims, (V idx - tuckRecon rk (multiTTM dims V W ∅) W idx) ^ 2

/-- `Y` multiplied along mode `i` (of length `n`) by the transpose of `B`. -/
def ttm1 [CommSemiring K] (n : ℕ) (Y : (Fin N → ℕ) → K) (i : Fin N) (B : ℕ → ℕ → K) (z : Fin N → ℕ) : K :=
  ∑ x ∈ range n, Y (Function.update z i x) * B x (z i)

/-- First-order pairwise perturbation of the multi-mode product of mode `i`. -/
def ppTTM [CommSemiring K] (dims : Fin N → ℕ) (V : (Fin N → ℕ) → K) (W dW : Fin N → ℕ → ℕ → K) (i : Fin N)
    (z : Fin N → ℕ) : K :=
  multiTTM dims V W {i} z + ∑ j ∈ univ.erase i, multiTTM dims V (Function.update W j (dW j)) {i} z

end Spec
