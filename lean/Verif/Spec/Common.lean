import Verif.Spec.Objective

/-! # Specifications for the stand-alone numerical routines of common.cxx -/

namespace Spec

open Finset

variable {K : Type*} {N : ℕ}

/-- Entry of the Khatri-Rao product of the matrices `W 0, …, W (m-1)`: `∏_t W_t[x_t, r]`. -/
def khatriRao [CommMonoid K] (m : ℕ) (W : ℕ → ℕ → ℕ → K) (x : ℕ → ℕ) (r : ℕ) : K :=
  ∏ t ∈ range m, W t (x t) r

/-- Product of the array `V` with the matrix `A` along mode `i`: `T[…, r, …] = ∑_x V[…, x, …] A[x, r]`. -/
def ttm [CommSemiring K] (dims : Fin N → ℕ) (V : (Fin N → ℕ) → K) (i : Fin N) (A : ℕ → ℕ → K)
    (idx : Fin N → ℕ) : K :=
  ∑ x ∈ range (dims i), V (Function.update idx i x) * A x (idx i)

/-- `A'` is the result of one Gauss-Seidel sweep, started from `A`, for the system `A Γ = F` with symmetric `Γ`: in every
row, the unknowns are replaced one after the other (`k = 0, 1, …`) such that the equation of the same number holds with the
values known at that moment. -/
def GSSweep [CommSemiring K] (n R : ℕ) (G F A A' : ℕ → ℕ → K) : Prop :=
  ∀ x < n, ∀ j < R, ∑ k ∈ range R, (if k ≤ j then A' x k else A x k) * G k j = F x j

end Spec
