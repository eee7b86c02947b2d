import Mathlib.Algebra.BigOperators.Ring.Finset

/-! # Specification of the test tensors

Multi-indices are functions `ℕ → ℕ`; an array of order `n` looks at positions `0..n-1`. -/

namespace Spec

open Finset

variable {K : Type*}

/-- Kronecker delta. -/
def delta [Zero K] [One K] (i j : ℕ) : K := if i = j then 1 else 0

/-- `I ⊗ I ⊗ ... ⊗ I` (`d` factors) at `[i₁, j₁, i₂, j₂, ...]`. -/
def identity [CommSemiring K] (d : ℕ) (idx : ℕ → ℕ) : K := ∏ k ∈ range d, delta (idx (2 * k)) (idx (2 * k + 1))

/-- The tridiagonal matrix with `lo` below, `2` on and `up` above the diagonal. -/
def tridiag [CommRing K] (lo up : K) (i j : ℕ) : K :=
  if i = j then 2 else if i = j + 1 then lo else if j = i + 1 then up else 0

/-- `∑ₖ I ⊗ ... ⊗ D ⊗ ... ⊗ I`, `D` at place `k` of `d`. -/
def laplacian [CommRing K] (D : ℕ → ℕ → K) (d : ℕ) (idx : ℕ → ℕ) : K :=
  ∑ k ∈ range d, D (idx (2 * k)) (idx (2 * k + 1)) *
    ∏ m ∈ (range d).erase k, delta (idx (2 * m)) (idx (2 * m + 1))

end Spec
