import Mathlib.Analysis.Real.Sqrt
import Verif.Spec.PP
import Verif.Spec.Tucker

/-! # Specification of the size of the error of pairwise perturbation (independent of the model of the code) -/

namespace Spec

open Finset

variable {N : ℕ}

/-- Frobenius norm of an `n × m` matrix. -/
noncomputable def mnorm (n m : ℕ) (A : ℕ → ℕ → ℝ) : ℝ := Real.sqrt (∑ x ∈ range n, ∑ r ∈ range m, A x r ^ 2)

/-- Frobenius norm of an array. -/
noncomputable def tnorm (dims : Fin N → ℕ) (V : (Fin N → ℕ) → ℝ) : ℝ := Real.sqrt (∑ idx ∈ Box dims, V idx ^ 2)

/-- `∏ (1 + e_j) - 1 - ∑ e_j` over the modes `j ≠ i`: what is left of the product after the terms of order 0 and 1. -/
def tail2 (e : Fin N → ℝ) (i : Fin N) : ℝ := ∏ j ∈ univ.erase i, (1 + e j) - 1 - ∑ j ∈ univ.erase i, e j

/-- `‖V‖ ∏_{j≠i} ‖W_j‖ tail2`: the size of the terms that pairwise perturbation neglects in the MTTKRP of mode `i` if the displacements are
at most `e_j ‖W_j‖`. -/
noncomputable def neglected (dims : Fin N → ℕ) (R : ℕ) (V : (Fin N → ℕ) → ℝ) (W : Fin N → ℕ → ℕ → ℝ) (e : Fin N → ℝ) (i : Fin N) : ℝ :=
  tnorm dims V * (∏ j ∈ univ.erase i, mnorm (dims j) R (W j)) * tail2 e i

/-- Norm of the Tucker core `V ×_1 W_1^T ... ×_N W_N^T`. -/
noncomputable def coreNorm (dims rk : Fin N → ℕ) (V : (Fin N → ℕ) → ℝ) (W : Fin N → ℕ → ℕ → ℝ) : ℝ := tnorm rk (multiTTM dims V W ∅)

end Spec
