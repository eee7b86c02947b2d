import Verif.Spec.Tensor

/-!
# Specification of pairwise perturbation

Independent of the model of the code.
-/

namespace Spec

open Finset

variable {K : Type*} {N : ℕ}

/-- The factors of the modes in `S` are replaced by the displacements. -/
def mix (W dW : Fin N → ℕ → ℕ → K) (S : Finset (Fin N)) : Fin N → ℕ → ℕ → K :=
  fun j => if j ∈ S then dW j else W j

/-- The displaced factors. -/
def displace [Add K] (W dW : Fin N → ℕ → ℕ → K) : Fin N → ℕ → ℕ → K := fun j x r => W j x r + dW j x r

/-- First-order pairwise perturbation of the MTTKRP of mode `i`: the MTTKRP at `W` plus, for every other mode `j`, the
MTTKRP with the factor of mode `j` replaced by its displacement. -/
def ppMttkrp [CommSemiring K] (dims : Fin N → ℕ) (V : (Fin N → ℕ) → K) (W dW : Fin N → ℕ → ℕ → K) (i : Fin N)
    (x r : ℕ) : K :=
  mttkrp dims V W i x r + ∑ j ∈ univ.erase i, mttkrp dims V (Function.update W j (dW j)) i x r

end Spec

namespace Spec

open Finset

variable {K : Type*} {N : ℕ}

/-- The pairwise operator of modes `i` and `j`: the input contracted with the factors of all other modes. -/
def pairOp [CommSemiring K] (dims : Fin N → ℕ) (V : (Fin N → ℕ) → K) (W : Fin N → ℕ → ℕ → K) (i j : Fin N)
    (x y r : ℕ) : K :=
  ∑ idx ∈ Box dims with idx i = x ∧ idx j = y, V idx * ∏ k ∈ (univ.erase i).erase j, W k (idx k) r

end Spec
