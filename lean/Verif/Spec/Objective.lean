import Verif.Spec.Als

/-! # The objective minimised by ALS -/

namespace Spec

open Finset

variable {K : Type*} {N : ℕ}

/-- Frobenius inner product of two `n × R` matrices. -/
def frob [CommSemiring K] (n R : ℕ) (A B : ℕ → ℕ → K) : K :=
  ∑ x ∈ range n, ∑ r ∈ range R, A x r * B x r

/-- Twice the regularised objective of mode `i`: `‖V - [[W]]‖² + lam ‖W_i‖²`. -/
def modeObj2 [CommRing K] (dims : Fin N → ℕ) (R : ℕ) (lam : K) (V : (Fin N → ℕ) → K)
    (W : Fin N → ℕ → ℕ → K) (i : Fin N) : K :=
  resid2 dims R V W + lam * frob (dims i) R (W i) (W i)

/-- `‖V - [[W]]‖² + lam ∑_j ‖W_j‖²`. -/
def fullObj2 [CommRing K] (dims : Fin N → ℕ) (R : ℕ) (lam : K) (V : (Fin N → ℕ) → K)
    (W : Fin N → ℕ → ℕ → K) : K :=
  resid2 dims R V W + lam * ∑ j, frob (dims j) R (W j) (W j)

/-- The array `∑_r D[idx_i, r] ∏_{j≠i} W_j[idx_j, r]`: the change of the model when `D` is added to `W_i`. -/
def modelChange [CommSemiring K] (R : ℕ) (W : Fin N → ℕ → ℕ → K) (i : Fin N) (D : ℕ → ℕ → K)
    (idx : Fin N → ℕ) : K :=
  ∑ r ∈ range R, D (idx i) r * ∏ j ∈ univ.erase i, W j (idx j) r

/-- `X S = M` for an `n × R` matrix `X`. -/
def Solves [CommSemiring K] (n R : ℕ) (X S M : ℕ → ℕ → K) : Prop :=
  ∀ x < n, ∀ r < R, ∑ k ∈ range R, X x k * S k r = M x r

/-- Symmetric positive definite `R × R` matrix. -/
def PosDef [CommSemiring K] [LinearOrder K] (R : ℕ) (S : ℕ → ℕ → K) : Prop :=
  (∀ a < R, ∀ b < R, S a b = S b a) ∧
  ∀ v : ℕ → K, (∃ a < R, v a ≠ 0) → 0 < ∑ a ∈ range R, ∑ b ∈ range R, v a * S a b * v b

/-- A solver that is exact whenever the system has a solution. -/
def SolvesConsistent [CommSemiring K] (solve : Solver K) : Prop :=
  ∀ n R M S, (∃ X, Solves n R X S M) → Solves n R (solve n R M S) S M

/-- A solver that is exact for symmetric positive definite systems. -/
def SolvesPosDef [CommSemiring K] [LinearOrder K] (solve : Solver K) : Prop :=
  ∀ n R M S, PosDef R S → Solves n R (solve n R M S) S M

/-- The part of the objective of one mode that depends on its factor `Y`: `tr(Y S Yᵀ) - 2 tr(Y Mᵀ)`. -/
def quad [CommRing K] (n R : ℕ) (S M Y : ℕ → ℕ → K) : K :=
  ∑ x ∈ range n, ∑ r ∈ range R, (∑ k ∈ range R, Y x k * S k r) * Y x r - 2 * ∑ x ∈ range n, ∑ r ∈ range R, Y x r * M x r

end Spec
