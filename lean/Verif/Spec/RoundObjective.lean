import Verif.Spec.Round
import Verif.Spec.Objective

/-! # Solvers with rounding errors, and what they cost -/

namespace Spec

open Finset

variable {N : ℕ}

/-- `T` is symmetric and each of its entries is that entry of `S` or of `Sᵀ`: what a solver for symmetric systems sees of `S`. -/
def OneTriangle (S T : ℕ → ℕ → ℝ) : Prop := (∀ a b, T a b = T b a) ∧ ∀ a b, T a b = S a b ∨ T a b = S b a

/-- A backward stable solver of `X S = M` for positive definite systems: it uses one triangle of `S` and leaves a residual of at most
`eta` times `|X| |S| + |M|`, entry by entry. -/
def SolvesBack (eta : ℝ) (solve : Solver ℝ) : Prop :=
  ∀ (n R : ℕ) (M S : ℕ → ℕ → ℝ), (∀ T, OneTriangle S T → PosDef R T) → ∃ T, OneTriangle S T ∧ ∀ x < n, ∀ r < R,
    |∑ k ∈ range R, solve n R M S x k * T k r - M x r| ≤ eta * (∑ k ∈ range R, |solve n R M S x k| * |T k r| + |M x r|)

/-- Bound of the squared norm of every factor when the objective is at most `F`, to the power `N - 1`. -/
noncomputable def gramSize (N : ℕ) (lam F : ℝ) : ℝ := (F / lam) ^ (N - 1)

/-- What one update can lose: second order in the relative error `d` of the normal equations. -/
noncomputable def updateLoss (dims : Fin N → ℕ) (lam : ℝ) (V : (Fin N → ℕ) → ℝ) (d F : ℝ) : ℝ :=
  16 * d ^ 2 * (∑ idx ∈ Box dims, V idx ^ 2) * gramSize N lam F * (gramSize N lam F + lam) ^ 2 / lam ^ 3

/-- Squared error of a recorded gradient, with the relative error `cG`. -/
noncomputable def gradNoise (dims : Fin N → ℕ) (lam : ℝ) (V : (Fin N → ℕ) → ℝ) (cG F : ℝ) : ℝ :=
  2 * cG ^ 2 * ((∑ idx ∈ Box dims, V idx ^ 2) * gramSize N lam F + (gramSize N lam F + lam) ^ 2 * (F / lam))

end Spec
