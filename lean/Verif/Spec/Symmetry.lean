import Verif.Spec.Objective
import Mathlib.Data.Real.Basic
import Mathlib.Logic.Equiv.Basic

/-! # Changes of coordinates of a CP problem

`Q_j` is an `m_j × n_j` matrix with orthonormal columns (an orthogonal matrix if `m_j = n_j`), `σ` reorders the `R` columns of all
factors, `d_j` rescales the columns of factor `j`, and the tensor is rescaled by `c = ∏_j d_j[r]`. -/

namespace Spec

open Finset

variable {N : ℕ}

/-- A change of coordinates. -/
structure Coord (N : ℕ) where
  /-- matrices applied to the modes -/
  Q : Fin N → ℕ → ℕ → ℝ
  /-- column scalings -/
  d : Fin N → ℕ → ℝ
  /-- column `r` of the new factors comes from column `σ r` of the old ones -/
  σ : Equiv.Perm ℕ
  /-- scaling of the tensor -/
  c : ℝ

/-- Conditions on a change of coordinates from shape `n` to shape `m`, rank `R`. -/
structure Coord.Ok (k : Coord N) (n m : Fin N → ℕ) (R : ℕ) : Prop where
  orth : ∀ j, ∀ x < n j, ∀ y < n j, ∑ z ∈ range (m j), k.Q j z x * k.Q j z y = if x = y then 1 else 0
  perm : ∀ r, k.σ r < R ↔ r < R
  nonzero : k.c ≠ 0
  prod : ∀ r < R, ∏ j, k.d j r = k.c

/-- The new tensor: `c · V ×_1 Q_1 ×_2 Q_2 ... ×_N Q_N`. -/
def Coord.tensor (k : Coord N) (n : Fin N → ℕ) (V : (Fin N → ℕ) → ℝ) (idx : Fin N → ℕ) : ℝ :=
  k.c * ∑ y ∈ Box n, (∏ j, k.Q j (idx j) (y j)) * V y

/-- The new factors: `Q_j W_j`, columns reordered and rescaled. -/
def Coord.fac (k : Coord N) (n : Fin N → ℕ) (W : Fin N → ℕ → ℕ → ℝ) (j : Fin N) (x r : ℕ) : ℝ :=
  k.d j r * ∑ y ∈ range (n j), k.Q j x y * W j y (k.σ r)

end Spec
