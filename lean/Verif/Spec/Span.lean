import Verif.Spec.Tucker
import Mathlib.Data.Real.Basic

/-! # HOOI on subspaces (independent of the model of the code)

Tucker factors with orthonormal columns matter only through the subspaces they span, that is, through the matrices
`P_j = W_j W_jᵀ`.  Here the sweep is stated for the `P_j` alone: no basis of any subspace is chosen. -/

namespace Spec

open Finset

variable {N : ℕ}

/-- `W Wᵀ` for a matrix with `r` columns. -/
def outer (r : ℕ) (W : ℕ → ℕ → ℝ) (x y : ℕ) : ℝ := ∑ a ∈ range r, W x a * W y a

/-- Gram matrix of the mode-`i` unfolding of `V` multiplied by `P_j` in the other modes `j`:
`G[x,y] = ∑_{u,v, u_i = x, v_i = y} V[u] V[v] ∏_{j ≠ i} P_j[u_j, v_j]`. -/
def spanGram (dims : Fin N → ℕ) (V : (Fin N → ℕ) → ℝ) (P : Fin N → ℕ → ℕ → ℝ) (i : Fin N) (x y : ℕ) : ℝ :=
  ∑ u ∈ Box dims with u i = x, ∑ v ∈ Box dims with v i = y, V u * V v * ∏ j ∈ univ.erase i, P j (u j) (v j)

/-- `G` has an orthonormal basis of eigenvectors, the `r` leading eigenvalues are larger than all others, and `P` is the
orthogonal projector onto the leading eigenvectors. -/
def LeadingProj (n r : ℕ) (G P : ℕ → ℕ → ℝ) : Prop :=
  ∃ (Q : ℕ → ℕ → ℝ) (σ : ℕ → ℝ), Orthonormal n n Q ∧
    (∀ x < n, ∀ y < n, G x y = ∑ k ∈ range n, σ k * (Q x k * Q y k)) ∧
    (∀ a < r, ∀ b, r ≤ b → b < n → σ b < σ a) ∧ ∀ x < n, ∀ y < n, P x y = outer r Q x y

/-- One update of HOOI: `P_i` becomes the projector onto the leading eigenvectors of the Gram matrix of mode `i`. -/
def SpanUpdate (dims rk : Fin N → ℕ) (V : (Fin N → ℕ) → ℝ) (i : Fin N) (P P' : Fin N → ℕ → ℕ → ℝ) : Prop :=
  (∀ j, j ≠ i → P' j = P j) ∧ LeadingProj (dims i) (rk i) (spanGram dims V P i) (P' i)

/-- One sweep: the modes `0, …, N-1` in order. -/
def SpanSweep (dims rk : Fin N → ℕ) (V : (Fin N → ℕ) → ℝ) (P P' : Fin N → ℕ → ℕ → ℝ) : Prop :=
  ∃ st : ℕ → Fin N → ℕ → ℕ → ℝ, st 0 = P ∧ st N = P' ∧ ∀ i : Fin N, SpanUpdate dims rk V i (st i.1) (st (i.1 + 1))

/-- `V` projected in all modes. -/
def spanRecon (dims : Fin N → ℕ) (V : (Fin N → ℕ) → ℝ) (P : Fin N → ℕ → ℕ → ℝ) (idx : Fin N → ℕ) : ℝ :=
  ∑ u ∈ Box dims, V u * ∏ j, P j (idx j) (u j)

/-- The quadratic form of `P_1 ⊗ ⋯ ⊗ P_N` at `V`; for projectors the squared norm of the projected tensor. -/
def spanNormSq (dims : Fin N → ℕ) (V : (Fin N → ℕ) → ℝ) (P : Fin N → ℕ → ℕ → ℝ) : ℝ :=
  ∑ u ∈ Box dims, ∑ v ∈ Box dims, V u * V v * ∏ j, P j (u j) (v j)

/-- `V` multiplied by the matrices `Q_j` and by the number `c`: new coordinates in every mode. -/
def rotTensor (dims : Fin N → ℕ) (Q : Fin N → ℕ → ℕ → ℝ) (c : ℝ) (V : (Fin N → ℕ) → ℝ) (idx : Fin N → ℕ) : ℝ :=
  c * ∑ y ∈ Box dims, (∏ j, Q j (idx j) (y j)) * V y

/-- `Q W` for a matrix with `n` rows. -/
def rotFactor (n : ℕ) (Q W : ℕ → ℕ → ℝ) (x a : ℕ) : ℝ := ∑ y ∈ range n, Q x y * W y a

/-- `Q P Qᵀ`. -/
def rotProj (n : ℕ) (Q P : ℕ → ℕ → ℝ) (x y : ℕ) : ℝ := ∑ a ∈ range n, ∑ b ∈ range n, Q x a * Q y b * P a b

/-- The factors `W` represent `P`. -/
def Spans (dims rk : Fin N → ℕ) (W P : Fin N → ℕ → ℕ → ℝ) : Prop :=
  ∀ j, ∀ x < dims j, ∀ y < dims j, outer (rk j) (W j) x y = P j x y

end Spec
