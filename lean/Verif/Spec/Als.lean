import Verif.Spec.Tensor

/-!
# Specification of alternating least squares for CP

One mode update replaces `W_i` by `solve (MTTKRP_i) (Gram product + lam·I)` and records the gradient
`-M + W_i S`.  `solve n R M S` stands for whatever solver of `X S = M` is plugged in.
-/

namespace Spec

open Finset

variable {K : Type*} {N : ℕ}

/-- Restrict a matrix to its `n × R` window (zero outside). -/
def clip [Zero K] (n R : ℕ) (f : ℕ → ℕ → K) (x r : ℕ) : K := if x < n ∧ r < R then f x r else 0

/-- Normal-equation matrix of mode `i`: Hadamard product of the other Gram matrices plus `lam·I`. -/
def normalMat [CommSemiring K] (dims : Fin N → ℕ) (R : ℕ) (lam : K) (W : Fin N → ℕ → ℕ → K)
    (i : Fin N) : ℕ → ℕ → K :=
  clip R R fun a b => gramExcept dims W i a b + if a = b then lam else 0

/-- A linear solver: `solve n R M S` is meant to be the `n × R` matrix `X` with `X S = M`. -/
abbrev Solver (K : Type*) := ℕ → ℕ → (ℕ → ℕ → K) → (ℕ → ℕ → K) → ℕ → ℕ → K

/-- Factors and recorded gradients. -/
structure AlsState (N : ℕ) (K : Type*) where
  W : Fin N → ℕ → ℕ → K
  G : Fin N → ℕ → ℕ → K

/-- Exact gradient expression `-M + W_i S` of mode `i`. -/
def alsGrad [CommRing K] (dims : Fin N → ℕ) (R : ℕ) (lam : K) (V : (Fin N → ℕ) → K)
    (W : Fin N → ℕ → ℕ → K) (i : Fin N) : ℕ → ℕ → K :=
  clip (dims i) R fun x r =>
    - mttkrp dims V W i x r + ∑ k ∈ range R, W i x k * normalMat dims R lam W i k r

/-- The new factor of mode `i`. -/
def alsFactor [CommRing K] (dims : Fin N → ℕ) (R : ℕ) (lam : K) (solve : Solver K)
    (V : (Fin N → ℕ) → K) (W : Fin N → ℕ → ℕ → K) (i : Fin N) : ℕ → ℕ → K :=
  clip (dims i) R
    (solve (dims i) R (clip (dims i) R (mttkrp dims V W i)) (normalMat dims R lam W i))

/-- One ALS mode update. -/
def alsUpdate [CommRing K] (dims : Fin N → ℕ) (R : ℕ) (lam : K) (solve : Solver K)
    (V : (Fin N → ℕ) → K) (st : AlsState N K) (i : Fin N) : AlsState N K where
  W := Function.update st.W i (alsFactor dims R lam solve V st.W i)
  G := Function.update st.G i (alsGrad dims R lam V st.W i)

/-- The update of mode `i` for an arbitrary right-hand side `m` in place of the MTTKRP. -/
def modeUpdate [CommRing K] (dims : Fin N → ℕ) (R : ℕ) (lam : K) (solve : Solver K) (m : ℕ → ℕ → K)
    (st : AlsState N K) (i : Fin N) : AlsState N K where
  W := Function.update st.W i
    (clip (dims i) R (solve (dims i) R (clip (dims i) R m) (normalMat dims R lam st.W i)))
  G := Function.update st.G i
    (clip (dims i) R fun x r => - m x r + ∑ k ∈ range R, st.W i x k * normalMat dims R lam st.W i k r)

/-- ALS updates of the given modes, in order (Gauss-Seidel: each uses the latest factors). -/
def alsRun [CommRing K] (dims : Fin N → ℕ) (R : ℕ) (lam : K) (solve : Solver K)
    (V : (Fin N → ℕ) → K) (modes : List (Fin N)) (st : AlsState N K) : AlsState N K :=
  modes.foldl (alsUpdate dims R lam solve V) st

/-- One plain sweep: modes `0, 1, ..., N-1`. -/
def alsSweep [CommRing K] (dims : Fin N → ℕ) (R : ℕ) (lam : K) (solve : Solver K)
    (V : (Fin N → ℕ) → K) (st : AlsState N K) : AlsState N K :=
  alsRun dims R lam solve V (List.finRange N) st

end Spec

namespace Spec

variable {N : ℕ}

/-- The first `k` modes of the cyclic order `0, 1, ..., N-1, 0, 1, ...`. -/
def cyclicModes (N : ℕ) (h : 0 < N) (k : ℕ) : List (Fin N) :=
  (List.range k).map fun t => ⟨t % N, Nat.mod_lt _ h⟩

end Spec
