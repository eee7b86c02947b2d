import Verif.Spec.Objective

/-!
# Specification of ALS with low-rank corrections

Some mode updates do not replace the factor by the solution of the normal equations but add a rank-`q` correction
`U diag(s) VT` to a base matrix `A`.  `lr n R M A S` is whatever routine produces `(U, s, VT)`.
-/

namespace Spec

open Finset

variable {K : Type*} {N : ℕ}

/-- A routine producing a rank-`q` correction `(U, s, VT)` from `M`, `A`, `S`. -/
abbrev LowRank (K : Type*) := ℕ → ℕ → (ℕ → ℕ → K) → (ℕ → ℕ → K) → (ℕ → ℕ → K) →
  (ℕ → ℕ → K) × (ℕ → K) × (ℕ → ℕ → K)

/-- `U diag(s) VT`. -/
def lrProd [CommSemiring K] (q : ℕ) (u : (ℕ → ℕ → K) × (ℕ → K) × (ℕ → ℕ → K)) (x r : ℕ) : K :=
  ∑ k ∈ range q, u.1 x k * u.2.1 k * u.2.2 k r

/-- Update of mode `i` by a low-rank correction of `A`. The recorded gradient is that of the factors before the
update. -/
def lrUpdate [CommRing K] (dims : Fin N → ℕ) (R : ℕ) (lam : K) (q : ℕ) (lr : LowRank K)
    (V : (Fin N → ℕ) → K) (A : ℕ → ℕ → K) (st : AlsState N K) (i : Fin N) : AlsState N K where
  W := Function.update st.W i (clip (dims i) R fun x r => A x r +
    lrProd q (lr (dims i) R (clip (dims i) R (mttkrp dims V st.W i)) (clip (dims i) R A)
      (normalMat dims R lam st.W i)) x r)
  G := Function.update st.G i (alsGrad dims R lam V st.W i)

/-- Updates of the given modes in order; those marked `true` are low-rank corrections of `base`. -/
def lrRun [CommRing K] (dims : Fin N → ℕ) (R : ℕ) (lam : K) (solve : Solver K) (q : ℕ)
    (lr : LowRank K) (V : (Fin N → ℕ) → K) (base : AlsState N K → Fin N → ℕ → ℕ → K)
    (ops : List (Fin N × Bool)) (st : AlsState N K) : AlsState N K :=
  ops.foldl (fun st op => if op.2 then lrUpdate dims R lam q lr V (base st op.1) st op.1
    else alsUpdate dims R lam solve V st op.1) st

/-- Contraction of `V` with `A` along mode `j`, at position `y` of the other modes (and rank index `r`). -/
def contractMode [CommSemiring K] (dims : Fin N → ℕ) (V : (Fin N → ℕ) → K) (j : Fin N)
    (A : ℕ → ℕ → K) (y : Fin N → ℕ) (r : ℕ) : K :=
  ∑ x ∈ range (dims j), V (Function.update y j x) * A x r

end Spec

namespace Spec

/-- The updates of step number `t` (from 0) of the low-rank dimension-tree optimizer: steps come in pairs, pair
`t/2` splits the modes at `N-1-sp`, where `sp = ⌊t/10⌋ mod (N-1)`; the even step updates the modes below the split,
the odd step the others.  Except in every fifth pair, the two modes next to the split are low-rank corrections. -/
def dtlrOps (N t : ℕ) : List (Fin N × Bool) :=
  let sp := (t / 2 / 5) % (N - 1)
  let on := decide ((t / 2) % 5 ≠ 0)
  if t % 2 = 0 then
    ((List.finRange N).take (N - 1 - sp)).map fun m => (m, on && decide (m.1 = N - 2 - sp))
  else
    ((List.finRange N).drop (N - 1 - sp)).map fun m => (m, on && decide (m.1 = N - 1 - sp))

/-- The updates of step number `t` (from 0) of the low-rank multi-sweep optimizer: the `N-1` updates number
`t(N-1), ..., (t+1)(N-1)-1` of the cyclic order; from step `N-1` on the last one is a low-rank correction. -/
def msdtlrOps (N : ℕ) (h : 0 < N) (t : ℕ) : List (Fin N × Bool) :=
  (List.range (N - 1)).map fun p =>
    (⟨(t * (N - 1) + p) % N, Nat.mod_lt _ h⟩, decide (p = N - 2 ∧ N - 1 ≤ t))

/-- The modes other than `left`, cyclically from `left + 1`. -/
def modesAfter {N : ℕ} (left : Fin N) : List (Fin N) :=
  (List.range (N - 1)).map fun p => ⟨(left.1 + 1 + p) % N, Nat.mod_lt _ (Nat.zero_lt_of_lt left.2)⟩

end Spec

namespace Spec

open Finset

variable {K : Type*}

/-- The correction never increases the objective of the mode. -/
def LRDescends [CommRing K] [LinearOrder K] (q : ℕ) (lr : LowRank K) : Prop :=
  ∀ (n R : ℕ) (M A S : ℕ → ℕ → K), q ≤ n → q ≤ R → PosDef R S →
    quad n R S M (fun x r => A x r + lrProd q (lr n R M A S) x r) ≤ quad n R S M A

/-- The correction is the best one of rank at most `q`. -/
def LRBest [CommRing K] [LinearOrder K] (q : ℕ) (lr : LowRank K) : Prop :=
  ∀ (n R : ℕ) (M A S : ℕ → ℕ → K), q ≤ n → q ≤ R → PosDef R S → ∀ P Q : ℕ → ℕ → K,
    quad n R S M (fun x r => A x r + lrProd q (lr n R M A S) x r) ≤
      quad n R S M (fun x r => A x r + ∑ k ∈ range q, P x k * Q k r)

end Spec
