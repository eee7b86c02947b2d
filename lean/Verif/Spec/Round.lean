import Mathlib.Algebra.Order.Ring.Abs
import Mathlib.Data.Real.Basic
import Mathlib.Algebra.BigOperators.Group.Multiset.Basic
import Mathlib.Data.Multiset.Bind
import Verif.Spec.Als

/-! # Floating-point evaluation

The standard model of floating-point arithmetic (no overflow or underflow): a single operation has a relative error of at most
`eps`.  Independent of the model of the code. -/

namespace Spec

/-- `v` is a floating-point value of a sum of products, given as the collection of its monomials, each the collection of its factors:
the operations may be done in any order and association, with common factors pulled out or not (sequential, blocked, with
intermediate tensors, reduced over processes ...), every single addition or multiplication having a relative error of at most `eps`. -/
inductive FlPoly (eps : ℝ) : Multiset (Multiset ℝ) → ℝ → Prop
  | leaf (x : ℝ) : FlPoly eps {{x}} x
  | add {s t : Multiset (Multiset ℝ)} {a b v : ℝ} : FlPoly eps s a → FlPoly eps t b → |v - (a + b)| ≤ eps * |a + b| →
      FlPoly eps (s + t) v
  | mul {s t : Multiset (Multiset ℝ)} {a b v : ℝ} : FlPoly eps s a → FlPoly eps t b → |v - a * b| ≤ eps * |a * b| →
      FlPoly eps (s.bind fun m => t.map fun n => m + n) v

/-- As `FlPoly`, where the empty sum is 0. -/
def FlSum (eps : ℝ) (s : Multiset (Multiset ℝ)) (v : ℝ) : Prop := (s = 0 ∧ v = 0) ∨ FlPoly eps s v

/-- Absolute values of a tensor. -/
def absArr {N : ℕ} (V : (Fin N → ℕ) → ℝ) : (Fin N → ℕ) → ℝ := fun x => |V x|

/-- Absolute values of the factors. -/
def absMats {N : ℕ} (W : Fin N → ℕ → ℕ → ℝ) : Fin N → ℕ → ℕ → ℝ := fun j x r => |W j x r|

/-- One ALS update of mode `i` with rounding errors: `M`, `S` and the gradient are off by at most `cM`, `cS`, `cG` times the same
expressions of the absolute values; the new factor is what the solver makes of this `M` and `S`. -/
def RoundedUpdate {N : ℕ} (dims : Fin N → ℕ) (R : ℕ) (lam : ℝ) (solve : Solver ℝ) (V : (Fin N → ℕ) → ℝ) (cM cS cG : ℝ)
    (i : Fin N) (st st' : AlsState N ℝ) : Prop :=
  ∃ M S g : ℕ → ℕ → ℝ,
    (∀ x < dims i, ∀ r < R, |M x r - mttkrp dims V st.W i x r| ≤ cM * mttkrp dims (absArr V) (absMats st.W) i x r) ∧
    (∀ a < R, ∀ b < R, |S a b - normalMat dims R lam st.W i a b| ≤ cS * normalMat dims R |lam| (absMats st.W) i a b) ∧
    (∀ x < dims i, ∀ r < R, |g x r - alsGrad dims R lam V st.W i x r| ≤ cG * (mttkrp dims (absArr V) (absMats st.W) i x r +
      ∑ k ∈ Finset.range R, |st.W i x k| * normalMat dims R |lam| (absMats st.W) i k r)) ∧
    st'.W = Function.update st.W i (clip (dims i) R (solve (dims i) R (clip (dims i) R M) (clip R R S))) ∧
    st'.G = Function.update st.G i (clip (dims i) R g)

/-- Rounded updates of the given modes, in order: each works with the factors as they are at that moment. -/
inductive RoundedRun {N : ℕ} (dims : Fin N → ℕ) (R : ℕ) (lam : ℝ) (solve : Solver ℝ) (V : (Fin N → ℕ) → ℝ) (cM cS cG : ℝ) :
    List (Fin N) → AlsState N ℝ → AlsState N ℝ → Prop
  | nil (st : AlsState N ℝ) : RoundedRun dims R lam solve V cM cS cG [] st st
  | cons {i : Fin N} {l : List (Fin N)} {st st' st'' : AlsState N ℝ} : RoundedUpdate dims R lam solve V cM cS cG i st st' →
      RoundedRun dims R lam solve V cM cS cG l st' st'' → RoundedRun dims R lam solve V cM cS cG (i :: l) st st''

end Spec
