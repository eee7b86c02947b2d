import Verif.Spec.Round
import Verif.Spec.PP

/-! # Pairwise-perturbation updates with rounding errors

Independent of the model of the code. -/

namespace Spec

/-- Factors, gradients and displacements of a pairwise-perturbation phase. -/
structure PPPhase (N : ℕ) where
  W : Fin N → ℕ → ℕ → ℝ
  G : Fin N → ℕ → ℕ → ℝ
  dW : Fin N → ℕ → ℕ → ℝ

/-- One pairwise-perturbation update of mode `i` with rounding errors: the right-hand side is off by at most `cM` times the first-order
expression of the absolute values, the matrix of the normal equations by `cS`, the gradient by `cG`, the recorded displacement by `cD`
relative to the true distance to the reference factors; the new factor is what the solver makes of the computed right-hand side and
matrix. -/
def RoundedPP {N : ℕ} (dims : Fin N → ℕ) (R : ℕ) (lam : ℝ) (solve : Solver ℝ) (V : (Fin N → ℕ) → ℝ) (W0 : Fin N → ℕ → ℕ → ℝ)
    (cM cS cG cD : ℝ) (i : Fin N) (st st' : PPPhase N) : Prop :=
  ∃ M S g d : ℕ → ℕ → ℝ,
    (∀ x < dims i, ∀ r < R, |M x r - ppMttkrp dims V W0 st.dW i x r| ≤
      cM * ppMttkrp dims (absArr V) (absMats W0) (absMats st.dW) i x r) ∧
    (∀ a < R, ∀ b < R, |S a b - normalMat dims R lam st.W i a b| ≤ cS * normalMat dims R |lam| (absMats st.W) i a b) ∧
    (∀ x < dims i, ∀ r < R, |g x r - (-(ppMttkrp dims V W0 st.dW i x r) + ∑ k ∈ Finset.range R, st.W i x k * normalMat dims R lam st.W i k r)| ≤
      cG * (ppMttkrp dims (absArr V) (absMats W0) (absMats st.dW) i x r +
        ∑ k ∈ Finset.range R, |st.W i x k| * normalMat dims R |lam| (absMats st.W) i k r)) ∧
    st'.W = Function.update st.W i (clip (dims i) R (solve (dims i) R (clip (dims i) R M) (clip R R S))) ∧
    st'.G = Function.update st.G i (clip (dims i) R g) ∧
    st'.dW = Function.update st.dW i d ∧
    ∀ x < dims i, ∀ r < R, |d x r - (st'.W i x r - W0 i x r)| ≤ cD * |st'.W i x r - W0 i x r|

/-- Rounded pairwise-perturbation updates of the given modes, in order. -/
inductive RoundedPPRun {N : ℕ} (dims : Fin N → ℕ) (R : ℕ) (lam : ℝ) (solve : Solver ℝ) (V : (Fin N → ℕ) → ℝ) (W0 : Fin N → ℕ → ℕ → ℝ)
    (cM cS cG cD : ℝ) : List (Fin N) → PPPhase N → PPPhase N → Prop
  | nil (st : PPPhase N) : RoundedPPRun dims R lam solve V W0 cM cS cG cD [] st st
  | cons {i : Fin N} {l : List (Fin N)} {st st' st'' : PPPhase N} : RoundedPP dims R lam solve V W0 cM cS cG cD i st st' →
      RoundedPPRun dims R lam solve V W0 cM cS cG cD l st' st'' → RoundedPPRun dims R lam solve V W0 cM cS cG cD (i :: l) st st''

/-- The recorded displacements are the distances to the reference factors, up to a relative error `cD`. -/
def Tracks {N : ℕ} (dims : Fin N → ℕ) (R : ℕ) (W0 : Fin N → ℕ → ℕ → ℝ) (cD : ℝ) (st : PPPhase N) : Prop :=
  ∀ j, ∀ y < dims j, ∀ r < R, |st.dW j y r - (st.W j y r - W0 j y r)| ≤ cD * |st.W j y r - W0 j y r|

/-- Distance to the reference factors. -/
def away {N : ℕ} (W0 W : Fin N → ℕ → ℕ → ℝ) : Fin N → ℕ → ℕ → ℝ := fun j x r => W j x r - W0 j x r

/-- How far a pairwise-perturbation right-hand side may be from the exact MTTKRP of the factors `W`: rounding errors, and the terms with
two or more displacements, which the method neglects. -/
def ppErr {N : ℕ} (dims : Fin N → ℕ) (V : (Fin N → ℕ) → ℝ) (W0 W : Fin N → ℕ → ℕ → ℝ) (c : ℝ) (i : Fin N) (x r : ℕ) : ℝ :=
  c * ppMttkrp dims (absArr V) (absMats W0) (absMats (away W0 W)) i x r +
    ∑ S ∈ (Finset.univ.erase i).powerset with 2 ≤ S.card, mttkrp dims (absArr V) (mix (absMats W0) (absMats (away W0 W)) S) i x r

/-- Approximate ALS updates of the given modes: each solves the normal equations of the factors as they are at that moment, with a
right-hand side off by at most `ppErr` and a matrix off by at most `cS` times that of the absolute values. -/
inductive PPAlsRun {N : ℕ} (dims : Fin N → ℕ) (R : ℕ) (lam : ℝ) (solve : Solver ℝ) (V : (Fin N → ℕ) → ℝ) (W0 : Fin N → ℕ → ℕ → ℝ)
    (cM cS : ℝ) : List (Fin N) → (Fin N → ℕ → ℕ → ℝ) → (Fin N → ℕ → ℕ → ℝ) → Prop
  | nil (W : Fin N → ℕ → ℕ → ℝ) : PPAlsRun dims R lam solve V W0 cM cS [] W W
  | cons {i : Fin N} {l : List (Fin N)} {W W' : Fin N → ℕ → ℕ → ℝ} {M S : ℕ → ℕ → ℝ} :
      (∀ x < dims i, ∀ r < R, |M x r - mttkrp dims V W i x r| ≤ ppErr dims V W0 W cM i x r) →
      (∀ a < R, ∀ b < R, |S a b - normalMat dims R lam W i a b| ≤ cS * normalMat dims R |lam| (absMats W) i a b) →
      PPAlsRun dims R lam solve V W0 cM cS l
        (Function.update W i (clip (dims i) R (solve (dims i) R (clip (dims i) R M) (clip R R S)))) W' →
      PPAlsRun dims R lam solve V W0 cM cS (i :: l) W W'

end Spec
