import Verif.Model.AlsLoop
import Verif.Model.Round

/-! # `CPD::als` (src/CP.cxx:109-186) in floating-point arithmetic

The loop is the one of `Model/AlsLoop.lean`.  The steps use the contractions of `Model/Round.lean`; the quantities of the stop test and of
the log are computed with a rounding function `rnd` for the scalar operations and a function `nrm` for `Tensor::norm2()`. -/

namespace Model

/-- `update_gradnorm` (src/CP.cxx:101-107): every `+`, `*` and `sqrt` is rounded, `norm2()` is `nrm`. -/
noncomputable def gradnormR (rnd : ℝ → ℝ) (nrm : Tensor ℝ → ℝ) (G : List (Tensor ℝ)) (order : ℕ) : Except Fault ℝ := do
  let s ← (List.range order).foldlM (fun s (i : ℕ) => do
    let g ← rd G i
    pure (rnd (s + rnd (nrm g * nrm g)))) 0
  pure (rnd (Real.sqrt s))

/-- As `cpdCheck` (src/CP.cxx:131-137). -/
noncomputable def cpdCheckR (P : Arith) (rnd : ℝ → ℝ) (nrm : Tensor ℝ → ℝ) (order : ℕ) (V : Tensor ℝ) (s : OptState ℝ × Fac ℝ) :
    Except Fault (ℝ × ℝ) := do
  let g ← gradnormR rnd nrm s.2.G order
  let D ← diffVR P V s.2.W order
  pure (g, nrm D)

/-- As `optStep`: static dispatch on the optimizer class.  The low-rank optimizers are not modelled with rounding. -/
def optStepR (P : Arith) (order rank : ℕ) (lam : ℝ) (solve : Spec.Solver ℝ) (V : Tensor ℝ) (s : OptState ℝ × Fac ℝ) :
    Except Fault (OptState ℝ × Fac ℝ) :=
  match s with
  | (.simple, f) => do pure (.simple, ← simpleStepR P order rank lam solve V f)
  | (.dt o, f) => do let r ← dtStepR P order rank lam solve V (o, f); pure (.dt r.1, r.2)
  | (.msdt o, f) => do let r ← msdtStepR P order rank lam solve V (o, f); pure (.msdt r.1, r.2)
  | (.dtlr _, _) => .error .abort
  | (.msdtlr _, _) => .error .abort

/-- As `cpdAls` (src/CP.cxx:109-186). -/
noncomputable def cpdAlsR (kind : OptKind) (P : Arith) (rnd : ℝ → ℝ) (nrm : Tensor ℝ → ℝ) (order rank : ℕ) (lam : ℝ)
    (solve : Spec.Solver ℝ) (V : Tensor ℝ) (a : AlsArgs) (clock : ℕ → ℝ) (fuel : ℕ) (s : OptState ℝ × Fac ℝ) :
    Except Fault (AlsEnd (OptState ℝ × Fac ℝ)) :=
  als a (optStepR P order rank lam solve V) (stepSweeps order kind) (cpdCheckR P rnd nrm order V) clock fuel s

/-! With exact arithmetic these are the functions of `AlsLoop.lean`. -/

theorem gradnormR_exact (G : List (Tensor ℝ)) (order : ℕ) : gradnormR id norm2 G order = gradnorm G order := rfl

theorem cpdCheckR_exact (order : ℕ) (V : Tensor ℝ) : cpdCheckR .exact id norm2 order V = cpdCheck order V := by
  funext s
  unfold cpdCheckR cpdCheck
  rw [gradnormR_exact]
  refine bind_congr fun g => ?_
  unfold residual
  rw [show diffVR .exact V s.2.W order = diffV V s.2.W order from rfl]
  simp only [bind, Except.bind, pure, Except.pure]
  cases diffV V s.2.W order <;> rfl

theorem optStepR_exact (order rank : ℕ) (lam : ℝ) (solve : Spec.Solver ℝ) (q : ℕ) (lr : Spec.LowRank ℝ) (V : Tensor ℝ)
    {o : OptState ℝ} (ho : (∀ x, o ≠ .dtlr x) ∧ ∀ x, o ≠ .msdtlr x) (f : Fac ℝ) :
    optStepR .exact order rank lam solve V (o, f) = optStep order rank lam solve q lr V (o, f) := by
  cases o with
  | simple => rfl
  | dt o => unfold optStepR optStep; rw [dtStepR_exact]
  | msdt o => unfold optStepR optStep; rw [msdtStepR_exact]
  | dtlr o => exact absurd rfl (ho.1 o)
  | msdtlr o => exact absurd rfl (ho.2 o)

end Model
