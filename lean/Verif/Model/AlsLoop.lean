import Verif.Model.LowRank
import Verif.Model.Build
import Mathlib.Data.Real.Basic
import Mathlib.Data.Rat.Floor

/-! # The driver loop `CPD::als` (src/CP.cxx:109-186) -/

namespace Model

/-- The optimizers a `CPD` can be instantiated with (run.cxx:391-409). -/
inductive OptKind
  | simple
  | dt
  | dtlr
  | msdt
  | msdtlr
  deriving DecidableEq, Repr

/-- The value returned by `step()`: cp_simple_optimizer.cxx:55, cp_dt_optimizer.cxx:237, cp_dt_lr_optimizer.cxx:235,
cp_msdt_optimizer.cxx:207, cp_msdt_lr_optimizer.cxx:204.  Simplification: exact rationals instead of `double`
(`Model/SweepCounter.lean` has the `double`, see C88). -/
def stepSweeps (order : ℕ) : OptKind → ℚ
  | .simple => 1
  | .dt => 1 / 2
  | .dtlr => 1 / 2
  | .msdt => ((order : ℚ) - 1) / order
  | .msdtlr => ((order : ℚ) - 1) / order

/-- Arguments of `als` (src/CP.cxx:110-111); `Plot_File` and `bench` only affect output. -/
structure AlsArgs where
  tol : ℝ
  timelimit : ℝ
  maxsweep : ℤ
  resprint : ℤ

/-- A line of the log: iteration, `[iter]` (sweeps), `[gradnorm]`, `[diffV]`.  `M` is the type of the measured values: reals, or
IEEE values in `Model/Ieee.lean`. -/
structure AlsRow (M : Type := ℝ) where
  iter : ℕ
  sweeps : ℚ
  gradnorm : M
  diffV : M

/-- What a call of `als` leaves behind: the counters, the state of optimizer and factors, the rows written to the log,
whether the loop was left by `break`, and the returned value. -/
structure AlsEnd (σ : Type) (M : Type := ℝ) where
  iters : ℕ
  sweeps : ℚ
  st : σ
  rows : List (AlsRow M)
  broke : Bool
  ret : Bool

/-- The test of src/CP.cxx:129. -/
def alsChecked (a : AlsArgs) (iters : ℕ) (sweeps : ℚ) : Prop :=
  Int.tmod (iters : ℤ) a.resprint = 0 ∨ (a.maxsweep : ℚ) ≤ sweeps ∨ sweeps = 0

instance (a : AlsArgs) (iters : ℕ) (sweeps : ℚ) : Decidable (alsChecked a iters sweeps) := by
  unfold alsChecked; infer_instance

open Classical in
/-- The `while` loop of `als` and its result (src/CP.cxx:127-185).  `step` is one call of `optimizer->step()`, `inc` the
number of sweeps it returns, `check st` the gradient norm and the residual computed in state `st` (lines 131-137),
`clock k` the value of `MPI_Wtime() - st_time` at the time test of iteration `k`.  `int(sweeps)` is the floor because
`sweeps >= 0`.  The first argument is fuel; running out of it is `diverge`.  `iters % 0` is undefined behaviour.  Not
modelled: console output, file output other than the rows, overflow of `int`. -/
noncomputable def alsLoop {σ : Type} (a : AlsArgs) (step : σ → Except Fault σ) (inc : ℚ)
    (check : σ → Except Fault (ℝ × ℝ)) (clock : ℕ → ℝ) :
    ℕ → ℕ → ℚ → σ → List AlsRow → Except Fault (AlsEnd σ)
  | 0, _, _, _, _ => .error .diverge
  | fuel + 1, iters, sweeps, st, rows =>
    if ⌊sweeps⌋ ≤ a.maxsweep then
      if a.resprint = 0 then .error .ub
      else if alsChecked a iters sweeps then do
        let c ← check st
        let rows := rows ++ [⟨iters, sweeps, c.1, c.2⟩]
        if c.1 < a.tol ∨ a.timelimit < clock iters then
          pure ⟨iters, sweeps, st, rows, true, decide (¬ sweeps = (a.maxsweep : ℚ) + 1)⟩
        else do
          let st' ← step st
          alsLoop a step inc check clock fuel (iters + 1) (sweeps + inc) st' rows
      else do
        let st' ← step st
        alsLoop a step inc check clock fuel (iters + 1) (sweeps + inc) st' rows
    else .ok ⟨iters, sweeps, st, rows, false, decide (¬ sweeps = (a.maxsweep : ℚ) + 1)⟩

/-- `als(tol, timelimit, maxsweep, resprint, ...)` (src/CP.cxx:109-186). -/
noncomputable def als {σ : Type} (a : AlsArgs) (step : σ → Except Fault σ) (inc : ℚ)
    (check : σ → Except Fault (ℝ × ℝ)) (clock : ℕ → ℝ) (fuel : ℕ) (st : σ) : Except Fault (AlsEnd σ) :=
  alsLoop a step inc check clock fuel 0 0 st []

/-- The state of the optimizer object held by a `CPD` (src/CP.h: template parameter `Optimizer`). -/
inductive OptState (K : Type)
  | simple
  | dt (o : DTState)
  | dtlr (o : DTLRState K)
  | msdt (o : MSDTState)
  | msdtlr (o : MSDTLRState K)

/-- Construction of the optimizer (src/CP.cxx:7-30 and the constructors modelled in `dtInit` ... `msdtlrInit`). -/
def optInit (K : Type) [CommRing K] (order : ℕ) : OptKind → Except Fault (OptState K)
  | .simple => .ok .simple
  | .dt => do pure (.dt (← dtInit order))
  | .dtlr => do pure (.dtlr (← dtlrInit order))
  | .msdt => do pure (.msdt (← msdtInit order))
  | .msdtlr => do pure (.msdtlr (← msdtlrInit order))

/-- `optimizer->step()`: static dispatch on the optimizer class. -/
def optStep {K : Type} [CommRing K] (order rank : ℕ) (lam : K) (solve : Spec.Solver K) (q : ℕ) (lr : Spec.LowRank K)
    (V : Tensor K) (s : OptState K × Fac K) : Except Fault (OptState K × Fac K) :=
  match s with
  | (.simple, f) => do pure (.simple, ← simpleStep order rank lam solve V f)
  | (.dt o, f) => do let r ← dtStep order rank lam solve V (o, f); pure (.dt r.1, r.2)
  | (.dtlr o, f) => do let r ← dtlrStep order rank lam solve q lr V (o, f); pure (.dtlr r.1, r.2)
  | (.msdt o, f) => do let r ← msdtStep order rank lam solve V (o, f); pure (.msdt r.1, r.2)
  | (.msdtlr o, f) => do let r ← msdtlrStep order rank lam solve q lr V (o, f); pure (.msdtlr r.1, r.2)

/-- Gradient norm and residual at a checked iteration (src/CP.cxx:131-137). -/
noncomputable def cpdCheck (order : ℕ) (V : Tensor ℝ) (s : OptState ℝ × Fac ℝ) : Except Fault (ℝ × ℝ) := do
  let g ← gradnorm s.2.G order
  let d ← residual V s.2.W order
  pure (g, d)

/-- `CPD<double, Optimizer>::als` in state `s` (src/CP.cxx:109-186). -/
noncomputable def cpdAls (kind : OptKind) (order rank : ℕ) (lam : ℝ) (solve : Spec.Solver ℝ) (q : ℕ) (lr : Spec.LowRank ℝ)
    (V : Tensor ℝ) (a : AlsArgs) (clock : ℕ → ℝ) (fuel : ℕ) (s : OptState ℝ × Fac ℝ) :
    Except Fault (AlsEnd (OptState ℝ × Fac ℝ)) :=
  als a (optStep order rank lam solve q lr V) (stepSweeps order kind) (cpdCheck order V) clock fuel s

end Model
