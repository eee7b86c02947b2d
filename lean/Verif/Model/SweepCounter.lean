import Verif.Model.AlsLoop

/-! # `CPD::als` with the sweep counter as the `double` it is

`Model/AlsLoop.lean` counts sweeps with exact fractions.  Here the number of sweeps a step returns and every addition to the counter
(src/CP.cxx:120, 164) are rounded by `fl`. -/

namespace Model

/-- The value returned by `step()` (cp_simple_optimizer.cxx:55, cp_dt_optimizer.cxx:237, cp_dt_lr_optimizer.cxx:235: literals that are
exact; cp_msdt_optimizer.cxx:207, cp_msdt_lr_optimizer.cxx:204: `1. * (order - 1) / order`, where only the division rounds). -/
def stepSweepsD (fl : ℚ → ℚ) (order : ℕ) : OptKind → ℚ
  | .simple => 1
  | .dt => 1 / 2
  | .dtlr => 1 / 2
  | .msdt => fl (((order : ℚ) - 1) / order)
  | .msdtlr => fl (((order : ℚ) - 1) / order)

open Classical in
/-- The `while` loop of `als` and its result (src/CP.cxx:127-185), see `alsLoop`.  `int(sweeps)` is the floor because `sweeps >= 0`;
the comparisons with `maxsweep` and `maxsweep + 1` convert an `int` to `double`, which is exact. -/
noncomputable def alsLoopD (fl : ℚ → ℚ) {σ : Type} (a : AlsArgs) (step : σ → Except Fault σ) (inc : ℚ)
    (check : σ → Except Fault (ℝ × ℝ)) (clock : ℕ → ℝ) :
    ℕ → ℕ → ℚ → σ → List AlsRow → Except Fault (AlsEnd σ)
  | 0, _, _, _, _ => .error .diverge
  | fuel + 1, iters, sweeps, st, rows =>
    if ⌊sweeps⌋ ≤ a.maxsweep then
      if a.resprint = 0 then .error .ub
      else if alsChecked a iters sweeps then do
        let c ← check st
        let rows := rows ++ [⟨iters, sweeps, c.1, c.2⟩]
        if c.1 < a.tol ∨ a.timelimit < clock iters then
          pure ⟨iters, sweeps, st, rows, true, decide (¬ sweeps = (a.maxsweep : ℚ) + 1)⟩
        else do
          let st' ← step st
          alsLoopD fl a step inc check clock fuel (iters + 1) (fl (sweeps + inc)) st' rows
      else do
        let st' ← step st
        alsLoopD fl a step inc check clock fuel (iters + 1) (fl (sweeps + inc)) st' rows
    else .ok ⟨iters, sweeps, st, rows, false, decide (¬ sweeps = (a.maxsweep : ℚ) + 1)⟩

/-- `CPD<double, Optimizer>::als` in state `s` (src/CP.cxx:109-186), with the counter rounded by `fl`. -/
noncomputable def cpdAlsD (fl : ℚ → ℚ) (kind : OptKind) (order rank : ℕ) (lam : ℝ) (solve : Spec.Solver ℝ) (q : ℕ)
    (lr : Spec.LowRank ℝ) (V : Tensor ℝ) (a : AlsArgs) (clock : ℕ → ℝ) (fuel : ℕ) (s : OptState ℝ × Fac ℝ) :
    Except Fault (AlsEnd (OptState ℝ × Fac ℝ)) :=
  alsLoopD fl a (optStep order rank lam solve q lr V) (stepSweepsD fl order kind) (cpdCheck order V) clock fuel 0 0 s []

end Model
