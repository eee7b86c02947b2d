import Verif.Model.AlsLoop

/-! # `CPD::als` on several MPI ranks (src/CP.cxx:109-186)

Every rank executes the same program. All tensors are distributed, so evaluating gradient norm and residual (`check`) and
one optimizer step (`step`) are collective: they proceed only if every rank calls them, and they hand the same values to
every rank. Everything else -- counters, the clock -- is local to the rank. -/

namespace Model

/-- Where a rank is in the loop body: before the test of src/CP.cxx:129, before `optimizer->step()`, or past the loop. -/
inductive RankPc
  | top
  | stepping
  | left (broke : Bool)
  deriving DecidableEq

/-- The local variables of a rank. -/
structure RankSt where
  iters : ℕ
  sweeps : ℚ
  pc : RankPc

/-- Collective operations of `als`. -/
inductive Coll
  | check
  | step
  deriving DecidableEq

/-- The next collective operation a rank calls; `none`: it has left the loop. -/
def rankNext (a : AlsArgs) (r : RankSt) : Except Fault (Option Coll) :=
  match r.pc with
  | .left _ => .ok none
  | .stepping => .ok (some .step)
  | .top =>
    if ⌊r.sweeps⌋ ≤ a.maxsweep then
      if a.resprint = 0 then .error .ub
      else if alsChecked a r.iters r.sweeps then .ok (some .check) else .ok (some .step)
    else .ok none

open Classical in
/-- What a rank does with the gradient norm (src/CP.cxx:165-166), its clock being `clock`. -/
noncomputable def rankAfterCheck (a : AlsArgs) (clock : ℕ → ℝ) (g : ℝ) (r : RankSt) : RankSt :=
  if g < a.tol ∨ a.timelimit < clock r.iters then { r with pc := .left true } else { r with pc := .stepping }

/-- src/CP.cxx:169-170. -/
def rankAfterStep (inc : ℚ) (r : RankSt) : RankSt := ⟨r.iters + 1, r.sweeps + inc, .top⟩

/-- The next operation of all ranks, if they agree. -/
inductive Meet
  | finished
  | coll (c : Coll)
  | deadlock
  deriving DecidableEq

/-- All ranks arrive at their next collective call. If they do not all call the same one -- or some have left the loop -- the
calls never complete. -/
def meet (P : ℕ) (next : Fin P → Option Coll) : Meet :=
  if ∀ p, next p = none then .finished
  else if ∀ p, next p = some .check then .coll .check
  else if ∀ p, next p = some .step then .coll .step
  else .deadlock

/-- Run of `als` on `P` ranks. The result is `none` for a deadlock, otherwise the local states of the ranks, the distributed
state and the rows written by rank `p0`. -/
noncomputable def spmdRun {σ : Type} {P : ℕ} (p0 : Fin P) (a : AlsArgs) (step : σ → Except Fault σ) (inc : ℚ)
    (check : σ → Except Fault (ℝ × ℝ)) (clock : Fin P → ℕ → ℝ) :
    ℕ → (Fin P → RankSt) → σ → List AlsRow → Except Fault (Option ((Fin P → RankSt) × σ × List AlsRow))
  | 0, _, _, _ => .error .diverge
  | fuel + 1, ranks, st, rows =>
    if ∃ p, rankNext a (ranks p) = .error .ub then .error .ub
    else
      match meet P fun p => (rankNext a (ranks p)).toOption.join with
      | .finished => .ok (some (ranks, st, rows))
      | .deadlock => .ok none
      | .coll .check => do
        let c ← check st
        spmdRun p0 a step inc check clock fuel (fun p => rankAfterCheck a (clock p) c.1 (ranks p)) st
          (rows ++ [⟨(ranks p0).iters, (ranks p0).sweeps, c.1, c.2⟩])
      | .coll .step => do
        let st ← step st
        spmdRun p0 a step inc check clock fuel (fun p => rankAfterStep inc (ranks p)) st rows

/-- `als` on `P` ranks with optimizer `kind`. -/
noncomputable def cpdAlsSpmd {P : ℕ} (p0 : Fin P) (kind : OptKind) (order rank : ℕ) (lam : ℝ) (solve : Spec.Solver ℝ) (q : ℕ)
    (lr : Spec.LowRank ℝ) (V : Tensor ℝ) (a : AlsArgs) (clock : Fin P → ℕ → ℝ) (fuel : ℕ) (s : OptState ℝ × Fac ℝ) :
    Except Fault (Option ((Fin P → RankSt) × (OptState ℝ × Fac ℝ) × List AlsRow)) :=
  spmdRun p0 a (optStep order rank lam solve q lr V) (stepSweeps order kind) (cpdCheck order V) clock fuel
    (fun _ => ⟨0, 0, .top⟩) s []

end Model
