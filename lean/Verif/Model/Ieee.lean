import Verif.Model.Run
import Verif.Model.TuckPP
import Verif.Model.PartDriver

/-! # The driver loops with IEEE comparisons

`Model/AlsLoop.lean`, `Model/LegacyLoop.lean` and `Model/PPDriver.lean` compare real numbers.  Here the same loops take the
outcome of the comparisons from a parameter, so that `tol`, `timelimit`, the clock and the measured values may be NaN or
infinite.  `Proofs/Ieee.lean` shows that for finite values they are the loops over the reals. -/

namespace Model

/-- The comparisons of a driver with its arguments `tol` and `timelimit`, for measured values of type `M`:
`x < tol`, `x > tol`, and `MPI_Wtime() - st_time > timelimit` in the `k`-th time test. -/
structure Cmp (M : Type) where
  below : M → Prop
  above : M → Prop
  late : ℕ → Prop

/-- Finite arguments, clock and measured values. -/
def realCmp (tol timelimit : ℝ) (clock : ℕ → ℝ) : Cmp ℝ where
  below x := x < tol
  above x := tol < x
  late k := timelimit < clock k

/-- Arbitrary arguments, clock and measured values of type `double`. -/
def ieeeCmp (tol timelimit : F64) (clock : ℕ → F64) : Cmp F64 where
  below x := x.lt tol
  above x := tol.lt x
  late k := timelimit.lt (clock k)

/-- Arbitrary arguments; finite clock and measured values. -/
def mixCmp (tol timelimit : F64) (clock : ℕ → ℝ) : Cmp ℝ where
  below x := (F64.fin x).lt tol
  above x := tol.lt (.fin x)
  late k := timelimit.lt (.fin (clock k))

open Classical in
/-- IEEE product of a `double` and a finite one (`tol * Vnorm`: run.cxx:391, test_ALS.cxx:355, pp_bench.cxx:297). -/
noncomputable def F64.mul : F64 → ℝ → F64
  | .nan, _ => .nan
  | .fin x, y => .fin (x * y)
  | .pinf, y => if y = 0 then .nan else if 0 < y then .pinf else .ninf
  | .ninf, y => if y = 0 then .nan else if 0 < y then .ninf else .pinf

variable {M : Type} {σ : Type}

open Classical in
/-- The `while` loop of `als` and its result (src/CP.cxx:127-185), as `alsLoop`. -/
noncomputable def alsLoopC (t : Cmp M) (maxsweep resprint : ℤ) (step : σ → Except Fault σ) (inc : ℚ)
    (check : σ → Except Fault (M × M)) : ℕ → ℕ → ℚ → σ → List (AlsRow M) → Except Fault (AlsEnd σ M)
  | 0, _, _, _, _ => .error .diverge
  | fuel + 1, iters, sweeps, st, rows =>
    if ⌊sweeps⌋ ≤ maxsweep then
      if resprint = 0 then .error .ub
      else if Int.tmod (iters : ℤ) resprint = 0 ∨ (maxsweep : ℚ) ≤ sweeps ∨ sweeps = 0 then do
        let c ← check st
        let rows := rows ++ [⟨iters, sweeps, c.1, c.2⟩]
        if t.below c.1 ∨ t.late iters then
          pure ⟨iters, sweeps, st, rows, true, decide (¬ sweeps = (maxsweep : ℚ) + 1)⟩
        else do
          let st' ← step st
          alsLoopC t maxsweep resprint step inc check fuel (iters + 1) (sweeps + inc) st' rows
      else do
        let st' ← step st
        alsLoopC t maxsweep resprint step inc check fuel (iters + 1) (sweeps + inc) st' rows
    else .ok ⟨iters, sweeps, st, rows, false, decide (¬ sweeps = (maxsweep : ℚ) + 1)⟩

open Classical in
/-- The `for` loop of `alsCP`, `alsCP_DT`, `alsTucker`, `alsTucker_DT` (als_CP.cxx:45-114, 165-319; als_Tucker.cxx:134-175, 286-423),
as `llLoop`. -/
noncomputable def llLoopC (t : Cmp M) (maxiter resprint : ℤ) (h : LLHooks σ M) :
    ℕ → ℕ → σ → List (ℕ × M × M) → Except Fault (LLEnd σ M)
  | 0, _, _, _ => .error .diverge
  | fuel + 1, iter, st, rows =>
    if (iter : ℤ) ≤ maxiter then
      if resprint = 0 then .error .ub
      else if h.checked iter then do
        let c ← h.check st
        let rows := rows ++ [(iter, c.2.1, c.2.2)]
        if t.below c.2.1 ∨ t.late iter then
          pure ⟨iter, c.1, rows, true, decide (¬ (iter : ℤ) = maxiter + 1)⟩
        else do
          let st ← h.accept c.1
          let st ← h.sweep st
          llLoopC t maxiter resprint h fuel (iter + 1) st rows
      else do
        let st ← h.sweep st
        llLoopC t maxiter resprint h fuel (iter + 1) st rows
    else .ok ⟨iter, st, rows, false, decide (¬ (iter : ℤ) = maxiter + 1)⟩

/-- The arguments of a PP driver that are not compared with doubles. -/
structure PPCtl where
  tucker : Bool
  maxiter : ℤ
  resprint : ℤ
  bench : Bool

/-- As `dtChecked`. -/
def dtCheckedC (c : PPCtl) (iter : ℕ) : Prop :=
  if c.tucker then (Int.tmod (iter : ℤ) c.resprint = 0 ∧ iter ≠ 0) ∨ iter = 1 ∨ (iter : ℤ) = c.maxiter
  else Int.tmod (iter : ℤ) c.resprint = 0 ∨ (iter : ℤ) = c.maxiter

/-- As `ppChecked`. -/
def ppCheckedC (c : PPCtl) (init iter : ℕ) : Prop := dtCheckedC c iter ∨ iter = init

open Classical in
/-- As `ppTest` (als_CP.cxx:464-504, 692-734; als_Tucker.cxx:528-579, 767-829). -/
noncomputable def ppTestC (t : Cmp M) (c : PPCtl) (h : PPHooks σ M) (pp : Bool) (checked : Prop) (r : PPRun σ M) :
    Except Fault (PPRun σ M × Bool) :=
  if c.resprint = 0 then .error .ub
  else if checked then do
    let q ← h.check r.st
    let r' : PPRun σ M := ⟨r.iter, q.2.1, r.tests + 1, q.1, r.trace ++ [.row r.iter q.2.1 pp q.2.2]⟩
    if t.below q.2.1 ∨ t.late r.tests ∨ (c.tucker = true ∧ pp = true ∧ (r.iter : ℤ) = c.maxiter) then
      pure (r', true)
    else do
      let st ← h.accept q.1
      pure ({ r' with st := st }, false)
  else .ok (r, false)

/-- As `dtSubLoop` (als_CP.cxx:462-609; als_Tucker.cxx:526-660). -/
noncomputable def dtSubLoopC (t : Cmp M) (c : PPCtl) (h : PPHooks σ M) : ℕ → PPRun σ M → Except Fault (PPRun σ M)
  | 0, _ => .error .diverge
  | fuel + 1, r =>
    if (r.iter : ℤ) ≤ c.maxiter then do
      let u ← ppTestC t c h false (dtCheckedC c r.iter) r
      if u.2 then pure u.1
      else do
        let st ← h.dtSweep u.1.st
        let r' : PPRun σ M := { u.1 with st := st, trace := u.1.trace ++ [.dtSweep] }
        let close ← h.dtClose st
        if close then pure r'
        else dtSubLoopC t c h fuel { r' with iter := r'.iter + 1 }
    else .ok r

/-- As `dtSub` (als_CP.cxx:418-612; als_Tucker.cxx:476-669). -/
noncomputable def dtSubC (t : Cmp M) (c : PPCtl) (h : PPHooks σ M) (fuel : ℕ) (r : PPRun σ M) : Except Fault (PPRun σ M) := do
  let st ← h.dtBegin r.st
  dtSubLoopC t c h fuel { r with st := st, trace := r.trace ++ [.dtStart] }

/-- As `benchInc` (als_CP.cxx:830-831; als_Tucker.cxx:893-894). -/
def benchIncC (c : PPCtl) (r : PPRun σ M) : PPRun σ M := if c.bench then { r with iter := r.iter + 1 } else r

/-- As `ppEnter` (als_CP.cxx:668-690, 917-939; als_Tucker.cxx:735-765). -/
def ppEnterC (h : PPHooks σ M) (init : ℕ) (r : PPRun σ M) : Except Fault (PPRun σ M) :=
  if r.iter = init then do
    let st ← h.ppBegin r.st
    pure { r with st := st, trace := r.trace ++ [.ppStart] }
  else .ok r

/-- As `ppSubLoop` (als_CP.cxx:654-829, 903-1069; als_Tucker.cxx:722-892). -/
noncomputable def ppSubLoopC (t : Cmp M) (c : PPCtl) (h : PPHooks σ M) (init : ℕ) : ℕ → PPRun σ M → Except Fault (PPRun σ M)
  | 0, _ => .error .diverge
  | fuel + 1, r =>
    if (r.iter : ℤ) ≤ c.maxiter then do
      let far ← (if c.bench then .ok false else h.ppFar r.st)
      if far || (c.tucker == false && r.iter != init && (r.iter - init) % 15 == 0) then pure r
      else do
        let r1 ← ppEnterC h init r
        let u ← ppTestC t c h true (ppCheckedC c init r.iter) r1
        if u.2 then pure (benchIncC c u.1)
        else do
          let st ← h.ppSweep u.1.st
          ppSubLoopC t c h init fuel
            { u.1 with st := st, trace := u.1.trace ++ [.ppSweep], iter := u.1.iter + 1 }
    else .ok (benchIncC c r)

open Classical in
/-- As `ppDriverLoop` (als_CP.cxx:1106-1124, 1174-1193; als_Tucker.cxx:929-945). -/
noncomputable def ppDriverLoopC (t : Cmp M) (c : PPCtl) (h : PPHooks σ M) (sub : ℕ) :
    ℕ → PPRun σ M → Except Fault (PPRun σ M)
  | 0, _ => .error .diverge
  | fuel + 1, r =>
    if t.above r.grad ∧ (r.iter : ℤ) ≤ c.maxiter then do
      let r ← (if c.bench then .ok r else dtSubC t c h sub r)
      let r ← ppSubLoopC t c h r.iter sub r
      ppDriverLoopC t c h sub fuel { r with st := h.endRound r.st }
    else .ok r

/-- As `ppDriver` (als_CP.cxx:1082-1137, 1146-1207; als_Tucker.cxx:906-962); `ten` is the initial value `10.` of `gradnorm`
(`diffnorm` in Tucker). -/
noncomputable def ppDriverC (t : Cmp M) (ten : M) (c : PPCtl) (h : PPHooks σ M) (fuel : ℕ) (st : σ) :
    Except Fault (PPRun σ M × Bool) := do
  let r ← ppDriverLoopC t c h fuel fuel ⟨0, ten, 0, st, []⟩
  pure (r, decide (¬ (r.iter : ℤ) = c.maxiter + 1))

/-! ## The drivers with IEEE arguments -/

/-- `cpdAls` (src/CP.cxx:109-186) with the comparisons `t`. -/
noncomputable def cpdAlsC (kind : OptKind) (order rank : ℕ) (lam : ℝ) (solve : Spec.Solver ℝ) (q : ℕ) (lr : Spec.LowRank ℝ)
    (V : Tensor ℝ) (t : Cmp ℝ) (maxsweep resprint : ℤ) (fuel : ℕ) (s : OptState ℝ × Fac ℝ) :
    Except Fault (AlsEnd (OptState ℝ × Fac ℝ)) :=
  alsLoopC t maxsweep resprint (optStep order rank lam solve q lr V) (stepSweeps order kind) (cpdCheck order V) fuel 0 0 s []

/-- `alsCPDT` (als_CP.cxx:127-320) with the comparisons `t`; the hooks do not read `tol` and `timelimit`. -/
noncomputable def alsCPDTC (order rank : ℕ) (lam : ℝ) (solve : Spec.Solver ℝ) (V : Tensor ℝ) (F : List (Tensor ℝ)) (t : Cmp ℝ)
    (maxiter resprint : ℤ) (fuel : ℕ) (f : Fac ℝ) : Except Fault (LLEnd (Fac ℝ)) :=
  llLoopC t maxiter resprint (cpDTHooks order rank lam solve V F ⟨0, 0, maxiter, resprint⟩) fuel 0 f []

/-- `alsTuckerDT` (als_Tucker.cxx:240-424) with the comparisons `t`; the hooks do not read `tol` and `timelimit`. -/
noncomputable def alsTuckerDTC (k : Kern ℝ) (V : Tensor ℝ) (t : Cmp ℝ) (maxiter resprint : ℤ) (fuel : ℕ) (core : Tensor ℝ)
    (W : List (Tensor ℝ)) : Except Fault (LLEnd TuckState) :=
  llLoopC t maxiter resprint (tuckDTHooks k V ⟨0, 0, maxiter, resprint⟩) fuel 0 ⟨W, core, core⟩ []

/-- `alsCPPP` (als_CP.cxx:1082-1137) with the comparisons `t`. -/
noncomputable def alsCPPPC (same : Bool) (N rank : ℕ) (lam ratio tolInit : ℝ) (k : Kern ℝ) (V : Tensor ℝ) (t : Cmp ℝ) (c : PPCtl)
    (fuel : ℕ) (W G : List (Tensor ℝ)) : Except Fault (PPRun CPPPState × Bool) :=
  ppDriverC t 10 { c with tucker := false } (cpPPHooks same N rank lam ratio tolInit k V) fuel ⟨W, G, W.map zerosLike, [], [], []⟩

/-- `alsCPPart` (als_CP.cxx:1146-1207) with the comparisons `t`. -/
noncomputable def alsCPPartC (same : Bool) (N rank : ℕ) (lam ratio tolInit p : ℝ) (k : Kern ℝ) (srt : List Rel → List ℕ)
    (V : Tensor ℝ) (t : Cmp ℝ) (c : PPCtl) (fuel : ℕ) (W G : List (Tensor ℝ)) : Except Fault (PPRun PartPPState × Bool) :=
  ppDriverC t 10 { c with tucker := false } (partPPHooks same N rank lam ratio tolInit p k srt V) fuel
    ⟨⟨W, G, W.map zerosLike, [], [], []⟩, [], [], []⟩

/-- `alsTuckerPP` (als_Tucker.cxx:906-962) with the comparisons `t`. -/
noncomputable def alsTuckerPPC (N : ℕ) (k : Kern ℝ) (V : Tensor ℝ) (tolInit : ℝ) (t : Cmp ℝ) (c : PPCtl) (fuel : ℕ)
    (core : Tensor ℝ) (W : List (Tensor ℝ)) : Except Fault (PPRun TuckPPState × Bool) :=
  ppDriverC t 10 { c with tucker := true } (tuckPPHooks N k V) fuel ⟨W, W.map zerosLike, [], [], [], core, core, tolInit⟩

end Model
