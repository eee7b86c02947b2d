import Verif.Model.Ieee
import Verif.Model.Bench

/-! # The log file `Plot_File`

The loops of `Model/Ieee.lean` with the stream the drivers write to.  `M` is the type of the measured values.  Simplifications:
a line is a value, not a text (number formatting and `cout.precision` are not modelled); opening the file and every write to an
open stream succeed; `dtime k` is the time printed by the `k`-th test of a call (`MPI_Wtime` is an oracle). -/

namespace Model

/-- A line of the file: the two headings (src/CP.cxx:124, als_CP.cxx:133, 1090, 1159: `[gradnorm]`; als_Tucker.cxx:246, 913:
`[diffnorm]`), a row (src/CP.cxx:149-151, als_CP.cxx:197, 489, 729, 967; als_Tucker.cxx:321, 554, 797), the empty line of
`Plot_File << endl`, and the lines of the benchmarks (src/CP.cxx:160, als_CP.cxx:206, 742-746; als_Tucker.cxx:330, 810-814;
pp_bench.cxx:297, 319). -/
inductive LogLine (M : Type)
  | heading (tucker : Bool)
  | row (dim : ℕ) (iter : ℚ) (measured tol : M) (pp : Bool) (diffV : M) (dtime : ℝ)
  | blank
  | dtTime (t : ℝ)
  | ppFirst (t : ℝ)
  | ppSecond (t : ℝ)
  | timetype

/-- An `ofstream` and the file behind it. -/
structure Stream (M : Type) where
  isOpen : Bool
  lines : List (LogLine M)

variable {M σ : Type}

/-- `Plot_File << ..`: after `close()` there is no file, the write fails and nothing happens (no exceptions are enabled). -/
def Stream.put (w : Stream M) (l : LogLine M) : Stream M := if w.isOpen then { w with lines := w.lines ++ [l] } else w

/-- `Plot_File.close()`. -/
def Stream.close (w : Stream M) : Stream M := { w with isOpen := false }

/-- What the output depends on: `dw.rank == 0`, `bench`, `V.lens[0]`, `tol`, and the times. -/
structure LogEnv (M : Type) where
  rank0 : Bool
  bench : Bool
  dim : ℕ
  tol : M
  dtime : ℕ → ℝ

/-- A row and, every 100 iterations, an empty line, on rank 0 (src/CP.cxx:142-156; als_CP.cxx:191-202, 483-494, 722-734, 961-972;
als_Tucker.cxx:314-326, 547-559, 790-802). -/
def putRow (e : LogEnv M) (iter : ℕ) (shown : ℚ) (m : M) (pp : Bool) (d : M) (k : ℕ) (w : Stream M) : Stream M :=
  if e.rank0 then
    let w := w.put (.row e.dim shown m e.tol pp d (e.dtime k))
    if iter % 100 = 0 ∧ iter ≠ 0 then w.put .blank else w
  else w

/-- The output of a test in `CPD::als` and `alsCP_DT` (src/CP.cxx:141-163; als_CP.cxx:190-209). -/
def putTest (e : LogEnv M) (iter : ℕ) (shown : ℚ) (m d : M) (w : Stream M) : Stream M :=
  if e.bench then
    if e.rank0 ∧ iter ≠ 0 then w.put (.dtTime (e.dtime iter)) else w
  else putRow e iter shown m false d iter w

/-- The output of a test in `alsTucker_DT` (als_Tucker.cxx:313-333): a benchmark line also at `iter = 0`. -/
def putTestT (e : LogEnv M) (iter : ℕ) (shown : ℚ) (m d : M) (w : Stream M) : Stream M :=
  if e.bench then
    if e.rank0 then w.put (.dtTime (e.dtime iter)) else w
  else putRow e iter shown m false d iter w

/-- The heading on rank 0 (src/CP.cxx:122-126; als_CP.cxx:131-135, 1088-1092, 1157-1161; als_Tucker.cxx:911-915). -/
def putHeading (e : LogEnv M) (tucker : Bool) (w : Stream M) : Stream M :=
  if e.bench = false ∧ e.rank0 then w.put (.heading tucker) else w

/-- `if (bench == false) Plot_File.close()`, on every rank (src/CP.cxx:180-182; als_CP.cxx:312-314, 1129-1131, 1199-1201;
als_Tucker.cxx:417-419, 954-956). -/
def endLog (e : LogEnv M) (w : Stream M) : Stream M := if e.bench then w else w.close

open Classical in
/-- `alsLoopC` (src/CP.cxx:127-175) with its output. -/
noncomputable def alsLoopL (e : LogEnv M) (t : Cmp M) (maxsweep resprint : ℤ) (step : σ → Except Fault σ) (inc : ℚ)
    (check : σ → Except Fault (M × M)) :
    ℕ → ℕ → ℚ → σ → List (AlsRow M) → Stream M → Except Fault (AlsEnd σ M × Stream M)
  | 0, _, _, _, _, _ => .error .diverge
  | fuel + 1, iters, sweeps, st, rows, w =>
    if ⌊sweeps⌋ ≤ maxsweep then
      if resprint = 0 then .error .ub
      else if Int.tmod (iters : ℤ) resprint = 0 ∨ (maxsweep : ℚ) ≤ sweeps ∨ sweeps = 0 then do
        let c ← check st
        let rows := rows ++ [⟨iters, sweeps, c.1, c.2⟩]
        let w := putTest e iters sweeps c.1 c.2 w
        if t.below c.1 ∨ t.late iters then
          pure (⟨iters, sweeps, st, rows, true, decide (¬ sweeps = (maxsweep : ℚ) + 1)⟩, w)
        else do
          let st' ← step st
          alsLoopL e t maxsweep resprint step inc check fuel (iters + 1) (sweeps + inc) st' rows w
      else do
        let st' ← step st
        alsLoopL e t maxsweep resprint step inc check fuel (iters + 1) (sweeps + inc) st' rows w
    else .ok (⟨iters, sweeps, st, rows, false, decide (¬ sweeps = (maxsweep : ℚ) + 1)⟩, w)

/-- `CPD::als` (src/CP.cxx:109-186) on the optimizer and factors `s` and the stream `w`. -/
noncomputable def cpdAlsL (e : LogEnv ℝ) (kind : OptKind) (order rank : ℕ) (lam : ℝ) (solve : Spec.Solver ℝ) (q : ℕ)
    (lr : Spec.LowRank ℝ) (V : Tensor ℝ) (t : Cmp ℝ) (maxsweep resprint : ℤ) (fuel : ℕ) (s : OptState ℝ × Fac ℝ) (w : Stream ℝ) :
    Except Fault (AlsEnd (OptState ℝ × Fac ℝ) × Stream ℝ) := do
  let r ← alsLoopL e t maxsweep resprint (optStep order rank lam solve q lr V) (stepSweeps order kind) (cpdCheck order V) fuel 0 0 s []
    (putHeading e false w)
  pure (r.1, endLog e r.2)

open Classical in
/-- `llLoopC` (als_CP.cxx:165-310; als_Tucker.cxx:286-412) with its output; `put` is `putTest` or `putTestT`. -/
noncomputable def llLoopL (put : ℕ → ℚ → M → M → Stream M → Stream M) (t : Cmp M) (maxiter resprint : ℤ) (h : LLHooks σ M) :
    ℕ → ℕ → σ → List (ℕ × M × M) → Stream M → Except Fault (LLEnd σ M × Stream M)
  | 0, _, _, _, _ => .error .diverge
  | fuel + 1, iter, st, rows, w =>
    if (iter : ℤ) ≤ maxiter then
      if resprint = 0 then .error .ub
      else if h.checked iter then do
        let c ← h.check st
        let rows := rows ++ [(iter, c.2.1, c.2.2)]
        let w := put iter iter c.2.1 c.2.2 w
        if t.below c.2.1 ∨ t.late iter then
          pure (⟨iter, c.1, rows, true, decide (¬ (iter : ℤ) = maxiter + 1)⟩, w)
        else do
          let st ← h.accept c.1
          let st ← h.sweep st
          llLoopL put t maxiter resprint h fuel (iter + 1) st rows w
      else do
        let st ← h.sweep st
        llLoopL put t maxiter resprint h fuel (iter + 1) st rows w
    else .ok (⟨iter, st, rows, false, decide (¬ (iter : ℤ) = maxiter + 1)⟩, w)

/-- `alsCP_DT` (als_CP.cxx:127-320). -/
noncomputable def alsCPDTL (e : LogEnv ℝ) (order rank : ℕ) (lam : ℝ) (solve : Spec.Solver ℝ) (V : Tensor ℝ) (F : List (Tensor ℝ))
    (t : Cmp ℝ) (maxiter resprint : ℤ) (fuel : ℕ) (f : Fac ℝ) (w : Stream ℝ) : Except Fault (LLEnd (Fac ℝ) × Stream ℝ) := do
  let r ← llLoopL (putTest e) t maxiter resprint (cpDTHooks order rank lam solve V F ⟨0, 0, maxiter, resprint⟩) fuel 0 f []
    (putHeading e false w)
  pure (r.1, endLog e r.2)

/-- The heading of `alsTucker_DT` is written by *every* rank (als_Tucker.cxx:245-248). -/
def putHeadingT (e : LogEnv M) (w : Stream M) : Stream M := if e.bench then w else w.put (.heading true)

/-- `alsTucker_DT` (als_Tucker.cxx:240-424). -/
noncomputable def alsTuckerDTL (e : LogEnv ℝ) (k : Kern ℝ) (V : Tensor ℝ) (t : Cmp ℝ) (maxiter resprint : ℤ) (fuel : ℕ)
    (core : Tensor ℝ) (W : List (Tensor ℝ)) (w : Stream ℝ) : Except Fault (LLEnd TuckState × Stream ℝ) := do
  let r ← llLoopL (putTestT e) t maxiter resprint (tuckDTHooks k V ⟨0, 0, maxiter, resprint⟩) fuel 0 ⟨W, core, core⟩ []
    (putHeadingT e w)
  pure (r.1, endLog e r.2)

/-! ## The pairwise perturbation drivers -/

/-- The variables of a PP driver, `dtime_first` (als_CP.cxx:627, 860; als_Tucker.cxx:685) and the stream. -/
structure PPLog (σ M : Type) where
  run : PPRun σ M
  first : ℝ
  out : Stream M

/-- The output of a test of a PP driver: phase `pp = false` (als_CP.cxx:483-494; als_Tucker.cxx:547-559, whatever `bench` is) and phase
`pp = true` (als_CP.cxx:721-748, 960-987; als_Tucker.cxx:789-816). -/
noncomputable def putTestPP (e : LogEnv M) (maxiter : ℤ) (pp : Bool) (iter : ℕ) (m d : M) (k : ℕ) (first : ℝ) (w : Stream M) :
    ℝ × Stream M :=
  if pp ∧ e.bench then
    if e.rank0 ∧ (iter : ℤ) ≠ maxiter then (e.dtime k, w)
    else if e.rank0 ∧ (iter : ℤ) = maxiter then
      (first + e.dtime k, (w.put (.ppFirst (first + e.dtime k))).put (.ppSecond (e.dtime k)))
    else (first, w)
  else (first, putRow e iter iter m pp d k w)

open Classical in
/-- `ppTestC` (als_CP.cxx:464-504, 692-750; als_Tucker.cxx:528-579, 767-829) with its output. -/
noncomputable def ppTestL (e : LogEnv M) (t : Cmp M) (c : PPCtl) (h : PPHooks σ M) (pp : Bool) (checked : Prop) (x : PPLog σ M) :
    Except Fault (PPLog σ M × Bool) :=
  if c.resprint = 0 then .error .ub
  else if checked then do
    let q ← h.check x.run.st
    let r' : PPRun σ M := ⟨x.run.iter, q.2.1, x.run.tests + 1, q.1, x.run.trace ++ [.row x.run.iter q.2.1 pp q.2.2]⟩
    let o := putTestPP e c.maxiter pp x.run.iter q.2.1 q.2.2 x.run.tests x.first x.out
    if t.below q.2.1 ∨ t.late x.run.tests ∨ (c.tucker = true ∧ pp = true ∧ (x.run.iter : ℤ) = c.maxiter) then
      pure (⟨r', o.1, o.2⟩, true)
    else do
      let st ← h.accept q.1
      pure (⟨{ r' with st := st }, o.1, o.2⟩, false)
  else .ok (x, false)

/-- `dtSubLoopC` (als_CP.cxx:462-609; als_Tucker.cxx:526-660) with its output. -/
noncomputable def dtSubLoopL (e : LogEnv M) (t : Cmp M) (c : PPCtl) (h : PPHooks σ M) : ℕ → PPLog σ M → Except Fault (PPLog σ M)
  | 0, _ => .error .diverge
  | fuel + 1, x =>
    if (x.run.iter : ℤ) ≤ c.maxiter then do
      let u ← ppTestL e t c h false (dtCheckedC c x.run.iter) x
      if u.2 then pure u.1
      else do
        let st ← h.dtSweep u.1.run.st
        let r' : PPRun σ M := { u.1.run with st := st, trace := u.1.run.trace ++ [.dtSweep] }
        let close ← h.dtClose st
        if close then pure { u.1 with run := r' }
        else dtSubLoopL e t c h fuel { u.1 with run := { r' with iter := r'.iter + 1 } }
    else .ok x

/-- `dtSubC` (als_CP.cxx:418-612; als_Tucker.cxx:476-669) with its output. -/
noncomputable def dtSubL (e : LogEnv M) (t : Cmp M) (c : PPCtl) (h : PPHooks σ M) (fuel : ℕ) (x : PPLog σ M) :
    Except Fault (PPLog σ M) := do
  let st ← h.dtBegin x.run.st
  dtSubLoopL e t c h fuel { x with run := { x.run with st := st, trace := x.run.trace ++ [.dtStart] } }

/-- `ppSubLoopC` (als_CP.cxx:654-829, 903-1069; als_Tucker.cxx:722-892) with its output. -/
noncomputable def ppSubLoopL (e : LogEnv M) (t : Cmp M) (c : PPCtl) (h : PPHooks σ M) (init : ℕ) :
    ℕ → PPLog σ M → Except Fault (PPLog σ M)
  | 0, _ => .error .diverge
  | fuel + 1, x =>
    if (x.run.iter : ℤ) ≤ c.maxiter then do
      let far ← (if c.bench then .ok false else h.ppFar x.run.st)
      if far || (c.tucker == false && x.run.iter != init && (x.run.iter - init) % 15 == 0) then pure x
      else do
        let r1 ← ppEnterC h init x.run
        let u ← ppTestL e t c h true (ppCheckedC c init x.run.iter) { x with run := r1 }
        if u.2 then pure { u.1 with run := benchIncC c u.1.run }
        else do
          let st ← h.ppSweep u.1.run.st
          ppSubLoopL e t c h init fuel
            { u.1 with run := { u.1.run with st := st, trace := u.1.run.trace ++ [.ppSweep], iter := u.1.run.iter + 1 } }
    else .ok { x with run := benchIncC c x.run }

open Classical in
/-- `ppDriverLoopC` (als_CP.cxx:1106-1124, 1174-1193; als_Tucker.cxx:929-945) with its output; `double dtime_first = 0` is executed at
every call of the pairwise perturbation phase. -/
noncomputable def ppDriverLoopL (e : LogEnv M) (t : Cmp M) (c : PPCtl) (h : PPHooks σ M) (sub : ℕ) :
    ℕ → PPRun σ M × Stream M → Except Fault (PPRun σ M × Stream M)
  | 0, _ => .error .diverge
  | fuel + 1, x =>
    if t.above x.1.grad ∧ (x.1.iter : ℤ) ≤ c.maxiter then do
      let y ← (if c.bench then .ok ⟨x.1, 0, x.2⟩ else dtSubL e t c h sub ⟨x.1, 0, x.2⟩)
      let y ← ppSubLoopL e t c h y.run.iter sub { y with first := 0 }
      ppDriverLoopL e t c h sub fuel ({ y.run with st := h.endRound y.run.st }, y.out)
    else .ok x

/-- `ppDriverC` (als_CP.cxx:1082-1137, 1146-1207; als_Tucker.cxx:906-962) with its output; `c.bench` and `e.bench` are the same argument. -/
noncomputable def ppDriverL (e : LogEnv M) (t : Cmp M) (ten : M) (c : PPCtl) (h : PPHooks σ M) (fuel : ℕ) (st : σ) (w : Stream M) :
    Except Fault ((PPRun σ M × Bool) × Stream M) := do
  let e := { e with bench := c.bench }
  let r ← ppDriverLoopL e t c h fuel fuel (⟨0, ten, 0, st, []⟩, putHeading e c.tucker w)
  pure ((r.1, decide (¬ (r.1.iter : ℤ) = c.maxiter + 1)), endLog e r.2)

/-! ## pp_bench.cxx -/

/-- The stream of pp_bench.cxx: on rank 0 one line `l` (the heading, pp_bench.cxx:296-298, 318-320, or `Plot_File << endl`,
pp_bench.cxx:306-307, 315-316, 336-337, 346-347). -/
def putMain (rank0 : Bool) (l : LogLine M) (w : Stream M) : Stream M := if rank0 then w.put l else w

/-- `for (i = 0; i < n; i++) body(i)` on results and stream (pp_bench.cxx:299-305, 308-314, 330-335, 338-345). -/
def repeatL {α : Type} (n : ℕ) (body : ℕ → α × Stream M → Except Fault (α × Stream M)) (s : α × Stream M) :
    Except Fault (α × Stream M) :=
  (List.range n).foldlM (fun s i => body i s) s

/-- The benchmarks of pp_bench.cxx:291-348, with their output: `benchDrive` and the stream.  `eD i`, `eP i` are the times printed in
repetition `i`. -/
noncomputable def benchDriveL (rank0 : Bool) (timeD timeP : ℕ → ℕ → ℝ) (E : MainEnv) (clkD clkP : ℕ → ℕ → ℝ) (fuel : ℕ) (o : Opts)
    (V : Tensor ℝ) (w : Stream ℝ) : Except Fault (BenchOut × Stream ℝ) :=
  let N := V.lens.length
  let R := o.R.toNat
  let W := fillMats V.lens R E.w0
  let G := fillMats V.lens R E.g0
  let F := fillMats V.lens R fun _ _ _ => 0
  let tD := fun i => mixCmp (o.tol.mul (norm2 V)) o.timelimit (clkD i)
  let tP := fun i => mixCmp (o.tol.mul (norm2 V)) o.timelimit (clkP i)
  let eD : ℕ → LogEnv ℝ := fun i => ⟨rank0, true, 0, 0, timeD i⟩
  let eP : ℕ → LogEnv ℝ := fun i => ⟨rank0, true, 0, 0, timeP i⟩
  let n := o.maxiter.toNat
  if o.model[0]? = some 'C' then do
    let w := putMain rank0 .timetype w
    let d ← repeatL n (fun i s => do
      let r ← alsCPDTL (eD i) N R o.lambda.toReal E.solve V F (tD i) 1 o.resprint fuel ⟨s.1.1, s.1.2.1⟩ s.2
      let D ← copyMats N r.1.st.W W
      pure ((D, r.1.st.G, s.1.2.2 ++ [r.1]), r.2)) ((W, G, []), w)
    let p ← repeatL n (fun i s => do
      let r ← ppDriverL (eP i) (tP i) 10 ⟨false, 1, o.resprint, true⟩
        (cpPPHooks E.same N R o.lambda.toReal o.magni.toReal o.ppResTol.toReal E.kern V) fuel
        ⟨s.1.1, s.1.2.1, s.1.1.map zerosLike, [], [], []⟩ s.2
      let D ← copyMats N r.1.1.st.W W
      pure ((D, r.1.1.st.G, s.1.2.2 ++ [r.1]), r.2)) ((W, d.1.2.1, []), putMain rank0 .blank d.2)
    pure (.cp d.1.2.2 p.1.2.2, putMain rank0 .blank p.2)
  else if o.model[0]? = some 'T' then do
    let w := putMain rank0 .timetype w
    let core ← benchCore o.dim.toNat N R
    let d ← repeatL n (fun i s => do
      let D ← copyMats N s.1.1 W
      let r ← alsTuckerDTL (eD i) E.kern V (tD i) 1 o.resprint fuel s.1.2.1 D s.2
      pure ((r.1.st.W, r.1.st.core, s.1.2.2 ++ [r.1]), r.2)) ((W, core, []), w)
    let p ← repeatL n (fun i s => do
      let D ← copyMats N s.1.1 W
      let r ← ppDriverL (eP i) (tP i) 10 ⟨true, 1, o.resprint, true⟩ (tuckPPHooks N E.kern V) fuel
        ⟨D, D.map zerosLike, [], [], [], s.1.2.1, s.1.2.1, o.ppResTol.toReal⟩ s.2
      pure ((r.1.1.st.W, r.1.1.st.core, s.1.2.2 ++ [r.1]), r.2)) ((W, d.1.2.1, []), putMain rank0 .blank d.2)
    pure (.tucker d.1.2.2 p.1.2.2, putMain rank0 .blank p.2)
  else .ok (.nothing, w)

end Model
