import Verif.Model.PP
import Verif.Model.AlsLoop

/-! # The pairwise perturbation drivers (als_CP.cxx:418-612, 621-833, 852-1207; als_Tucker.cxx:476-962) as control automata

`alsCP_PP`, `alsCP_PP_partupdate` and `alsTucker_PP` have the same control structure; they differ in the computations
(`PPHooks`) and in a few tests (`PPCfg.tucker`). -/

namespace Model

/-- The computations of a PP driver, on a state `σ`; `M` is the type of the measured values. -/
structure PPHooks (σ : Type) (M : Type := ℝ) where
  /-- start of the dimension tree phase: `W_prev[i] = Matrix<>(..)`, i.e. zero (als_CP.cxx:427-430; als_Tucker.cxx:482-486) -/
  dtBegin : σ → Except Fault σ
  /-- a sweep of the dimension tree phase with `dW = W - W_prev; W_prev = W` (als_CP.cxx:506-599; als_Tucker.cxx:569-653) -/
  dtSweep : σ → Except Fault σ
  /-- `num_dw_break == V.order` (als_CP.cxx:593-604; als_Tucker.cxx:644-655) -/
  dtClose : σ → Except Fault Bool
  /-- `num_dw_break > 0` if not `bench` (als_CP.cxx:656-665; als_Tucker.cxx:724-733) -/
  ppFar : σ → Except Fault Bool
  /-- `W_init = W; dW = 0;` and the operators (als_CP.cxx:671-690; als_Tucker.cxx:739-765) -/
  ppBegin : σ → Except Fault σ
  /-- a sweep with the PP operators (als_CP.cxx:736-815, 942-1057; als_Tucker.cxx:830-889) -/
  ppSweep : σ → Except Fault σ
  /-- the measured quantity (gradient norm, or change of the norm of the core) and the residual
  (als_CP.cxx:466-486, 692-712; als_Tucker.cxx:530-556, 767-796) -/
  check : σ → Except Fault (σ × M × M)
  /-- what follows a test that does not stop: `core_prev = core` (als_Tucker.cxx:578, 828); nothing for CP -/
  accept : σ → Except Fault σ
  /-- end of a round of the driver: `if (tol_init > 5e-3) tol_init *= 0.9` (als_Tucker.cxx:943-944); nothing for CP -/
  endRound : σ → σ

/-- Arguments of the drivers (als_CP.cxx:1082-1085, 1146-1150; als_Tucker.cxx:906-908). -/
structure PPCfg where
  tucker : Bool
  tol : ℝ
  timelimit : ℝ
  maxiter : ℤ
  resprint : ℤ
  bench : Bool

/-- Events: start of a phase, sweeps, and lines of the log (`[iter]`, `[gradnorm]`, `[pp_update]`, `[diffV]`). -/
inductive PPEv (M : Type := ℝ)
  | dtStart
  | dtSweep
  | ppStart
  | ppSweep
  | row (iter : ℕ) (grad : M) (pp : Bool) (diffV : M)

/-- The variables of a driver: `iter`, `gradnorm` (`diffnorm` in Tucker), the number of time tests made so far, the data
and the history of events. -/
structure PPRun (σ : Type) (M : Type := ℝ) where
  iter : ℕ
  grad : M
  tests : ℕ
  st : σ
  trace : List (PPEv M)

/-- Is there a test at this iteration?  `alsCP_DT_sub` (als_CP.cxx:464), `alsTucker_DT_sub` (als_Tucker.cxx:528). -/
def dtChecked (c : PPCfg) (iter : ℕ) : Prop :=
  if c.tucker then (Int.tmod (iter : ℤ) c.resprint = 0 ∧ iter ≠ 0) ∨ iter = 1 ∨ (iter : ℤ) = c.maxiter
  else Int.tmod (iter : ℤ) c.resprint = 0 ∨ (iter : ℤ) = c.maxiter

/-- Is there a test at this iteration?  `alsCP_PP_sub`, `alsCP_PP_partupdate_sub` (als_CP.cxx:692, 941),
`alsTucker_PP_sub` (als_Tucker.cxx:768-769). -/
def ppChecked (c : PPCfg) (init iter : ℕ) : Prop := dtChecked c iter ∨ iter = init

open Classical in
/-- The test of an iteration and whether it leaves the loop (als_CP.cxx:464-504, 692-734; als_Tucker.cxx:528-579,
767-829).  `clock k` is the value of `MPI_Wtime() - st_time` in the `k`-th time test (all changes of `st_time` are absorbed
by this oracle).  `iter % 0` is undefined behaviour. -/
noncomputable def ppTest {σ : Type} (c : PPCfg) (h : PPHooks σ) (clock : ℕ → ℝ) (pp : Bool) (checked : Prop)
    (r : PPRun σ) : Except Fault (PPRun σ × Bool) :=
  if c.resprint = 0 then .error .ub
  else if checked then do
    let q ← h.check r.st
    let r' : PPRun σ := ⟨r.iter, q.2.1, r.tests + 1, q.1, r.trace ++ [.row r.iter q.2.1 pp q.2.2]⟩
    if q.2.1 < c.tol ∨ c.timelimit < clock r.tests ∨ (c.tucker = true ∧ pp = true ∧ (r.iter : ℤ) = c.maxiter) then
      pure (r', true)
    else do
      let st ← h.accept q.1
      pure ({ r' with st := st }, false)
  else .ok (r, false)

/-- The loop of `alsCP_DT_sub` / `alsTucker_DT_sub` (als_CP.cxx:462-609; als_Tucker.cxx:526-660).  A close sweep returns
without `iter++`. -/
noncomputable def dtSubLoop {σ : Type} (c : PPCfg) (h : PPHooks σ) (clock : ℕ → ℝ) :
    ℕ → PPRun σ → Except Fault (PPRun σ)
  | 0, _ => .error .diverge
  | fuel + 1, r =>
    if (r.iter : ℤ) ≤ c.maxiter then do
      let t ← ppTest c h clock false (dtChecked c r.iter) r
      if t.2 then pure t.1
      else do
        let st ← h.dtSweep t.1.st
        let r' : PPRun σ := { t.1 with st := st, trace := t.1.trace ++ [.dtSweep] }
        let close ← h.dtClose st
        if close then pure r'
        else dtSubLoop c h clock fuel { r' with iter := r'.iter + 1 }
    else .ok r

/-- `alsCP_DT_sub` (als_CP.cxx:418-612), `alsTucker_DT_sub` (als_Tucker.cxx:476-669). -/
noncomputable def dtSub {σ : Type} (c : PPCfg) (h : PPHooks σ) (clock : ℕ → ℝ) (fuel : ℕ) (r : PPRun σ) :
    Except Fault (PPRun σ) := do
  let st ← h.dtBegin r.st
  dtSubLoop c h clock fuel { r with st := st, trace := r.trace ++ [.dtStart] }

/-- `if (bench == true) iter++` (als_CP.cxx:830-831; als_Tucker.cxx:893-894). -/
def benchInc {σ : Type} (c : PPCfg) (r : PPRun σ) : PPRun σ := if c.bench then { r with iter := r.iter + 1 } else r

/-- The first pass of a PP phase sets up the operators (als_CP.cxx:668-690, 917-939; als_Tucker.cxx:735-765). -/
def ppEnter {σ : Type} (h : PPHooks σ) (init : ℕ) (r : PPRun σ) : Except Fault (PPRun σ) :=
  if r.iter = init then do
    let st ← h.ppBegin r.st
    pure { r with st := st, trace := r.trace ++ [.ppStart] }
  else .ok r

/-- The loop of `alsCP_PP_sub` (als_CP.cxx:654-829), `alsCP_PP_partupdate_sub` (als_CP.cxx:903-1069) and
`alsTucker_PP_sub` (als_Tucker.cxx:722-892); `init` is `init_iter`.  The CP versions also return after 15 sweeps.  A `return`
skips `benchInc`, a `break` does not. -/
noncomputable def ppSubLoop {σ : Type} (c : PPCfg) (h : PPHooks σ) (clock : ℕ → ℝ) (init : ℕ) :
    ℕ → PPRun σ → Except Fault (PPRun σ)
  | 0, _ => .error .diverge
  | fuel + 1, r =>
    if (r.iter : ℤ) ≤ c.maxiter then do
      let far ← (if c.bench then .ok false else h.ppFar r.st)
      if far || (c.tucker == false && r.iter != init && (r.iter - init) % 15 == 0) then pure r
      else do
        let r1 ← ppEnter h init r
        let t ← ppTest c h clock true (ppChecked c init r.iter) r1
        if t.2 then pure (benchInc c t.1)
        else do
          let st ← h.ppSweep t.1.st
          ppSubLoop c h clock init fuel
            { t.1 with st := st, trace := t.1.trace ++ [.ppSweep], iter := t.1.iter + 1 }
    else .ok (benchInc c r)

open Classical in
/-- The `while` loop of `alsCP_PP`, `alsCP_PP_partupdate`, `alsTucker_PP` (als_CP.cxx:1106-1124, 1174-1193;
als_Tucker.cxx:929-945).  `sub` is the fuel of the loops inside. -/
noncomputable def ppDriverLoop {σ : Type} (c : PPCfg) (h : PPHooks σ) (clock : ℕ → ℝ) (sub : ℕ) :
    ℕ → PPRun σ → Except Fault (PPRun σ)
  | 0, _ => .error .diverge
  | fuel + 1, r =>
    if c.tol < r.grad ∧ (r.iter : ℤ) ≤ c.maxiter then do
      let r ← (if c.bench then .ok r else dtSub c h clock sub r)
      let r ← ppSubLoop c h clock r.iter sub r
      ppDriverLoop c h clock sub fuel { r with st := h.endRound r.st }
    else .ok r

/-- `alsCP_PP`, `alsCP_PP_partupdate`, `alsTucker_PP` (als_CP.cxx:1082-1137, 1146-1207; als_Tucker.cxx:906-962): final
variables and returned value.  `fuel` bounds the number of passes of each loop.  `st` already contains `dW = 0`. -/
noncomputable def ppDriver {σ : Type} (c : PPCfg) (h : PPHooks σ) (clock : ℕ → ℝ) (fuel : ℕ) (st : σ) :
    Except Fault (PPRun σ × Bool) := do
  let r ← ppDriverLoop c h clock fuel fuel ⟨0, 10, 0, st, []⟩
  pure (r, decide (¬ (r.iter : ℤ) = c.maxiter + 1))

/-! ## The computations of `alsCP_PP` -/

/-- Data of `alsCP_PP` and of the running subroutine. -/
structure CPPPState where
  W : List (Tensor ℝ)
  G : List (Tensor ℝ)
  dW : List (Tensor ℝ)
  Wprev : List (Tensor ℝ)
  Winit : List (Tensor ℝ)
  ops : Cache ℝ

/-- A matrix of zeros with the shape of `W`. -/
def zerosLike {K : Type} [Zero K] (W : Tensor K) : Tensor K := ⟨W.lens, fun _ => 0⟩

open Classical in
/-- `abs(a / b) < t` for `a, b >= 0` in IEEE arithmetic: `x/0` is infinite or NaN, hence not less (als_CP.cxx:599). -/
noncomputable def quotLt (a b t : ℝ) : Bool := decide (b ≠ 0 ∧ a / b < t)

open Classical in
/-- `abs(a / b) > t` for `a, b >= 0` in IEEE arithmetic: `x/0` is infinite for `x > 0` and NaN for `x = 0`
(als_CP.cxx:662). -/
noncomputable def quotGt (a b t : ℝ) : Bool := decide ((b ≠ 0 ∧ t < a / b) ∨ (b = 0 ∧ a ≠ 0))

/-- The loop `for (i...) dW[i] = W[i] - W_prev[i]` (als_CP.cxx:594-596). -/
def diffs {K : Type} [Ring K] (N : ℕ) (W Wp : List (Tensor K)) : Except Fault (List (Tensor K)) :=
  (List.range N).mapM fun (i : ℕ) => do
    let a ← rd W i
    let b ← rd Wp i
    zipT (· - ·) a b

/-- The norm tests of all modes (als_CP.cxx:597-601, 659-664). -/
noncomputable def ratioTests (N : ℕ) (test : ℝ → ℝ → Bool) (W dW : List (Tensor ℝ)) : Except Fault (List Bool) :=
  (List.range N).mapM fun (i : ℕ) => do
    let d ← rd dW i
    let w ← rd W i
    pure (test (norm2 d) (norm2 w))

/-- The computations of `alsCP_PP`.  `legacySweep` with zero matrices `F` is the sweep of `alsCP_DT_sub`, where
`M += F` is commented out (als_CP.cxx:581). -/
noncomputable def cpPPHooks (same : Bool) (N rank : ℕ) (lam ratio tolInit : ℝ) (k : Kern ℝ) (V : Tensor ℝ) :
    PPHooks CPPPState where
  dtBegin s := .ok { s with Wprev := s.W.map zerosLike }
  dtSweep s := do
    let f ← legacySweep N rank lam (svdSolver k) V (s.W.map zerosLike) ⟨s.W, s.G⟩
    let d ← diffs N f.W s.Wprev
    pure { s with W := f.W, G := f.G, dW := d, Wprev := f.W }
  dtClose s := do
    let l ← ratioTests N (fun a b => quotLt a b tolInit) s.W s.dW
    pure (l.all id)
  ppFar s := do
    let l ← ratioTests N (fun a b => quotGt a b tolInit) s.W s.dW
    pure (l.any id)
  ppBegin s := do
    let ops ← ppOperators same N V s.W
    pure { s with Winit := s.W, dW := s.dW.map zerosLike, ops := ops }
  ppSweep s := do
    let t ← ppSweep N rank lam ratio k s.ops s.Winit ⟨s.W, s.G, s.dW⟩
    pure { s with W := t.W, G := t.G, dW := t.dW }
  check s := do
    let g ← gradnorm s.G N
    let d ← residual V s.W N
    pure (s, g, d)
  accept s := .ok s
  endRound s := s

/-- `alsCP_PP` (als_CP.cxx:1082-1137) on factors `W` and gradients `G` (`same`: see `stringbuilder0`). -/
noncomputable def alsCPPP (same : Bool) (N rank : ℕ) (lam ratio tolInit : ℝ) (k : Kern ℝ) (V : Tensor ℝ) (c : PPCfg)
    (clock : ℕ → ℝ) (fuel : ℕ) (W G : List (Tensor ℝ)) : Except Fault (PPRun CPPPState × Bool) :=
  ppDriver { c with tucker := false } (cpPPHooks same N rank lam ratio tolInit k V) clock fuel
    ⟨W, G, W.map zerosLike, [], [], []⟩

end Model
