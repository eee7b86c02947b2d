import Verif.Model.LegacyLoop
import Verif.Model.PPDriver

/-! # The legacy drivers on several MPI ranks (als_CP.cxx:20-320, 418-1207; als_Tucker.cxx:120-424, 476-962)

Every rank executes the same program.  Tensors, matrices and their norms are distributed: an operation on them is called by all
ranks, changes the common data and hands the same numbers to every rank.  The only local input of a rank is its clock. -/

namespace Model

/-- Operations of the drivers on the distributed data (`PPHooks`; the four older drivers use `check`, `accept`, `dtSweep`). -/
inductive DOp
  | dtBegin
  | dtSweep
  | dtClose
  | ppFar
  | ppBegin
  | ppSweep
  | check
  | accept
  | endRound

/-- What an operation returns to the ranks. -/
def DOp.Res : DOp → Type
  | .dtClose => Bool
  | .ppFar => Bool
  | .check => ℝ × ℝ
  | _ => Unit

/-- The program of a rank.  `late t` is the `t`-th comparison of the rank's clock with the limit. -/
inductive Prog (α : Type) : Type
  | ret (a : α)
  | fail (f : Fault)
  | late (t : ℕ) (k : Bool → Prog α)
  | call (op : DOp) (k : op.Res → Prog α)

/-- Sequential composition. -/
def Prog.andThen {α β : Type} : Prog α → (α → Prog β) → Prog β
  | .ret a, f => f a
  | .fail e, _ => .fail e
  | .late t k, f => .late t fun b => (k b).andThen f
  | .call op k, f => .call op fun v => (k v).andThen f

instance : Monad Prog where
  pure := .ret
  bind := .andThen

/-- The effect of the operations on data of type `σ`. -/
abbrev Exec (σ : Type) := (op : DOp) → σ → Except Fault (σ × op.Res)

/-- The computations of a pairwise perturbation driver as operations. -/
def ppExec {σ : Type} (h : PPHooks σ) : Exec σ
  | .dtBegin, s => (h.dtBegin s).map fun s => (s, ())
  | .dtSweep, s => (h.dtSweep s).map fun s => (s, ())
  | .dtClose, s => (h.dtClose s).map fun b => (s, b)
  | .ppFar, s => (h.ppFar s).map fun b => (s, b)
  | .ppBegin, s => (h.ppBegin s).map fun s => (s, ())
  | .ppSweep, s => (h.ppSweep s).map fun s => (s, ())
  | .check, s => (h.check s).map fun q => (q.1, q.2)
  | .accept, s => (h.accept s).map fun s => (s, ())
  | .endRound, s => .ok (h.endRound s, ())

/-- The computations of one of the four older drivers as operations; the others do not occur. -/
def llExec {σ : Type} (h : LLHooks σ) : Exec σ
  | .dtSweep, s => (h.sweep s).map fun s => (s, ())
  | .check, s => (h.check s).map fun q => (q.1, q.2)
  | .accept, s => (h.accept s).map fun s => (s, ())
  | .dtBegin, s => .ok (s, ())
  | .dtClose, s => .ok (s, false)
  | .ppFar, s => .ok (s, false)
  | .ppBegin, s => .ok (s, ())
  | .ppSweep, s => .ok (s, ())
  | .endRound, s => .ok (s, ())

/-- Run on a single rank; `clk t` is the outcome of the `t`-th time test. -/
def Prog.run {σ α : Type} (exec : Exec σ) (clk : ℕ → Bool) : Prog α → σ → Except Fault (σ × α)
  | .ret a, s => .ok (s, a)
  | .fail e, _ => .error e
  | .late t k, s => (k (clk t)).run exec clk s
  | .call op k, s => do
    let q ← exec op s
    (k q.2).run exec clk q.1

/-- The next thing a rank does that involves the other ranks.  `dtBegin`, `accept` and `endRound` copy or clear the rank's own
part of the data and change local numbers. -/
inductive Next
  | stop
  | failed
  | time
  | coll (op : DOp)

/-- See `Next`. -/
def Prog.next {α : Type} : Prog α → Next
  | .ret _ => .stop
  | .fail _ => .failed
  | .late _ _ => .time
  | .call .dtBegin k => (k ()).next
  | .call .accept k => (k ()).next
  | .call .endRound k => (k ()).next
  | .call .dtSweep _ => .coll .dtSweep
  | .call .dtClose _ => .coll .dtClose
  | .call .ppFar _ => .coll .ppFar
  | .call .ppBegin _ => .coll .ppBegin
  | .call .ppSweep _ => .coll .ppSweep
  | .call .check _ => .coll .check

/-- One rank calls a collective operation while the other has stopped or calls another one. -/
def Clash (a b : Next) : Prop := ∃ op, a = .coll op ∧ (b = .stop ∨ ∃ op', b = .coll op' ∧ op ≠ op')

/-- Result of a run on `P` ranks: all finish; an operation fails on all ranks; or two ranks call different collective operations
(`mismatch`), which MPI does not allow: it blocks or mixes up the data. -/
inductive Outcome (P : ℕ) (σ α : Type)
  | finished (st : σ) (res : Fin P → α)
  | fault (f : Fault)
  | mismatch

/-- Runs on `P` ranks, each with its own clock. -/
inductive Spmd {P : ℕ} {σ α : Type} (exec : Exec σ) (clk : Fin P → ℕ → Bool) :
    (Fin P → Prog α) → σ → Outcome P σ α → Prop
  | done {progs : Fin P → Prog α} {s : σ} {a : Fin P → α} (h : ∀ p, progs p = .ret (a p)) :
      Spmd exec clk progs s (.finished s a)
  | fail {progs : Fin P → Prog α} {s : σ} {f : Fault} (h : ∀ p, progs p = .fail f) :
      Spmd exec clk progs s (.fault f)
  | call {progs : Fin P → Prog α} {s s' : σ} {op : DOp} {k : Fin P → op.Res → Prog α} {v : op.Res} {o : Outcome P σ α}
      (h : ∀ p, progs p = .call op (k p)) (he : exec op s = .ok (s', v)) (rest : Spmd exec clk (fun p => k p v) s' o) :
      Spmd exec clk progs s o
  | error {progs : Fin P → Prog α} {s : σ} {op : DOp} {k : Fin P → op.Res → Prog α} {f : Fault}
      (h : ∀ p, progs p = .call op (k p)) (he : exec op s = .error f) : Spmd exec clk progs s (.fault f)
  | late {progs : Fin P → Prog α} {s : σ} {t : ℕ} {k : Fin P → Bool → Prog α} {o : Outcome P σ α}
      (h : ∀ p, progs p = .late t (k p)) (rest : Spmd exec clk (fun p => k p (clk p t)) s o) : Spmd exec clk progs s o
  | mismatch {progs : Fin P → Prog α} {s : σ} (p q : Fin P) (h : Clash (progs p).next (progs q).next)
      (hne : ¬ ∃ (op : DOp) (k : Fin P → op.Res → Prog α), ∀ p, progs p = .call op (k p)) : Spmd exec clk progs s .mismatch

/-! ## The four older drivers -/

/-- Local variables at the end: `iter`, the log, whether the loop was left by `break`, the returned value. -/
abbrev LLRes := ℕ × List (ℕ × ℝ × ℝ) × Bool × Bool

open Classical in
/-- The program of a rank in the loops of `alsCP`, `alsCP_DT`, `alsTucker`, `alsTucker_DT` (als_CP.cxx:45-114, 165-319;
als_Tucker.cxx:134-175, 289-423; `llLoop`).  The clock is read only if the measured quantity is not below `tol`
(`||` in als_CP.cxx:62, 211; als_Tucker.cxx:143, 335). -/
noncomputable def llProg (a : LLArgs) (checked : ℕ → Prop) : ℕ → ℕ → List (ℕ × ℝ × ℝ) → Prog LLRes
  | 0, _, _ => .fail .diverge
  | fuel + 1, iter, rows =>
    if (iter : ℤ) ≤ a.maxiter then
      if a.resprint = 0 then .fail .ub
      else if checked iter then
        .call .check fun q =>
          let rows := rows ++ [(iter, q.1, q.2)]
          let leave : Prog LLRes := .ret (iter, rows, true, decide (¬ (iter : ℤ) = a.maxiter + 1))
          if q.1 < a.tol then leave
          else .late iter fun b =>
            if b then leave else .call .accept fun _ => .call .dtSweep fun _ => llProg a checked fuel (iter + 1) rows
      else .call .dtSweep fun _ => llProg a checked fuel (iter + 1) rows
    else .ret (iter, rows, false, decide (¬ (iter : ℤ) = a.maxiter + 1))

/-! ## The pairwise perturbation drivers -/

/-- Local variables of a rank in a PP driver. -/
abbrev PPLoc := PPRun Unit

open Classical in
/-- `ppTest` as a program (als_CP.cxx:464-496, 692-750; als_Tucker.cxx:528-561, 767-820).  The clock is read only if the measured
quantity is not below `tol`.  The test `iter == maxiter` of als_Tucker.cxx:819 is made after reading the clock, but it does not
depend on it; here the clock is read only if that test does not decide. -/
noncomputable def ppTestProg (c : PPCfg) (pp : Bool) (checked : Prop) (r : PPLoc) : Prog (PPLoc × Bool) :=
  if c.resprint = 0 then .fail .ub
  else if checked then
    .call .check fun q =>
      let r' : PPLoc := ⟨r.iter, q.1, r.tests + 1, (), r.trace ++ [.row r.iter q.1 pp q.2]⟩
      if q.1 < c.tol ∨ (c.tucker = true ∧ pp = true ∧ (r.iter : ℤ) = c.maxiter) then .ret (r', true)
      else .late r.tests fun b => if b then .ret (r', true) else .call .accept fun _ => .ret (r', false)
  else .ret (r, false)

/-- `dtSubLoop` as a program (als_CP.cxx:462-609; als_Tucker.cxx:526-660). -/
noncomputable def dtSubProg (c : PPCfg) : ℕ → PPLoc → Prog PPLoc
  | 0, _ => .fail .diverge
  | fuel + 1, r =>
    if (r.iter : ℤ) ≤ c.maxiter then
      (ppTestProg c false (dtChecked c r.iter) r).andThen fun t =>
        if t.2 then .ret t.1
        else .call .dtSweep fun _ => .call .dtClose fun (close : Bool) =>
          let r' : PPLoc := { t.1 with trace := t.1.trace ++ [.dtSweep] }
          if close = true then .ret r' else dtSubProg c fuel { r' with iter := r'.iter + 1 }
    else .ret r

/-- `ppSubLoop` as a program (als_CP.cxx:654-831, 903-1071; als_Tucker.cxx:722-894). -/
noncomputable def ppSubProg (c : PPCfg) (init : ℕ) : ℕ → PPLoc → Prog PPLoc
  | 0, _ => .fail .diverge
  | fuel + 1, r =>
    if (r.iter : ℤ) ≤ c.maxiter then
      (if c.bench then .ret false else .call .ppFar fun (b : Bool) => .ret b : Prog Bool).andThen fun far =>
        if far || (c.tucker == false && r.iter != init && (r.iter - init) % 15 == 0) then .ret r
        else
          (if r.iter = init then .call .ppBegin fun _ => .ret { r with trace := r.trace ++ [.ppStart] }
            else .ret r : Prog PPLoc).andThen fun r1 =>
          (ppTestProg c true (ppChecked c init r.iter) r1).andThen fun t =>
            if t.2 then .ret (benchInc c t.1)
            else .call .ppSweep fun _ =>
              ppSubProg c init fuel { t.1 with trace := t.1.trace ++ [.ppSweep], iter := t.1.iter + 1 }
    else .ret (benchInc c r)

open Classical in
/-- `ppDriverLoop` as a program (als_CP.cxx:1106-1124, 1174-1193; als_Tucker.cxx:929-945). -/
noncomputable def ppLoopProg (c : PPCfg) (sub : ℕ) : ℕ → PPLoc → Prog PPLoc
  | 0, _ => .fail .diverge
  | fuel + 1, r =>
    if c.tol < r.grad ∧ (r.iter : ℤ) ≤ c.maxiter then
      (if c.bench then .ret r
        else .call .dtBegin fun _ => dtSubProg c sub { r with trace := r.trace ++ [.dtStart] } : Prog PPLoc).andThen fun r =>
      (ppSubProg c r.iter sub r).andThen fun r => .call .endRound fun _ => ppLoopProg c sub fuel r
    else .ret r

/-- `alsCP_PP`, `alsCP_PP_partupdate`, `alsTucker_PP` as programs of a rank (`ppDriver`). -/
noncomputable def ppProg (c : PPCfg) (fuel : ℕ) : Prog (PPLoc × Bool) :=
  (ppLoopProg c fuel fuel ⟨0, 10, 0, (), []⟩).andThen fun r => .ret (r, decide (¬ (r.iter : ℤ) = c.maxiter + 1))

/-- `MPI_Wtime() - st_time` at the first time test of a PP driver in `bench` mode, in which only rank 0 sets `st_time` back
(als_CP.cxx:736-738, 974-976; als_Tucker.cxx:804-806): `start` is the time of the initialisation of `st_time`
(als_CP.cxx:1094), `b` and `e` those before and after the computations of the test (als_CP.cxx:698, 720), `r` that of the
reset, `x` that of the comparison (als_CP.cxx:750). -/
def firstElapsed (rank0 : Bool) (start b e r x : ℝ) : ℝ := if rank0 then x - r else x - (start + (e - b))

end Model
