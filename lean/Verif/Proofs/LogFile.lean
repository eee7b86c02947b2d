import Verif.Model.LogFile
import Verif.Spec.Log
import Mathlib.Tactic.Linarith
import Mathlib.Data.List.Flatten

/-! # The loops with output are the loops without, and what they write -/

namespace Model

variable {M σ : Type}

/-- Write several lines. -/
def Stream.puts (w : Stream M) (l : List (LogLine M)) : Stream M := if w.isOpen then { w with lines := w.lines ++ l } else w

theorem puts_nil (w : Stream M) : w.puts [] = w := by
  obtain ⟨b, l⟩ := w
  unfold Stream.puts
  cases b <;> simp

theorem puts_puts (w : Stream M) (a b : List (LogLine M)) : (w.puts a).puts b = w.puts (a ++ b) := by
  obtain ⟨o, l⟩ := w
  unfold Stream.puts
  cases o <;> simp

theorem put_eq (w : Stream M) (a : LogLine M) : w.put a = w.puts [a] := rfl

/-- `b` computes what `a` computes, and a stream. -/
def Sim {α β : Type} (a : Except Fault α) (b : Except Fault β) (f : β → α) (P : β → Prop) : Prop :=
  (∃ e, a = .error e ∧ b = .error e) ∨ ∃ y, b = .ok y ∧ a = .ok (f y) ∧ P y

theorem sim_err {α β : Type} {f : β → α} {P : β → Prop} (e : Fault) : Sim (.error e) (.error e) f P := .inl ⟨e, rfl, rfl⟩

theorem sim_pure {α β : Type} {f : β → α} {P : β → Prop} {a : α} (y : β) (h : a = f y) (hP : P y) : Sim (.ok a) (.ok y) f P :=
  .inr ⟨y, rfl, by rw [h], hP⟩

theorem sim_bind {α β γ δ : Type} {a : Except Fault α} {b : Except Fault β} {f : β → α} {P : β → Prop} {k : α → Except Fault γ}
    {k' : β → Except Fault δ} {g : δ → γ} {Q : δ → Prop} (h : Sim a b f P) (hk : ∀ y, P y → Sim (k (f y)) (k' y) g Q) :
    Sim (a >>= k) (b >>= k') g Q := by
  rcases h with ⟨e, rfl, rfl⟩ | ⟨y, rfl, rfl, hp⟩
  · exact .inl ⟨e, rfl, rfl⟩
  · exact hk y hp

theorem sim_same {α γ δ : Type} {a : Except Fault α} {k : α → Except Fault γ} {k' : α → Except Fault δ} {g : δ → γ} {Q : δ → Prop}
    (hk : ∀ y, a = .ok y → Sim (k y) (k' y) g Q) : Sim (a >>= k) (a >>= k') g Q := by
  cases a with
  | error e => exact .inl ⟨e, rfl, rfl⟩
  | ok y => exact hk y rfl

theorem sim_ok {α β : Type} {a : Except Fault α} {b : Except Fault β} {f : β → α} {P : β → Prop} (h : Sim a b f P) {x : α}
    (ha : a = .ok x) : ∃ y, b = .ok y ∧ f y = x ∧ P y := by
  rcases h with ⟨e, h1, -⟩ | ⟨y, h1, h2, h3⟩
  · rw [ha] at h1; cases h1
  · rw [ha] at h2
    exact ⟨y, h1, (Except.ok.inj h2).symm, h3⟩

theorem sim_inv {α β : Type} {a : Except Fault α} {b : Except Fault β} {f : β → α} {P : β → Prop} (h : Sim a b f P) {y : β}
    (hb : b = .ok y) : a = .ok (f y) ∧ P y := by
  rcases h with ⟨e, -, h1⟩ | ⟨y', h1, h2, h3⟩
  · rw [hb] at h1; cases h1
  · rw [hb] at h1
    cases h1
    exact ⟨h2, h3⟩

/-! ## The lines of a test -/

/-- The lines of `putRow`. -/
def rowLines (e : LogEnv M) (iter : ℕ) (shown : ℚ) (m : M) (pp : Bool) (d : M) (k : ℕ) : List (LogLine M) :=
  if e.rank0 then
    .row e.dim shown m e.tol pp d (e.dtime k) :: if iter % 100 = 0 ∧ iter ≠ 0 then [.blank] else []
  else []

theorem putRow_eq (e : LogEnv M) (iter : ℕ) (shown : ℚ) (m : M) (pp : Bool) (d : M) (k : ℕ) (w : Stream M) :
    putRow e iter shown m pp d k w = w.puts (rowLines e iter shown m pp d k) := by
  unfold putRow rowLines
  by_cases h0 : e.rank0 = true
  · simp only [h0, if_true]
    by_cases h1 : iter % 100 = 0 ∧ iter ≠ 0
    · rw [if_pos h1, if_pos h1, put_eq, put_eq, puts_puts]; rfl
    · rw [if_neg h1, if_neg h1, put_eq]
  · simp only [h0, if_false, puts_nil, Bool.false_eq_true]

/-- The lines of `putTest`. -/
def testLines (e : LogEnv M) (iter : ℕ) (shown : ℚ) (m d : M) : List (LogLine M) :=
  if e.bench then if e.rank0 ∧ iter ≠ 0 then [.dtTime (e.dtime iter)] else []
  else rowLines e iter shown m false d iter

theorem putTest_eq (e : LogEnv M) (iter : ℕ) (shown : ℚ) (m d : M) (w : Stream M) :
    putTest e iter shown m d w = w.puts (testLines e iter shown m d) := by
  unfold putTest testLines
  by_cases hb : e.bench = true
  · simp only [hb, if_true]
    by_cases h1 : e.rank0 = true ∧ iter ≠ 0
    · rw [if_pos h1, if_pos h1]; rfl
    · rw [if_neg h1, if_neg h1, puts_nil]
  · simp only [hb, if_false, Bool.false_eq_true]
    exact putRow_eq _ _ _ _ _ _ _ _

/-- The lines of `putTestT`. -/
def testLinesT (e : LogEnv M) (iter : ℕ) (shown : ℚ) (m d : M) : List (LogLine M) :=
  if e.bench then if e.rank0 then [.dtTime (e.dtime iter)] else []
  else rowLines e iter shown m false d iter

theorem putTestT_eq (e : LogEnv M) (iter : ℕ) (shown : ℚ) (m d : M) (w : Stream M) :
    putTestT e iter shown m d w = w.puts (testLinesT e iter shown m d) := by
  unfold putTestT testLinesT
  by_cases hb : e.bench = true
  · simp only [hb, if_true]
    by_cases h1 : e.rank0 = true
    · rw [if_pos h1, if_pos h1]; rfl
    · rw [if_neg h1, if_neg h1, puts_nil]
  · simp only [hb, if_false, Bool.false_eq_true]
    exact putRow_eq _ _ _ _ _ _ _ _

/-! ## `CPD::als` -/

theorem alsLoopL_sim (e : LogEnv M) (t : Cmp M) (ms rp : ℤ) (step : σ → Except Fault σ) (inc : ℚ) (check : σ → Except Fault (M × M))
    (w0 : Stream M) : ∀ (fuel it : ℕ) (sw : ℚ) (st : σ) (rows : List (AlsRow M)),
      Sim (alsLoopC t ms rp step inc check fuel it sw st rows)
        (alsLoopL e t ms rp step inc check fuel it sw st rows
          (w0.puts (rows.flatMap fun r => testLines e r.iter r.sweeps r.gradnorm r.diffV)))
        Prod.fst (fun y => y.2 = w0.puts (y.1.rows.flatMap fun r => testLines e r.iter r.sweeps r.gradnorm r.diffV)) := by
  intro fuel
  induction fuel with
  | zero => intros; exact sim_err _
  | succ fuel ih =>
    intro it sw st rows
    unfold alsLoopC alsLoopL
    by_cases h1 : ⌊sw⌋ ≤ ms
    · rw [if_pos h1, if_pos h1]
      by_cases h2 : rp = 0
      · rw [if_pos h2, if_pos h2]; exact sim_err _
      rw [if_neg h2, if_neg h2]
      by_cases h3 : Int.tmod (it : ℤ) rp = 0 ∨ (ms : ℚ) ≤ sw ∨ sw = 0
      · rw [if_pos h3, if_pos h3]
        refine sim_same fun c _ => ?_
        simp only [putTest_eq, puts_puts]
        rw [show (rows.flatMap fun r => testLines e r.iter r.sweeps r.gradnorm r.diffV) ++ testLines e it sw c.1 c.2 =
          ((rows ++ [(⟨it, sw, c.1, c.2⟩ : AlsRow M)]).flatMap fun (r : AlsRow M) => testLines e r.iter r.sweeps r.gradnorm r.diffV) by
            rw [List.flatMap_append, List.flatMap_cons, List.flatMap_nil, List.append_nil]]
        by_cases h4 : t.below c.1 ∨ t.late it
        · rw [if_pos h4, if_pos h4]
          exact sim_pure _ rfl rfl
        · rw [if_neg h4, if_neg h4]
          exact sim_same fun st' _ => ih _ _ _ _
      · rw [if_neg h3, if_neg h3]
        exact sim_same fun st' _ => ih _ _ _ _
    · rw [if_neg h1, if_neg h1]
      exact sim_pure _ rfl rfl

/-! ## The legacy loops -/

theorem llLoopL_sim (put : ℕ → ℚ → M → M → Stream M → Stream M) (L : ℕ → ℚ → M → M → List (LogLine M))
    (hp : ∀ i s m d w, put i s m d w = w.puts (L i s m d)) (t : Cmp M) (mi rp : ℤ) (h : LLHooks σ M) (w0 : Stream M) :
    ∀ (fuel it : ℕ) (st : σ) (rows : List (ℕ × M × M)),
      Sim (llLoopC t mi rp h fuel it st rows)
        (llLoopL put t mi rp h fuel it st rows (w0.puts (rows.flatMap fun r => L r.1 r.1 r.2.1 r.2.2)))
        Prod.fst (fun y => y.2 = w0.puts (y.1.rows.flatMap fun r => L r.1 r.1 r.2.1 r.2.2)) := by
  intro fuel
  induction fuel with
  | zero => intros; exact sim_err _
  | succ fuel ih =>
    intro it st rows
    unfold llLoopC llLoopL
    by_cases h1 : (it : ℤ) ≤ mi
    · rw [if_pos h1, if_pos h1]
      by_cases h2 : rp = 0
      · rw [if_pos h2, if_pos h2]; exact sim_err _
      rw [if_neg h2, if_neg h2]
      by_cases h3 : h.checked it
      · rw [if_pos h3, if_pos h3]
        refine sim_same fun c _ => ?_
        simp only [hp, puts_puts]
        rw [show (rows.flatMap fun r => L r.1 r.1 r.2.1 r.2.2) ++ L it it c.2.1 c.2.2 =
          ((rows ++ [(it, c.2.1, c.2.2)]).flatMap fun r => L r.1 r.1 r.2.1 r.2.2) by
            rw [List.flatMap_append, List.flatMap_cons, List.flatMap_nil, List.append_nil]]
        by_cases h4 : t.below c.2.1 ∨ t.late it
        · rw [if_pos h4, if_pos h4]
          exact sim_pure _ rfl rfl
        · rw [if_neg h4, if_neg h4]
          exact sim_same fun st' _ => sim_same fun st'' _ => ih _ _ _
      · rw [if_neg h3, if_neg h3]
        exact sim_same fun st' _ => ih _ _ _
    · rw [if_neg h1, if_neg h1]
      exact sim_pure _ rfl rfl

/-! ## The pairwise perturbation drivers -/

/-- New value of `dtime_first` and the lines of a test. -/
noncomputable def ppLines (e : LogEnv M) (mi : ℤ) (pp : Bool) (iter : ℕ) (m d : M) (k : ℕ) (first : ℝ) : ℝ × List (LogLine M) :=
  if pp ∧ e.bench then
    if e.rank0 ∧ (iter : ℤ) ≠ mi then (e.dtime k, [])
    else if e.rank0 ∧ (iter : ℤ) = mi then (first + e.dtime k, [.ppFirst (first + e.dtime k), .ppSecond (e.dtime k)])
    else (first, [])
  else (first, rowLines e iter iter m pp d k)

theorem putTestPP_eq (e : LogEnv M) (mi : ℤ) (pp : Bool) (iter : ℕ) (m d : M) (k : ℕ) (first : ℝ) (w : Stream M) :
    putTestPP e mi pp iter m d k first w =
      ((ppLines e mi pp iter m d k first).1, w.puts (ppLines e mi pp iter m d k first).2) := by
  unfold putTestPP ppLines
  split
  · split
    · rw [puts_nil]
    · split
      · rw [put_eq, put_eq, puts_puts]; rfl
      · rw [puts_nil]
  · rw [putRow_eq]

/-- Replay of an event: number of tests, `dtime_first`, lines. -/
noncomputable def replayEv (e : LogEnv M) (mi : ℤ) (s : ℕ × ℝ × List (LogLine M)) : PPEv M → ℕ × ℝ × List (LogLine M)
  | .ppStart => (s.1, 0, s.2.2)
  | .row it g pp d =>
    (s.1 + 1, (ppLines e mi pp it g d s.1 s.2.1).1, s.2.2 ++ (ppLines e mi pp it g d s.1 s.2.1).2)
  | _ => s

noncomputable def replay (e : LogEnv M) (mi : ℤ) (tr : List (PPEv M)) : ℕ × ℝ × List (LogLine M) := tr.foldl (replayEv e mi) (0, 0, [])

theorem replay_snoc (e : LogEnv M) (mi : ℤ) (tr : List (PPEv M)) (v : PPEv M) :
    replay e mi (tr ++ [v]) = replayEv e mi (replay e mi tr) v := by
  unfold replay
  rw [List.foldl_append]
  rfl

/-- The stream holds what the events so far wrote. -/
structure Logged (e : LogEnv M) (mi : ℤ) (w0 : Stream M) (x : PPLog σ M) : Prop where
  tests : (replay e mi x.run.trace).1 = x.run.tests
  first : (replay e mi x.run.trace).2.1 = x.first
  out : x.out = w0.puts (replay e mi x.run.trace).2.2

/-- As `Logged`, before the operators of a phase are built. -/
structure LoggedS (e : LogEnv M) (mi : ℤ) (w0 : Stream M) (r : PPRun σ M) (o : Stream M) : Prop where
  tests : (replay e mi r.trace).1 = r.tests
  out : o = w0.puts (replay e mi r.trace).2.2

theorem ppTestL_sim {e : LogEnv M} {t : Cmp M} {c : PPCtl} {h : PPHooks σ M} {w0 : Stream M} (pp : Bool) (checked : Prop) {x : PPLog σ M}
    (hx : Logged e c.maxiter w0 x) :
    Sim (ppTestC t c h pp checked x.run) (ppTestL e t c h pp checked x) (fun u => (u.1.run, u.2))
      (fun u => Logged e c.maxiter w0 u.1 ∧ u.1.run.iter = x.run.iter) := by
  unfold ppTestC ppTestL
  by_cases h1 : c.resprint = 0
  · rw [if_pos h1, if_pos h1]; exact sim_err _
  rw [if_neg h1, if_neg h1]
  by_cases h2 : checked
  · rw [if_pos h2, if_pos h2]
    refine sim_same fun q _ => ?_
    have key : ∀ st, Logged e c.maxiter w0
        (⟨⟨x.run.iter, q.2.1, x.run.tests + 1, st, x.run.trace ++ [.row x.run.iter q.2.1 pp q.2.2]⟩,
          (putTestPP e c.maxiter pp x.run.iter q.2.1 q.2.2 x.run.tests x.first x.out).1,
          (putTestPP e c.maxiter pp x.run.iter q.2.1 q.2.2 x.run.tests x.first x.out).2⟩ : PPLog σ M) := by
      intro st
      refine ⟨?_, ?_, ?_⟩
      · simp only [replay_snoc, replayEv, hx.tests]
      · simp only [replay_snoc, replayEv, hx.tests, hx.first, putTestPP_eq]
      · simp only [replay_snoc, replayEv, hx.tests, hx.first, putTestPP_eq]
        rw [hx.out, puts_puts]
    simp only
    split_ifs with h3
    · exact sim_pure _ rfl ⟨key _, rfl⟩
    · exact sim_same fun st _ => sim_pure _ rfl ⟨key _, rfl⟩
  · rw [if_neg h2, if_neg h2]
    exact sim_pure _ rfl ⟨hx, rfl⟩

theorem Logged.ev {e : LogEnv M} {mi : ℤ} {w0 : Stream M} {x : PPLog σ M} (h : Logged e mi w0 x) {v : PPEv M}
    (hv : ∀ s, replayEv e mi s v = s) {r : PPRun σ M} (hr : r.trace = x.run.trace ++ [v]) (ht : r.tests = x.run.tests) :
    Logged e mi w0 { x with run := r } := by
  have hre : replay e mi r.trace = replay e mi x.run.trace := by rw [hr, replay_snoc, hv]
  exact ⟨by simp only [hre, ht, h.tests], by simp only [hre, h.first], by simp only [hre, h.out]⟩

theorem ppTestL_simS {e : LogEnv M} {t : Cmp M} {c : PPCtl} {h : PPHooks σ M} {w0 : Stream M} (checked : Prop) {x : PPLog σ M}
    (hx : LoggedS e c.maxiter w0 x.run x.out) :
    Sim (ppTestC t c h false checked x.run) (ppTestL e t c h false checked x) (fun u => (u.1.run, u.2))
      (fun u => LoggedS e c.maxiter w0 u.1.run u.1.out) := by
  unfold ppTestC ppTestL
  by_cases h1 : c.resprint = 0
  · rw [if_pos h1, if_pos h1]; exact sim_err _
  rw [if_neg h1, if_neg h1]
  by_cases h2 : checked
  · rw [if_pos h2, if_pos h2]
    refine sim_same fun q _ => ?_
    have key : ∀ st : σ, LoggedS e c.maxiter w0
        (⟨x.run.iter, q.2.1, x.run.tests + 1, st, x.run.trace ++ [.row x.run.iter q.2.1 false q.2.2]⟩ : PPRun σ M)
        (putTestPP e c.maxiter false x.run.iter q.2.1 q.2.2 x.run.tests x.first x.out).2 := by
      intro st
      refine ⟨?_, ?_⟩
      · simp only [replay_snoc, replayEv, hx.tests]
      · simp only [replay_snoc, replayEv, hx.tests, putTestPP_eq]
        rw [hx.out, puts_puts]
        simp only [ppLines, Bool.false_eq_true, false_and, if_false]
    simp only
    split_ifs with h3
    · exact sim_pure _ rfl (key _)
    · exact sim_same fun st _ => sim_pure _ rfl (key _)
  · rw [if_neg h2, if_neg h2]
    exact sim_pure _ rfl hx

theorem LoggedS.ev {e : LogEnv M} {mi : ℤ} {w0 : Stream M} {r0 : PPRun σ M} {o : Stream M} (h : LoggedS e mi w0 r0 o) {v : PPEv M}
    (hv : ∀ s, replayEv e mi s v = s) {r : PPRun σ M} (hr : r.trace = r0.trace ++ [v]) (ht : r.tests = r0.tests) :
    LoggedS e mi w0 r o := by
  have hre : replay e mi r.trace = replay e mi r0.trace := by rw [hr, replay_snoc, hv]
  exact ⟨by rw [hre, ht, h.tests], by rw [hre, h.out]⟩

theorem dtSubLoopL_sim {e : LogEnv M} {t : Cmp M} {c : PPCtl} {h : PPHooks σ M} {w0 : Stream M} :
    ∀ (fuel : ℕ) {x : PPLog σ M}, LoggedS e c.maxiter w0 x.run x.out →
      Sim (dtSubLoopC t c h fuel x.run) (dtSubLoopL e t c h fuel x) PPLog.run (fun y => LoggedS e c.maxiter w0 y.run y.out) := by
  intro fuel
  induction fuel with
  | zero => intros; exact sim_err _
  | succ fuel ih =>
    intro x hx
    unfold dtSubLoopC dtSubLoopL
    by_cases h1 : (x.run.iter : ℤ) ≤ c.maxiter
    · rw [if_pos h1, if_pos h1]
      refine sim_bind (ppTestL_simS _ hx) fun u hu => ?_
      beta_reduce
      by_cases h2 : u.2 = true
      · rw [if_pos h2, if_pos h2]; exact sim_pure _ rfl hu
      · rw [if_neg h2, if_neg h2]
        refine sim_same fun st _ => sim_same fun cl _ => ?_
        by_cases h3 : cl = true
        · rw [if_pos h3, if_pos h3]
          exact sim_pure _ rfl (hu.ev (v := .dtSweep) (fun _ => rfl) rfl rfl)
        · rw [if_neg h3, if_neg h3]
          exact ih (x := { u.1 with run := _ }) (hu.ev (v := .dtSweep) (fun _ => rfl) rfl rfl)
    · rw [if_neg h1, if_neg h1]; exact sim_pure _ rfl hx

theorem dtSubL_simS {e : LogEnv M} {t : Cmp M} {c : PPCtl} {h : PPHooks σ M} {w0 : Stream M} (fuel : ℕ) {x : PPLog σ M}
    (hx : LoggedS e c.maxiter w0 x.run x.out) :
    Sim (dtSubC t c h fuel x.run) (dtSubL e t c h fuel x) PPLog.run (fun y => LoggedS e c.maxiter w0 y.run y.out) := by
  unfold dtSubC dtSubL
  exact sim_same fun st _ => dtSubLoopL_sim fuel (x := { x with run := _ }) (hx.ev (v := .dtStart) (fun _ => rfl) rfl rfl)

theorem benchIncC_trace (c : PPCtl) (r : PPRun σ M) : (benchIncC c r).trace = r.trace := by unfold benchIncC; split <;> rfl
theorem benchIncC_tests (c : PPCtl) (r : PPRun σ M) : (benchIncC c r).tests = r.tests := by unfold benchIncC; split <;> rfl

theorem LoggedS.inc {e : LogEnv M} {mi : ℤ} {w0 : Stream M} {r : PPRun σ M} {o : Stream M} (h : LoggedS e mi w0 r o) (c : PPCtl) :
    LoggedS e mi w0 (benchIncC c r) o :=
  ⟨by rw [benchIncC_trace, benchIncC_tests]; exact h.tests, by rw [benchIncC_trace]; exact h.out⟩

theorem Logged.s {e : LogEnv M} {mi : ℤ} {w0 : Stream M} {x : PPLog σ M} (h : Logged e mi w0 x) : LoggedS e mi w0 x.run x.out :=
  ⟨h.tests, h.out⟩

theorem ppSubLoopL_sim {e : LogEnv M} {t : Cmp M} {c : PPCtl} {h : PPHooks σ M} {w0 : Stream M} (init : ℕ) :
    ∀ (fuel : ℕ) {x : PPLog σ M}, LoggedS e c.maxiter w0 x.run x.out → (x.run.iter = init → x.first = 0) →
      (x.run.iter ≠ init → Logged e c.maxiter w0 x) → init ≤ x.run.iter →
      Sim (ppSubLoopC t c h init fuel x.run) (ppSubLoopL e t c h init fuel x) PPLog.run
        (fun y => LoggedS e c.maxiter w0 y.run y.out) := by
  intro fuel
  induction fuel with
  | zero => intros; exact sim_err _
  | succ fuel ih =>
    intro x hs h0 hne hle
    unfold ppSubLoopC ppSubLoopL
    by_cases h1 : (x.run.iter : ℤ) ≤ c.maxiter
    · rw [if_pos h1, if_pos h1]
      refine sim_same fun far _ => ?_
      by_cases h2 : (far || (c.tucker == false && x.run.iter != init && (x.run.iter - init) % 15 == 0)) = true
      · rw [if_pos h2, if_pos h2]; exact sim_pure _ rfl hs
      rw [if_neg h2, if_neg h2]
      refine sim_same fun r1 hr1 => ?_
      have hx1 : Logged e c.maxiter w0 { x with run := r1 } ∧ r1.iter = x.run.iter := by
        unfold ppEnterC at hr1
        by_cases hi : x.run.iter = init
        · rw [if_pos hi] at hr1
          cases hb : h.ppBegin x.run.st with
          | error er => rw [hb] at hr1; cases hr1
          | ok st =>
            rw [hb] at hr1
            have := Except.ok.inj hr1
            subst this
            refine ⟨⟨?_, ?_, ?_⟩, rfl⟩
            · simp only [replay_snoc, replayEv, hs.tests]
            · simp only [replay_snoc, replayEv, h0 hi]
            · simp only [replay_snoc, replayEv]
              exact hs.out
        · rw [if_neg hi] at hr1
          have := Except.ok.inj hr1
          subst this
          exact ⟨hne hi, rfl⟩
      refine sim_bind (ppTestL_sim true _ hx1.1) fun u ⟨hu, hui⟩ => ?_
      beta_reduce
      by_cases h3 : u.2 = true
      · rw [if_pos h3, if_pos h3]
        exact sim_pure _ rfl (hu.s.inc c)
      · rw [if_neg h3, if_neg h3]
        refine sim_same fun st _ => ?_
        have hl : Logged e c.maxiter w0
            { u.1 with run := { u.1.run with st := st, trace := u.1.run.trace ++ [.ppSweep], iter := u.1.run.iter + 1 } } :=
          hu.ev (v := .ppSweep) (fun _ => rfl) rfl rfl
        have hge : init ≤ u.1.run.iter := by
          rw [hui]
          simp only
          rw [hx1.2]
          exact hle
        exact ih (x := { u.1 with run := _ }) hl.s (fun he => by simp only at he; omega) (fun _ => hl) (by simp only; omega)
    · rw [if_neg h1, if_neg h1]
      exact sim_pure _ rfl (hs.inc c)

theorem ppDriverLoopL_sim {e : LogEnv M} {t : Cmp M} {c : PPCtl} {h : PPHooks σ M} {w0 : Stream M} (sub : ℕ) :
    ∀ (fuel : ℕ) {x : PPRun σ M × Stream M}, LoggedS e c.maxiter w0 x.1 x.2 →
      Sim (ppDriverLoopC t c h sub fuel x.1) (ppDriverLoopL e t c h sub fuel x) Prod.fst
        (fun y => LoggedS e c.maxiter w0 y.1 y.2) := by
  intro fuel
  induction fuel with
  | zero => intros; exact sim_err _
  | succ fuel ih =>
    intro x hx
    unfold ppDriverLoopC ppDriverLoopL
    by_cases h1 : t.above x.1.grad ∧ (x.1.iter : ℤ) ≤ c.maxiter
    · rw [if_pos h1, if_pos h1]
      refine sim_bind (f := PPLog.run) (P := fun y => LoggedS e c.maxiter w0 y.run y.out) ?_ fun y hy => ?_
      · by_cases hb : c.bench = true
        · rw [if_pos hb, if_pos hb]
          exact sim_pure _ rfl hx
        · rw [if_neg hb, if_neg hb]
          exact dtSubL_simS sub (x := ⟨x.1, 0, x.2⟩) hx
      · refine sim_bind (ppSubLoopL_sim y.run.iter sub (x := { y with first := 0 }) hy (fun _ => rfl) (fun h => absurd rfl h) le_rfl)
          fun z hz => ?_
        exact ih (x := (_, _)) ⟨hz.tests, hz.out⟩
    · rw [if_neg h1, if_neg h1]
      exact sim_pure _ rfl hx

/-! ## Closed forms -/

/-- The row of an event. -/
def rowOf : PPEv M → Option (ℕ × M × Bool × M)
  | .row it g pp d => some (it, g, pp, d)
  | _ => none

/-- The rows of a history. -/
def rowsOf (tr : List (PPEv M)) : List (ℕ × M × Bool × M) := tr.filterMap rowOf

theorem rowsOf_snoc (tr : List (PPEv M)) (v : PPEv M) : rowsOf (tr ++ [v]) = rowsOf tr ++ (rowOf v).toList := by
  unfold rowsOf
  rw [List.filterMap_append]
  cases h : rowOf v <;> simp [h]

theorem replay_count (e : LogEnv M) (mi : ℤ) (tr : List (PPEv M)) : (replay e mi tr).1 = (rowsOf tr).length := by
  induction tr using List.reverseRecOn with
  | nil => rfl
  | append_singleton tr v ih =>
    rw [replay_snoc, rowsOf_snoc, List.length_append, ← ih]
    cases v <;> rfl

theorem logText_append {ρ L : Type} (iter : ρ → ℕ) (line : ρ → L) (blank : L) (a b : List ρ) :
    Spec.logText iter line blank (a ++ b) = Spec.logText iter line blank a ++ Spec.logText iter line blank b := by
  unfold Spec.logText
  exact List.flatMap_append

theorem rowLines_spec {e : LogEnv M} (h0 : e.rank0 = true) (iter : ℕ) (shown : ℚ) (m : M) (pp : Bool) (d : M) (k : ℕ) :
    rowLines e iter shown m pp d k =
      if 100 ∣ iter ∧ 0 < iter then [.row e.dim shown m e.tol pp d (e.dtime k), .blank]
      else [.row e.dim shown m e.tol pp d (e.dtime k)] := by
  unfold rowLines
  rw [if_pos h0]
  have : (iter % 100 = 0 ∧ iter ≠ 0) ↔ (100 ∣ iter ∧ 0 < iter) := by omega
  by_cases h : 100 ∣ iter ∧ 0 < iter
  · rw [if_pos h, if_pos (this.2 h)]
  · rw [if_neg h, if_neg (fun h' => h (this.1 h'))]

/-- Without `bench`: the rows with the times of their tests. -/
theorem replay_rows {e : LogEnv M} (h0 : e.rank0 = true) (hb : e.bench = false) (mi : ℤ) (tr : List (PPEv M)) :
    (replay e mi tr).2.2 = Spec.logText (fun r => r.1.1)
      (fun r => LogLine.row e.dim r.1.1 r.1.2.1 e.tol r.1.2.2.1 r.1.2.2.2 (e.dtime r.2)) .blank (rowsOf tr).zipIdx := by
  induction tr using List.reverseRecOn with
  | nil => rfl
  | append_singleton tr v ih =>
    rw [replay_snoc, rowsOf_snoc]
    cases v with
    | row it g pp d =>
      simp only [replayEv, rowOf, Option.toList_some, List.zipIdx_append, logText_append, ih]
      congr 1
      simp only [ppLines, hb, Bool.false_eq_true, and_false, if_false, rowLines_spec h0, replay_count, Spec.logText, List.zipIdx_cons,
        List.zipIdx_nil, List.flatMap_cons, List.flatMap_nil, List.append_nil, zero_add]
    | _ => simp only [replayEv, rowOf, Option.toList_none, List.append_nil, ih]

/-- On the other ranks nothing is written. -/
theorem replay_others {e : LogEnv M} (h0 : e.rank0 = false) (mi : ℤ) (tr : List (PPEv M)) : (replay e mi tr).2.2 = [] := by
  induction tr using List.reverseRecOn with
  | nil => rfl
  | append_singleton tr v ih =>
    rw [replay_snoc]
    cases v with
    | row it g pp d =>
      simp only [replayEv, ih, ppLines, h0, Bool.false_eq_true, false_and, if_false, rowLines]
      split <;> rfl
    | _ => simp only [replayEv, ih]

/-- Tests made since the operators were built. -/
def phaseTests (tr : List (PPEv M)) : ℕ :=
  tr.foldl (fun n v => match v with | .ppStart => 0 | .row _ _ _ _ => n + 1 | _ => n) 0

theorem phaseTests_snoc (tr : List (PPEv M)) (v : PPEv M) :
    phaseTests (tr ++ [v]) = match v with | .ppStart => 0 | .row _ _ _ _ => phaseTests tr + 1 | _ => phaseTests tr := by
  unfold phaseTests
  rw [List.foldl_append]
  rfl

/-- With `bench`, before any test at iteration `maxiter`. -/
theorem replay_before {e : LogEnv M} (h0 : e.rank0 = true) (hb : e.bench = true) {mi : ℤ} (tr : List (PPEv M))
    (h : ∀ r ∈ rowsOf tr, (r.1 : ℤ) ≠ mi ∧ r.2.2.1 = true) :
    (replay e mi tr).2 = (if phaseTests tr = 0 then 0 else e.dtime ((rowsOf tr).length - 1), []) := by
  induction tr using List.reverseRecOn with
  | nil => rfl
  | append_singleton tr v ih =>
    have ih := ih fun r hr => h r (by rw [rowsOf_snoc]; exact List.mem_append_left _ hr)
    rw [replay_snoc]
    cases v with
    | row it g pp d =>
      have hv := h (it, g, pp, d) (by rw [rowsOf_snoc]; exact List.mem_append_right _ (by simp [rowOf]))
      simp only at hv
      obtain ⟨v1, rfl⟩ := hv
      simp only [replayEv, ppLines, hb, h0, v1, ne_eq, not_false_iff, and_self, if_true, ih, List.append_nil, rowsOf_snoc, rowOf,
        Option.toList_some, List.length_append, List.length_cons, List.length_nil, replay_count, phaseTests_snoc]
      rw [if_neg (by omega)]
      simp
    | ppStart =>
      simp only [replayEv, ih, phaseTests_snoc, if_true]
    | dtStart => simp only [replayEv, ih, phaseTests_snoc, rowsOf_snoc, rowOf,
        Option.toList_none, List.append_nil]
    | dtSweep => simp only [replayEv, ih, phaseTests_snoc, rowsOf_snoc, rowOf,
        Option.toList_none, List.append_nil]
    | ppSweep => simp only [replayEv, ih, phaseTests_snoc, rowsOf_snoc, rowOf,
        Option.toList_none, List.append_nil]

theorem replay_quiet (e : LogEnv M) (mi : ℤ) (tr : List (PPEv M)) {tr2 : List (PPEv M)} (h : rowsOf tr2 = []) :
    (replay e mi (tr ++ tr2)).2.2 = (replay e mi tr).2.2 := by
  induction tr2 using List.reverseRecOn with
  | nil => rw [List.append_nil]
  | append_singleton tr2 v ih =>
    rw [rowsOf_snoc, List.append_eq_nil_iff] at h
    rw [← List.append_assoc, replay_snoc, ← ih h.1]
    cases v with
    | row it g pp d => simp [rowOf] at h
    | _ => rfl

/-- With `bench`: the two lines of the test at iteration `maxiter`. -/
theorem replay_bench {e : LogEnv M} (h0 : e.rank0 = true) (hb : e.bench = true) {mi : ℤ} {tr tr2 : List (PPEv M)} {it : ℕ} {g d : M}
    (h : ∀ r ∈ rowsOf tr, (r.1 : ℤ) ≠ mi ∧ r.2.2.1 = true) (hit : (it : ℤ) = mi) (h2 : rowsOf tr2 = []) :
    (replay e mi (tr ++ .row it g true d :: tr2)).2.2 =
      [.ppFirst ((if phaseTests tr = 0 then 0 else e.dtime ((rowsOf tr).length - 1)) + e.dtime (rowsOf tr).length),
        .ppSecond (e.dtime (rowsOf tr).length)] := by
  rw [show tr ++ PPEv.row it g true d :: tr2 = (tr ++ [PPEv.row it g true d]) ++ tr2 by simp, replay_quiet _ _ _ h2, replay_snoc]
  have hr := replay_before h0 hb tr h
  simp only [replayEv, ppLines, hb, h0, hit, ne_eq, not_true, and_false, and_self, if_true, if_false, hr, replay_count, List.nil_append]

/-! ## Benchmark runs test each iteration at most once -/

/-- All tests so far were made at increasing iterations below `n`, not beyond `mi`, in the pairwise perturbation phase. -/
def TestsUpTo (mi : ℤ) (tr : List (PPEv M)) (n : ℕ) : Prop :=
  (rowsOf tr).Pairwise (fun a b => a.1 < b.1) ∧ ∀ r ∈ rowsOf tr, r.1 < n ∧ (r.1 : ℤ) ≤ mi ∧ r.2.2.1 = true

theorem TestsUpTo.mono {mi : ℤ} {tr : List (PPEv M)} {n m : ℕ} (h : TestsUpTo mi tr n) (hm : n ≤ m) : TestsUpTo mi tr m :=
  ⟨h.1, fun r hr => ⟨by have := (h.2 r hr).1; omega, (h.2 r hr).2⟩⟩

theorem TestsUpTo.ev {mi : ℤ} {tr : List (PPEv M)} {n : ℕ} (h : TestsUpTo mi tr n) {v : PPEv M} (hv : rowOf v = none) :
    TestsUpTo mi (tr ++ [v]) n := by
  unfold TestsUpTo
  rw [rowsOf_snoc, hv]
  simpa [TestsUpTo] using h

theorem TestsUpTo.row {mi : ℤ} {tr : List (PPEv M)} {n : ℕ} (h : TestsUpTo mi tr n) (hn : (n : ℤ) ≤ mi) (g d : M) :
    TestsUpTo mi (tr ++ [.row n g true d]) (n + 1) := by
  unfold TestsUpTo
  rw [rowsOf_snoc]
  refine ⟨?_, ?_⟩
  · rw [List.pairwise_append]
    refine ⟨h.1, by simp [rowOf], fun a ha b hb => ?_⟩
    simp only [rowOf, Option.toList_some, List.mem_singleton] at hb
    subst hb
    exact (h.2 a ha).1
  · intro r hr
    simp only [rowOf, Option.toList_some, List.mem_append, List.mem_singleton] at hr
    rcases hr with hr | rfl
    · exact ⟨by have := (h.2 r hr).1; omega, (h.2 r hr).2⟩
    · exact ⟨by simp only; omega, hn, rfl⟩

theorem ppSubLoopC_tests {t : Cmp M} {c : PPCtl} {h : PPHooks σ M} (hb : c.bench = true) (init : ℕ) :
    ∀ (fuel : ℕ) {r r' : PPRun σ M}, TestsUpTo c.maxiter r.trace r.iter → ppSubLoopC t c h init fuel r = .ok r' →
      TestsUpTo c.maxiter r'.trace r'.iter := by
  intro fuel
  induction fuel with
  | zero => intro r r' _ h; cases h
  | succ fuel ih =>
    intro r r' hr he
    have hinc : ∀ {x : PPRun σ M}, TestsUpTo c.maxiter x.trace (x.iter + 1) → TestsUpTo c.maxiter (benchIncC c x).trace (benchIncC c x).iter := by
      intro x hx
      unfold benchIncC
      rw [if_pos hb]
      exact hx
    unfold ppSubLoopC at he
    by_cases h1 : (r.iter : ℤ) ≤ c.maxiter
    · rw [if_pos h1] at he
      rw [if_pos hb] at he
      simp only [bind, Except.bind, Bool.false_or] at he
      split at he
      · rw [← Except.ok.inj he]; exact hr
      · cases h2 : ppEnterC h init r with
        | error e => rw [h2] at he; cases he
        | ok r1 =>
          rw [h2] at he
          have hr1 : TestsUpTo c.maxiter r1.trace r.iter ∧ r1.iter = r.iter := by
            unfold ppEnterC at h2
            split at h2
            · cases h3 : h.ppBegin r.st with
              | error e => rw [h3] at h2; cases h2
              | ok st =>
                rw [h3] at h2
                rw [← Except.ok.inj h2]
                exact ⟨hr.ev rfl, rfl⟩
            · rw [← Except.ok.inj h2]; exact ⟨hr, rfl⟩
          simp only at he
          cases h4 : ppTestC t c h true (ppCheckedC c init r.iter) r1 with
          | error e => rw [h4] at he; cases he
          | ok u =>
            rw [h4] at he
            have hu : TestsUpTo c.maxiter u.1.trace (r.iter + 1) ∧ u.1.iter = r.iter := by
              unfold ppTestC at h4
              split at h4
              · cases h4
              · split at h4
                · simp only [bind, Except.bind] at h4
                  cases h5 : h.check r1.st with
                  | error e => rw [h5] at h4; cases h4
                  | ok q =>
                    rw [h5] at h4
                    simp only at h4
                    split at h4
                    · rw [← Except.ok.inj h4]
                      have := hr1.1.row h1 q.2.1 q.2.2
                      rw [← hr1.2] at this ⊢
                      exact ⟨this, rfl⟩
                    · cases h6 : h.accept q.1 with
                      | error e => rw [h6] at h4; cases h4
                      | ok st =>
                        rw [h6] at h4
                        rw [← Except.ok.inj h4]
                        have := hr1.1.row h1 q.2.1 q.2.2
                        rw [← hr1.2] at this ⊢
                        exact ⟨this, rfl⟩
                · rw [← Except.ok.inj h4]
                  exact ⟨hr1.1.mono (by omega), hr1.2⟩
            simp only at he
            split at he
            · rw [← Except.ok.inj he]
              exact hinc (by rw [hu.2]; exact hu.1)
            · cases h7 : h.ppSweep u.1.st with
              | error e => rw [h7] at he; cases he
              | ok st =>
                rw [h7] at he
                refine ih ?_ he
                simp only
                rw [hu.2]
                exact hu.1.ev rfl
    · rw [if_neg h1] at he
      rw [← Except.ok.inj he]
      exact hinc (hr.mono (by omega))

theorem ppDriverLoopC_tests {t : Cmp M} {c : PPCtl} {h : PPHooks σ M} (hb : c.bench = true) (sub : ℕ) :
    ∀ (fuel : ℕ) {r r' : PPRun σ M}, TestsUpTo c.maxiter r.trace r.iter → ppDriverLoopC t c h sub fuel r = .ok r' →
      TestsUpTo c.maxiter r'.trace r'.iter := by
  intro fuel
  induction fuel with
  | zero => intro r r' _ h; cases h
  | succ fuel ih =>
    intro r r' hr he
    unfold ppDriverLoopC at he
    rw [if_pos hb] at he
    split at he
    · simp only [bind, Except.bind] at he
      cases h1 : ppSubLoopC t c h r.iter sub r with
      | error e => rw [h1] at he; cases he
      | ok r1 =>
        rw [h1] at he
        have h2 := ppSubLoopC_tests hb _ _ hr h1
        exact ih (r := { r1 with st := h.endRound r1.st }) h2 he
    · rw [← Except.ok.inj he]; exact hr

/-! ## The iterations tested by the loops without pairwise perturbation -/

open Classical in
theorem llLoopC_rows {t : Cmp M} {mi rp : ℤ} {h : LLHooks σ M} : ∀ (fuel : ℕ) {it : ℕ} {st : σ} {rows : List (ℕ × M × M)} {r : LLEnd σ M},
    llLoopC t mi rp h fuel it st rows = .ok r → rows.map Prod.fst = (List.range it).filter (fun j => decide (h.checked j)) →
      r.rows.map Prod.fst = (List.range (if r.broke then r.iter + 1 else r.iter)).filter (fun j => decide (h.checked j)) ∧
      (r.broke = false → mi < r.iter) ∧ (r.broke = true → (r.iter : ℤ) ≤ mi ∧ h.checked r.iter) := by
  intro fuel
  induction fuel with
  | zero => intro _ _ _ _ h; cases h
  | succ fuel ih =>
    intro it st rows r hr hrows
    unfold llLoopC at hr
    by_cases h1 : (it : ℤ) ≤ mi
    · rw [if_pos h1] at hr
      by_cases h2 : rp = 0
      · rw [if_pos h2] at hr; cases hr
      · rw [if_neg h2] at hr
        by_cases h3 : h.checked it
        · rw [if_pos h3] at hr
          simp only [bind, Except.bind] at hr
          have hsucc : ∀ x, (rows ++ [(it, x)]).map Prod.fst = (List.range (it + 1)).filter fun j => decide (h.checked j) := by
            intro x
            rw [List.range_succ, List.filter_append, List.map_append, hrows]
            simp [h3]
          cases hc : h.check st with
          | error e => rw [hc] at hr; cases hr
          | ok c =>
            rw [hc] at hr
            simp only at hr
            by_cases h4 : t.below c.2.1 ∨ t.late it
            · rw [if_pos h4] at hr
              obtain rfl := Except.ok.inj hr
              refine ⟨hsucc _, fun hbr => ?_, fun _ => ⟨h1, h3⟩⟩
              cases hbr
            · rw [if_neg h4] at hr
              cases ha : h.accept c.1 with
              | error e => rw [ha] at hr; cases hr
              | ok s1 =>
                rw [ha] at hr
                simp only at hr
                cases hs : h.sweep s1 with
                | error e => rw [hs] at hr; cases hr
                | ok s2 =>
                  rw [hs] at hr
                  exact ih hr (hsucc _)
        · rw [if_neg h3] at hr
          simp only [bind, Except.bind] at hr
          cases hs : h.sweep st with
          | error e => rw [hs] at hr; cases hr
          | ok s2 =>
            rw [hs] at hr
            refine ih hr ?_
            rw [List.range_succ, List.filter_append, hrows]
            simp [h3]
    · rw [if_neg h1] at hr
      obtain rfl := Except.ok.inj hr
      refine ⟨hrows, fun _ => by simp only; omega, fun hbr => ?_⟩
      cases hbr

end Model
