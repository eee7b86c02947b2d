import Verif.Model.SpmdLegacy

/-! Runs of the legacy drivers on several ranks: general theory, and the link with the drivers on one rank. -/

namespace Model

variable {σ α β : Type} {exec : Exec σ}

/-! ## General theory -/

/-- The time tests made in a run. -/
def critical (exec : Exec σ) (clk : ℕ → Bool) : Prog α → σ → List ℕ
  | .ret _, _ => []
  | .fail _, _ => []
  | .late t k, s => t :: critical exec clk (k (clk t)) s
  | .call op k, s =>
    match exec op s with
    | .ok q => critical exec clk (k q.2) q.1
    | .error _ => []

/-- Whether both programs start with the same operation. -/
def SameHead (A B : Prog α) : Prop := ∃ (op : DOp) (k k' : op.Res → Prog α), A = .call op k ∧ B = .call op k'

/-- At every time test of the run the next collective operations differ for the two outcomes. -/
def Sens (exec : Exec σ) (clk : ℕ → Bool) : Prog α → σ → Prop
  | .ret _, _ => True
  | .fail _, _ => True
  | .late t k, s => (Clash (k false).next (k true).next ∧ ¬ SameHead (k true) (k false)) ∧
      Sens exec clk (k (clk t)) s
  | .call op k, s => ∀ q, exec op s = .ok q → Sens exec clk (k q.2) q.1

theorem critical_call {clk : ℕ → Bool} {op : DOp} {k : op.Res → Prog α} {s : σ} {q : σ × op.Res} (h : exec op s = .ok q) :
    critical exec clk (.call op k) s = critical exec clk (k q.2) q.1 := by
  rw [critical, h]

theorem run_call_eq {clk : ℕ → Bool} {op : DOp} {k : op.Res → Prog α} {s : σ} :
    (Prog.call op k).run exec clk s = (exec op s).bind fun q => (k q.2).run exec clk q.1 := rfl

theorem run_call {clk : ℕ → Bool} {op : DOp} {k : op.Res → Prog α} {s : σ} {o : σ × α}
    (h : (Prog.call op k).run exec clk s = .ok o) : ∃ q, exec op s = .ok q ∧ (k q.2).run exec clk q.1 = .ok o := by
  rw [Prog.run] at h
  cases he : exec op s with
  | error e => rw [he] at h; cases h
  | ok q => rw [he] at h; exact ⟨q, rfl, h⟩

theorem spmd_agree {P : ℕ} {clk : Fin P → ℕ → Bool} (q : Fin P) : ∀ (A : Prog α) (s : σ) (o : σ × α),
    A.run exec (clk q) s = .ok o → (∀ t ∈ critical exec (clk q) A s, ∀ p, clk p t = clk q t) →
    Spmd exec clk (fun _ => A) s (.finished o.1 fun _ => o.2) := by
  intro A
  induction A with
  | ret a => intro s o h _; cases h; exact .done fun _ => rfl
  | fail f => intro s o h _; cases h
  | late t k ih =>
    intro s o h ha
    refine .late (fun _ => rfl) ?_
    have e : (fun p => k (clk p t)) = fun _ => k (clk q t) := by
      funext p
      rw [ha t (by rw [critical]; simp) p]
    rw [e]
    exact ih _ s o h fun t' ht' => ha t' (by rw [critical]; exact List.mem_cons_of_mem _ ht')
  | call op k ih =>
    intro s o h ha
    obtain ⟨v, he, h⟩ := run_call h
    rw [critical_call he] at ha
    exact .call (fun _ => rfl) he (ih _ _ o h ha)

theorem spmd_disagree {P : ℕ} {clk : Fin P → ℕ → Bool} (q : Fin P) : ∀ (A : Prog α) (s : σ) (o : σ × α),
    A.run exec (clk q) s = .ok o → Sens exec (clk q) A s → (∃ t ∈ critical exec (clk q) A s, ∃ p, clk p t ≠ clk q t) →
    Spmd exec clk (fun _ => A) s .mismatch := by
  intro A
  induction A with
  | ret a => rintro s o h _ ⟨t, ht, _⟩; cases ht
  | fail f => intro s o h _; cases h
  | late t k ih =>
    rintro s o h ⟨hs, hs'⟩ ⟨t', ht', p, hp⟩
    refine .late (fun _ => rfl) ?_
    by_cases hd : ∃ p, clk p t ≠ clk q t
    · obtain ⟨p, hp⟩ := hd
      obtain ⟨hc, hh⟩ := hs
      have hne : ¬ ∃ (op : DOp) (k' : Fin P → op.Res → Prog α), ∀ p, k (clk p t) = .call op (k' p) := by
        rintro ⟨op, k', h'⟩
        refine hh ⟨op, ?_⟩
        have h1 := h' p
        have h2 := h' q
        cases e1 : clk p t <;> cases e2 : clk q t <;> rw [e1] at h1 <;> rw [e2] at h2
        · exact absurd (e1.trans e2.symm) hp
        · exact ⟨_, _, h2, h1⟩
        · exact ⟨_, _, h1, h2⟩
        · exact absurd (e1.trans e2.symm) hp
      cases e1 : clk p t <;> cases e2 : clk q t
      · exact absurd (e1.trans e2.symm) hp
      · refine .mismatch p q ?_ hne
        simp only [e1, e2]
        exact hc
      · refine .mismatch q p ?_ hne
        simp only [e1, e2]
        exact hc
      · exact absurd (e1.trans e2.symm) hp
    · push Not at hd
      have e : (fun p => k (clk p t)) = fun _ => k (clk q t) := by funext p; rw [hd p]
      rw [e]
      rw [critical] at ht'
      rcases List.mem_cons.1 ht' with h1 | h1
      · subst h1
        exact absurd (hd p) hp
      · exact ih _ s o h hs' ⟨t', h1, p, hp⟩
  | call op k ih =>
    rintro s o h hs hx
    obtain ⟨v, he, h⟩ := run_call h
    rw [critical_call he] at hx
    exact .call (fun _ => rfl) he (ih _ _ o h (hs v he) hx)

/-- The rules determine the outcome. -/
theorem Spmd.unique {P : ℕ} [NeZero P] {clk : Fin P → ℕ → Bool} {progs : Fin P → Prog α} {s : σ} {o o' : Outcome P σ α}
    (h : Spmd exec clk progs s o) : Spmd exec clk progs s o' → o = o' := by
  have p0 : Fin P := 0
  induction h generalizing o' with
  | done h =>
    intro h'
    cases h' with
    | done h2 =>
      congr 1
      funext p
      have := (h p).symm.trans (h2 p)
      injection this
    | fail h2 => cases (h p0).symm.trans (h2 p0)
    | call h2 => cases (h p0).symm.trans (h2 p0)
    | error h2 => cases (h p0).symm.trans (h2 p0)
    | late h2 => cases (h p0).symm.trans (h2 p0)
    | mismatch p q hc =>
      obtain ⟨op, h1, _⟩ := hc
      rw [h p] at h1
      cases h1
  | fail h =>
    intro h'
    cases h' with
    | done h2 => cases (h p0).symm.trans (h2 p0)
    | fail h2 =>
      have := (h p0).symm.trans (h2 p0)
      cases this
      rfl
    | call h2 => cases (h p0).symm.trans (h2 p0)
    | error h2 => cases (h p0).symm.trans (h2 p0)
    | late h2 => cases (h p0).symm.trans (h2 p0)
    | mismatch p q hc =>
      obtain ⟨op, h1, _⟩ := hc
      rw [h p] at h1
      cases h1
  | @call progs s s' op k v o h he rest ih =>
    intro h'
    cases h' with
    | done h2 => cases (h p0).symm.trans (h2 p0)
    | fail h2 => cases (h p0).symm.trans (h2 p0)
    | @call _ _ _ op2 k2 v2 _ h2 he2 rest2 =>
      have hop : op = op2 := by
        have := (h p0).symm.trans (h2 p0)
        injection this
      subst hop
      have hk : k = k2 := by
        funext p
        have := (h p).symm.trans (h2 p)
        injection this
      subst hk
      rw [he] at he2
      cases he2
      exact ih rest2
    | @error _ _ op2 k2 _ h2 he2 =>
      have hop : op = op2 := by
        have := (h p0).symm.trans (h2 p0)
        injection this
      subst hop
      rw [he] at he2
      cases he2
    | late h2 => cases (h p0).symm.trans (h2 p0)
    | mismatch p q hc hne => exact absurd ⟨op, k, h⟩ hne
  | @error progs s op k f h he =>
    intro h'
    cases h' with
    | done h2 => cases (h p0).symm.trans (h2 p0)
    | fail h2 => cases (h p0).symm.trans (h2 p0)
    | @call _ _ _ op2 k2 v2 _ h2 he2 rest2 =>
      have hop : op = op2 := by
        have := (h p0).symm.trans (h2 p0)
        injection this
      subst hop
      rw [he] at he2
      cases he2
    | @error _ _ op2 k2 _ h2 he2 =>
      have hop : op = op2 := by
        have := (h p0).symm.trans (h2 p0)
        injection this
      subst hop
      rw [he] at he2
      cases he2
      rfl
    | late h2 => cases (h p0).symm.trans (h2 p0)
    | mismatch p q hc hne => exact absurd ⟨op, k, h⟩ hne
  | @late progs s t k o h rest ih =>
    intro h'
    cases h' with
    | done h2 => cases (h p0).symm.trans (h2 p0)
    | fail h2 => cases (h p0).symm.trans (h2 p0)
    | call h2 => cases (h p0).symm.trans (h2 p0)
    | error h2 => cases (h p0).symm.trans (h2 p0)
    | @late _ _ t2 k2 _ h2 rest2 =>
      have ht : t = t2 := by
        have := (h p0).symm.trans (h2 p0)
        injection this
      subst ht
      have hk : k = k2 := by
        funext p
        have := (h p).symm.trans (h2 p)
        injection this
      subst hk
      exact ih rest2
    | mismatch p q hc =>
      obtain ⟨op, h1, _⟩ := hc
      rw [h p] at h1
      cases h1
  | @mismatch progs s p q hc hne =>
    intro h'
    obtain ⟨op, h1, _⟩ := hc
    cases h' with
    | done h2 => rw [h2 p] at h1; cases h1
    | fail h2 => rw [h2 p] at h1; cases h1
    | call h2 => exact absurd ⟨_, _, h2⟩ hne
    | error h2 => exact absurd ⟨_, _, h2⟩ hne
    | late h2 => rw [h2 p] at h1; cases h1
    | mismatch => rfl

/-! ## Composition -/

theorem run_andThen {clk : ℕ → Bool} (f : α → Prog β) : ∀ (A : Prog α) (s : σ),
    (A.andThen f).run exec clk s = (A.run exec clk s).bind fun q => (f q.2).run exec clk q.1 := by
  intro A
  induction A with
  | ret a => intro s; rfl
  | fail e => intro s; rfl
  | late t k ih => intro s; exact ih _ s
  | call op k ih =>
    intro s
    rw [Prog.andThen, Prog.run, Prog.run]
    cases exec op s with
    | error e => rfl
    | ok q => exact ih _ _

theorem andThen_assoc {γ : Type} (f : α → Prog β) (g : β → Prog γ) : ∀ A : Prog α,
    (A.andThen f).andThen g = A.andThen fun a => (f a).andThen g := by
  intro A
  induction A with
  | ret a => rfl
  | fail e => rfl
  | late t k ih => simp only [Prog.andThen, ih]
  | call op k ih => simp only [Prog.andThen, ih]

theorem andThen_ret : ∀ A : Prog α, A.andThen .ret = A := by
  intro A
  induction A with
  | ret a => rfl
  | fail e => rfl
  | late t k ih => simp only [Prog.andThen, ih]
  | call op k ih => simp only [Prog.andThen, ih]

/-! ## The link with the drivers on one rank -/

open Classical in
/-- The outcomes of the time tests of a rank with the given clock. -/
noncomputable def lateOf (timelimit : ℝ) (clock : ℕ → ℝ) (t : ℕ) : Bool := decide (timelimit < clock t)

theorem llProg_run (a : LLArgs) (h : LLHooks σ) (clock : ℕ → ℝ) : ∀ (fuel iter : ℕ) (s : σ) (rows : List (ℕ × ℝ × ℝ)),
    (llProg a h.checked fuel iter rows).run (llExec h) (lateOf a.timelimit clock) s =
      (llLoop a h clock fuel iter s rows).map fun e => (e.st, (e.iter, e.rows, e.broke, e.ret))
  | 0, _, _, _ => rfl
  | fuel + 1, iter, s, rows => by
    unfold llProg llLoop
    split_ifs with h1 h2 h3
    · rfl
    · rw [Prog.run]
      simp only [llExec]
      cases h.check s with
      | error e => rfl
      | ok q =>
        simp only [Except.map, bind, Except.bind]
        by_cases hg : q.2.1 < a.tol
        · rw [if_pos hg, if_pos (Or.inl hg)]
          rfl
        · rw [if_neg hg, Prog.run]
          by_cases hl : a.timelimit < clock iter
          · rw [if_pos (Or.inr hl), lateOf, decide_eq_true hl, if_pos rfl]
            rfl
          · rw [if_neg (show ¬ (q.2.1 < a.tol ∨ a.timelimit < clock iter) by tauto), lateOf, decide_eq_false hl, if_neg Bool.false_ne_true]
            rw [Prog.run]
            simp only [llExec]
            cases h.accept q.1 with
            | error e => rfl
            | ok s1 =>
              simp only [Except.map, bind, Except.bind]
              rw [Prog.run]
              simp only [llExec]
              cases h.sweep s1 with
              | error e => rfl
              | ok s2 => exact llProg_run a h clock fuel _ _ _
    · rw [Prog.run]
      simp only [llExec]
      cases h.sweep s with
      | error e => rfl
      | ok s2 => exact llProg_run a h clock fuel _ _ _
    · rfl

/-- The local variables. -/
def PPRun.loc (r : PPRun σ) : PPLoc := ⟨r.iter, r.grad, r.tests, (), r.trace⟩

section PP

variable {c : PPCfg} {h : PPHooks σ} {clock : ℕ → ℝ}

theorem ppTestProg_run (pp : Bool) (ch : Prop) (r : PPRun σ) :
    (ppTestProg c pp ch r.loc).run (ppExec h) (lateOf c.timelimit clock) r.st =
      (ppTest c h clock pp ch r).map fun t => (t.1.st, (t.1.loc, t.2)) := by
  unfold ppTestProg ppTest
  split_ifs with h1 h2
  · rfl
  · rw [Prog.run]
    simp only [ppExec]
    cases h.check r.st with
    | error e => rfl
    | ok q =>
      simp only [Except.map, bind, Except.bind]
      have hi : r.loc.iter = r.iter := rfl
      have ht : r.loc.tests = r.tests := rfl
      rw [hi, ht]
      by_cases hg : q.2.1 < c.tol ∨ (c.tucker = true ∧ pp = true ∧ (r.iter : ℤ) = c.maxiter)
      · rw [if_pos hg, if_pos (show q.2.1 < c.tol ∨ c.timelimit < clock r.tests ∨
          (c.tucker = true ∧ pp = true ∧ (r.iter : ℤ) = c.maxiter) by tauto)]
        rfl
      · rw [if_neg hg, Prog.run]
        by_cases hl : c.timelimit < clock r.tests
        · rw [if_pos (Or.inr (Or.inl hl)), lateOf, decide_eq_true hl, if_pos rfl]
          rfl
        · rw [if_neg (show ¬ (q.2.1 < c.tol ∨ c.timelimit < clock r.tests ∨ (c.tucker = true ∧ pp = true ∧ (r.iter : ℤ) = c.maxiter)) by
            tauto), lateOf, decide_eq_false hl, if_neg Bool.false_ne_true]
          rw [Prog.run]
          simp only [ppExec]
          cases h.accept q.1 with
          | error e => rfl
          | ok s1 => rfl
  · rfl

theorem dtSubProg_run : ∀ (fuel : ℕ) (r : PPRun σ),
    (dtSubProg c fuel r.loc).run (ppExec h) (lateOf c.timelimit clock) r.st =
      (dtSubLoop c h clock fuel r).map fun r => (r.st, r.loc)
  | 0, _ => rfl
  | fuel + 1, r => by
    unfold dtSubProg dtSubLoop
    have hi : r.loc.iter = r.iter := rfl
    rw [hi]
    split_ifs with h1
    · rw [run_andThen, ppTestProg_run]
      cases ppTest c h clock false (dtChecked c r.iter) r with
      | error e => rfl
      | ok t =>
        simp only [Except.map, bind, Except.bind]
        cases h2 : t.2
        · simp only [Bool.false_eq_true, if_false]
          rw [Prog.run]
          simp only [ppExec]
          cases h.dtSweep t.1.st with
          | error e => rfl
          | ok s1 =>
            simp only [Except.map, bind, Except.bind]
            change ((ppExec h .dtClose s1).bind _) = _
            simp only [ppExec]
            cases h.dtClose s1 with
            | error e => rfl
            | ok cl =>
              simp only [Except.map, Except.bind]
              cases cl
              · simp only [Bool.false_eq_true, if_false]
                exact dtSubProg_run fuel { t.1 with st := s1, trace := t.1.trace ++ [.dtSweep], iter := t.1.iter + 1 }
              · rfl
        · rfl
    · rfl

theorem benchInc_loc (r : PPRun σ) : (benchInc c r).loc = benchInc c r.loc := by
  unfold benchInc
  split <;> rfl

theorem benchInc_st' (r : PPRun σ) : (benchInc c r).st = r.st := by
  unfold benchInc
  split <;> rfl

theorem ppSubProg_run (init : ℕ) : ∀ (fuel : ℕ) (r : PPRun σ),
    (ppSubProg c init fuel r.loc).run (ppExec h) (lateOf c.timelimit clock) r.st =
      (ppSubLoop c h clock init fuel r).map fun r => (r.st, r.loc)
  | 0, _ => rfl
  | fuel + 1, r => by
    unfold ppSubProg ppSubLoop
    have hi : r.loc.iter = r.iter := rfl
    rw [hi]
    by_cases h1 : (r.iter : ℤ) ≤ c.maxiter
    swap
    · rw [if_neg h1, if_neg h1]
      simp only [Prog.run, Except.map, benchInc_loc, benchInc_st']
    rw [if_pos h1, if_pos h1, run_andThen]
    have hfar : (if c.bench then .ret false else .call .ppFar fun (b : Bool) => .ret b : Prog Bool).run (ppExec h)
        (lateOf c.timelimit clock) r.st = (if c.bench then .ok false else h.ppFar r.st).map fun b => (r.st, b) := by
      split
      · rfl
      · change ((ppExec h .ppFar r.st).bind _) = _
        simp only [ppExec]
        cases h.ppFar r.st <;> rfl
    rw [hfar]
    cases (if c.bench then .ok false else h.ppFar r.st : Except Fault Bool) with
    | error e => rfl
    | ok far =>
      simp only [Except.map, bind, Except.bind]
      by_cases hf : (far || (c.tucker == false && r.iter != init && (r.iter - init) % 15 == 0)) = true
      · rw [if_pos hf, if_pos hf]
        rfl
      rw [if_neg hf, if_neg hf, run_andThen]
      have hen : (if r.iter = init then .call .ppBegin fun _ => .ret { r.loc with trace := r.loc.trace ++ [.ppStart] }
          else .ret r.loc : Prog PPLoc).run (ppExec h) (lateOf c.timelimit clock) r.st =
          (ppEnter h init r).map fun r => (r.st, r.loc) := by
        unfold ppEnter
        split
        · rw [Prog.run]
          simp only [ppExec]
          cases h.ppBegin r.st <;> rfl
        · rfl
      erw [hen]
      cases ppEnter h init r with
      | error e => rfl
      | ok r1 =>
        simp only [Except.map, Except.bind]
        rw [run_andThen, ppTestProg_run]
        cases ppTest c h clock true (ppChecked c init r.iter) r1 with
        | error e => rfl
        | ok t =>
          simp only [Except.map, Except.bind]
          cases h2 : t.2
          · simp only [Bool.false_eq_true, if_false]
            rw [Prog.run]
            simp only [ppExec]
            cases h.ppSweep t.1.st with
            | error e => rfl
            | ok s1 =>
              simp only [Except.map, bind, Except.bind]
              exact ppSubProg_run init fuel { t.1 with st := s1, trace := t.1.trace ++ [.ppSweep], iter := t.1.iter + 1 }
          · simp only [if_true, Prog.run, pure, Except.pure, benchInc_loc, benchInc_st']

theorem ppLoopProg_run (sub : ℕ) : ∀ (fuel : ℕ) (r : PPRun σ),
    (ppLoopProg c sub fuel r.loc).run (ppExec h) (lateOf c.timelimit clock) r.st =
      (ppDriverLoop c h clock sub fuel r).map fun r => (r.st, r.loc)
  | 0, _ => rfl
  | fuel + 1, r => by
    unfold ppLoopProg ppDriverLoop
    have hi : r.loc.iter = r.iter := rfl
    have hg : r.loc.grad = r.grad := rfl
    rw [hi, hg]
    split_ifs with h1
    · rw [run_andThen]
      rename_i hb
      rw [Prog.run]
      simp only [bind, Except.bind]
      rw [run_andThen, ppSubProg_run, hi]
      cases ppSubLoop c h clock r.iter sub r with
      | error e => rfl
      | ok r2 =>
        exact ppLoopProg_run sub fuel { r2 with st := h.endRound r2.st }
    · rw [run_andThen]
      have hd : (Prog.call .dtBegin fun _ => dtSubProg c sub { r.loc with trace := r.loc.trace ++ [.dtStart] }).run (ppExec h)
          (lateOf c.timelimit clock) r.st = (dtSub c h clock sub r).map fun r => (r.st, r.loc) := by
        rw [Prog.run, dtSub]
        simp only [ppExec]
        cases h.dtBegin r.st with
        | error e => rfl
        | ok s1 => exact dtSubProg_run sub { r with st := s1, trace := r.trace ++ [.dtStart] }
      erw [hd]
      cases dtSub c h clock sub r with
      | error e => rfl
      | ok r1 =>
        simp only [Except.map, bind, Except.bind]
        have hi1 : r1.loc.iter = r1.iter := rfl
        rw [run_andThen, hi1, ppSubProg_run]
        cases ppSubLoop c h clock r1.iter sub r1 with
        | error e => rfl
        | ok r2 =>
          exact ppLoopProg_run sub fuel { r2 with st := h.endRound r2.st }
    · rfl

theorem ppProg_run (fuel : ℕ) (s : σ) :
    (ppProg c fuel).run (ppExec h) (lateOf c.timelimit clock) s =
      (ppDriver c h clock fuel s).map fun r => (r.1.st, (r.1.loc, r.2)) := by
  unfold ppProg ppDriver
  have := ppLoopProg_run (c := c) (h := h) (clock := clock) fuel fuel ⟨0, 10, 0, s, []⟩
  rw [run_andThen]
  have e : (PPRun.loc ⟨0, 10, 0, s, []⟩ : PPLoc) = ⟨0, 10, 0, (), []⟩ := rfl
  rw [e] at this
  simp only at this
  rw [this]
  cases ppDriverLoop c h clock fuel fuel ⟨0, 10, 0, s, []⟩ <;> rfl

end PP

/-! ## Time tests matter -/

theorem llProg_sens (a : LLArgs) (checked : ℕ → Prop) (clk : ℕ → Bool) : ∀ (fuel iter : ℕ) (rows : List (ℕ × ℝ × ℝ)) (s : σ),
    Sens exec clk (llProg a checked fuel iter rows) s
  | 0, _, _, _ => trivial
  | fuel + 1, iter, rows, s => by
    unfold llProg
    split_ifs with h1 h2 h3
    · trivial
    · rintro q -
      dsimp only
      split_ifs with hg
      · trivial
      · refine ⟨⟨⟨.dtSweep, rfl, Or.inl rfl⟩, ?_⟩, ?_⟩
        · rintro ⟨op, k, k', e1, e2⟩
          cases e1
        · cases clk iter
          · rintro q -
            rintro q -
            exact llProg_sens a checked clk fuel _ _ _
          · trivial
    · rintro q -
      exact llProg_sens a checked clk fuel _ _ _
    · trivial

/-- The program does not go on with `op`, and does not start with `accept`. -/
def Away (op : DOp) (A : Prog α) : Prop :=
  (A.next = .stop ∨ ∃ op', A.next = .coll op' ∧ op ≠ op') ∧ ∀ k, A ≠ .call .accept k

theorem run_andThen_ok {clk : ℕ → Bool} {A : Prog α} {f : α → Prog β} {s : σ} {o : σ × β}
    (h : (A.andThen f).run exec clk s = .ok o) : ∃ q, A.run exec clk s = .ok q ∧ (f q.2).run exec clk q.1 = .ok o := by
  rw [run_andThen] at h
  cases hA : A.run exec clk s with
  | error e => rw [hA] at h; cases h
  | ok q => rw [hA] at h; exact ⟨q, rfl, h⟩

section PPSens

variable {c : PPCfg} {clk : ℕ → Bool}

/-- A test followed by a sweep (`op`) or by something else. -/
theorem ppTest_sens {pp : Bool} {ch : Prop} {r : PPLoc} {op : DOp} {f : PPLoc × Bool → Prog β}
    (h1 : ∀ r', (f (r', false)).next = .coll op) (h2 : ∀ r' : PPLoc, r'.iter = r.iter → Away op (f (r', true)))
    (h3 : ∀ t s o, (f t).run exec clk s = .ok o → Sens exec clk (f t) s) {s : σ} {o : σ × β}
    (h : ((ppTestProg c pp ch r).andThen f).run exec clk s = .ok o) :
    Sens exec clk ((ppTestProg c pp ch r).andThen f) s := by
  unfold ppTestProg at h ⊢
  by_cases e1 : c.resprint = 0
  · rw [if_pos e1] at h ⊢
    trivial
  rw [if_neg e1] at h ⊢
  by_cases e2 : ch
  swap
  · rw [if_neg e2] at h ⊢
    exact h3 _ _ _ h
  rw [if_pos e2] at h ⊢
  rw [Prog.andThen] at h ⊢
  obtain ⟨q, q1, h⟩ := run_call h
  intro q' q1'
  rw [q1] at q1'
  cases q1'
  dsimp only at h ⊢
  by_cases e3 : q.2.1 < c.tol ∨ (c.tucker = true ∧ pp = true ∧ (r.iter : ℤ) = c.maxiter)
  · rw [if_pos e3] at h ⊢
    exact h3 _ _ _ h
  rw [if_neg e3] at h ⊢
  rw [Prog.andThen] at h ⊢
  rw [Prog.run] at h
  refine ⟨?_, ?_⟩
  · obtain ⟨a1, a2⟩ := h2 ⟨r.iter, q.2.1, r.tests + 1, (), r.trace ++ [.row r.iter q.2.1 pp q.2.2]⟩ rfl
    refine ⟨⟨op, h1 _, a1⟩, ?_⟩
    rintro ⟨op', k, k', b1, b2⟩
    injection b2 with b2 _
    subst b2
    exact a2 _ b1
  · dsimp only at h ⊢
    cases e4 : clk r.tests <;> rw [e4] at h
    · obtain ⟨q2, q2e, h⟩ := run_call h
      intro q' q1'
      rw [q2e] at q1'
      cases q1'
      exact h3 _ _ _ h
    · exact h3 _ _ _ h

theorem dtSub_sens {f : PPLoc → Prog β} (h2 : ∀ r' : PPLoc, (r'.iter : ℤ) ≤ c.maxiter → Away .dtSweep (f r'))
    (h3 : ∀ r s o, (f r).run exec clk s = .ok o → Sens exec clk (f r) s) : ∀ (fuel : ℕ) (r : PPLoc) (s : σ) (o : σ × β),
    ((dtSubProg c fuel r).andThen f).run exec clk s = .ok o → Sens exec clk ((dtSubProg c fuel r).andThen f) s
  | 0, _, _, _, h => by cases h
  | fuel + 1, r, s, o, h => by
    unfold dtSubProg at h ⊢
    by_cases e1 : (r.iter : ℤ) ≤ c.maxiter
    swap
    · rw [if_neg e1] at h ⊢
      exact h3 _ _ _ h
    rw [if_pos e1] at h ⊢
    rw [andThen_assoc] at h ⊢
    refine ppTest_sens (op := .dtSweep) ?_ ?_ ?_ h
    · intro r'
      rfl
    · intro r' hr'
      exact h2 r' (by rw [hr']; exact e1)
    · rintro ⟨r', b⟩ s o h
      cases b
      · obtain ⟨q, q1, h⟩ := run_call h
        intro q' q1'
        rw [q1] at q1'
        cases q1'
        obtain ⟨q2, q2e, h⟩ := run_call h
        intro q' q1'
        rw [q2e] at q1'
        cases q1'
        obtain ⟨s2, b⟩ := q2
        change Bool at b
        cases b
        · exact dtSub_sens h2 h3 fuel _ _ _ h
        · exact h3 _ _ _ h
      · exact h3 _ _ _ h

theorem ppSub_sens {init : ℕ} {f : PPLoc → Prog β} (h2 : ∀ r' : PPLoc, Away .ppSweep (f r'))
    (h3 : ∀ r s o, (f r).run exec clk s = .ok o → Sens exec clk (f r) s) : ∀ (fuel : ℕ) (r : PPLoc) (s : σ) (o : σ × β),
    ((ppSubProg c init fuel r).andThen f).run exec clk s = .ok o → Sens exec clk ((ppSubProg c init fuel r).andThen f) s
  | 0, _, _, _, h => by cases h
  | fuel + 1, r, s, o, h => by
    unfold ppSubProg at h ⊢
    by_cases e1 : (r.iter : ℤ) ≤ c.maxiter
    swap
    · rw [if_neg e1] at h ⊢
      exact h3 _ _ _ h
    rw [if_pos e1] at h ⊢
    rw [andThen_assoc] at h ⊢
    -- what follows `ppFar`
    have key : ∀ (far : Bool) (s : σ) (o : σ × β), ((if far || (c.tucker == false && r.iter != init && (r.iter - init) % 15 == 0) then
          .ret r
        else
          (if r.iter = init then .call .ppBegin fun _ => .ret { r with trace := r.trace ++ [.ppStart] }
            else .ret r : Prog PPLoc).andThen fun r1 =>
          (ppTestProg c true (ppChecked c init r.iter) r1).andThen fun t =>
            if t.2 then .ret (benchInc c t.1)
            else .call .ppSweep fun _ =>
              ppSubProg c init fuel { t.1 with trace := t.1.trace ++ [.ppSweep], iter := t.1.iter + 1 } : Prog PPLoc).andThen f).run
          exec clk s = .ok o →
        Sens exec clk ((if far || (c.tucker == false && r.iter != init && (r.iter - init) % 15 == 0) then
          .ret r
        else
          (if r.iter = init then .call .ppBegin fun _ => .ret { r with trace := r.trace ++ [.ppStart] }
            else .ret r : Prog PPLoc).andThen fun r1 =>
          (ppTestProg c true (ppChecked c init r.iter) r1).andThen fun t =>
            if t.2 then .ret (benchInc c t.1)
            else .call .ppSweep fun _ =>
              ppSubProg c init fuel { t.1 with trace := t.1.trace ++ [.ppSweep], iter := t.1.iter + 1 } : Prog PPLoc).andThen f) s := by
      intro far s o h
      by_cases e2 : (far || (c.tucker == false && r.iter != init && (r.iter - init) % 15 == 0)) = true
      · rw [if_pos e2] at h ⊢
        exact h3 _ _ _ h
      rw [if_neg e2] at h ⊢
      rw [andThen_assoc] at h ⊢
      have key2 : ∀ (r1 : PPLoc) (s : σ) (o : σ × β), (((ppTestProg c true (ppChecked c init r.iter) r1).andThen fun t =>
            if t.2 then .ret (benchInc c t.1)
            else .call .ppSweep fun _ =>
              ppSubProg c init fuel { t.1 with trace := t.1.trace ++ [.ppSweep], iter := t.1.iter + 1 }).andThen f).run
          exec clk s = .ok o →
          Sens exec clk (((ppTestProg c true (ppChecked c init r.iter) r1).andThen fun t =>
            if t.2 then .ret (benchInc c t.1)
            else .call .ppSweep fun _ =>
              ppSubProg c init fuel { t.1 with trace := t.1.trace ++ [.ppSweep], iter := t.1.iter + 1 }).andThen f) s := by
        intro r1 s o h
        rw [andThen_assoc] at h ⊢
        refine ppTest_sens (op := .ppSweep) ?_ ?_ ?_ h
        · intro r'
          rfl
        · intro r' _
          exact h2 _
        · rintro ⟨r', b⟩ s o h
          cases b
          · obtain ⟨q, q1, h⟩ := run_call h
            intro q' q1'
            rw [q1] at q1'
            cases q1'
            exact ppSub_sens h2 h3 fuel _ _ _ h
          · exact h3 _ _ _ h
      by_cases e3 : r.iter = init
      · rw [if_pos e3] at h ⊢
        obtain ⟨q, q1, h⟩ := run_call h
        intro q' q1'
        rw [q1] at q1'
        cases q1'
        exact key2 _ _ _ h
      · rw [if_neg e3] at h ⊢
        exact key2 _ _ _ h
    by_cases e4 : c.bench = true
    · rw [if_pos e4] at h ⊢
      exact key _ _ _ h
    · rw [if_neg e4] at h ⊢
      obtain ⟨q, q1, h⟩ := run_call h
      intro q' q1'
      rw [q1] at q1'
      cases q1'
      exact key _ _ _ h

theorem ppSub_away {init sub : ℕ} {r : PPLoc} {f : PPLoc → Prog β} (hb : c.bench = false) (hi : (r.iter : ℤ) ≤ c.maxiter) :
    Away .dtSweep ((ppSubProg c init (sub + 1) r).andThen f) := by
  unfold ppSubProg
  rw [if_pos hi, if_neg (by simp [hb])]
  refine ⟨Or.inr ⟨.ppFar, rfl, by simp⟩, ?_⟩
  intro k e
  cases e

theorem ppLoop_away {sub fuel : ℕ} {r : PPLoc} {F : PPLoc → β} (hp : c.resprint ≠ 0) :
    Away .ppSweep (.call .endRound fun _ => (ppLoopProg c (sub + 1) (fuel + 1) r).andThen fun r => .ret (F r)) := by
  refine ⟨?_, by intro k e; cases e⟩
  change ((ppLoopProg c (sub + 1) (fuel + 1) r).andThen fun r => Prog.ret (F r)).next = .stop ∨
    ∃ op', ((ppLoopProg c (sub + 1) (fuel + 1) r).andThen fun r => Prog.ret (F r)).next = .coll op' ∧ .ppSweep ≠ op'
  unfold ppLoopProg
  by_cases e1 : c.tol < r.grad ∧ (r.iter : ℤ) ≤ c.maxiter
  swap
  · rw [if_neg e1]
    exact Or.inl rfl
  rw [if_pos e1]
  right
  by_cases e2 : c.bench = true
  · rw [if_pos e2]
    refine ⟨.ppBegin, ?_, by simp⟩
    simp only [Prog.andThen]
    unfold ppSubProg
    rw [if_pos e1.2, if_pos e2]
    simp only [Prog.andThen]
    simp [Prog.andThen, Prog.next]
  · rw [if_neg e2]
    simp only [Prog.andThen]
    unfold dtSubProg
    simp only [if_pos e1.2]
    unfold ppTestProg
    simp only [if_neg hp]
    by_cases e3 : dtChecked c r.iter
    · refine ⟨.check, ?_, by simp⟩
      simp only [if_pos e3]
      rfl
    · refine ⟨.dtSweep, ?_, by simp⟩
      simp only [if_neg e3]
      rfl

theorem ppLoop_sens {sub : ℕ} {F : PPLoc → β} (hp : c.resprint ≠ 0) : ∀ (fuel : ℕ) (r : PPLoc) (s : σ) (o : σ × β),
    ((ppLoopProg c (sub + 1) fuel r).andThen fun r => .ret (F r)).run exec clk s = .ok o →
    Sens exec clk ((ppLoopProg c (sub + 1) fuel r).andThen fun r => .ret (F r)) s
  | 0, _, _, _, h => by cases h
  | fuel + 1, r, s, o, h => by
    unfold ppLoopProg at h ⊢
    by_cases e1 : c.tol < r.grad ∧ (r.iter : ℤ) ≤ c.maxiter
    swap
    · rw [if_neg e1]
      trivial
    rw [if_pos e1] at h ⊢
    rw [andThen_assoc] at h ⊢
    cases fuel with
    | zero =>
      obtain ⟨q, _, h⟩ := run_andThen_ok h
      rw [andThen_assoc] at h
      obtain ⟨q, _, h⟩ := run_andThen_ok h
      obtain ⟨q, _, h⟩ := run_call h
      cases h
    | succ fuel =>
      have k1 : ∀ (r : PPLoc) (s : σ) (o : σ × β),
          (Prog.call .endRound fun _ => (ppLoopProg c (sub + 1) (fuel + 1) r).andThen fun r => .ret (F r)).run exec clk s = .ok o →
          Sens exec clk (Prog.call .endRound fun _ => (ppLoopProg c (sub + 1) (fuel + 1) r).andThen fun r => .ret (F r)) s := by
        intro r s o h
        obtain ⟨q, q1, h⟩ := run_call h
        intro q' q1'
        rw [q1] at q1'
        cases q1'
        exact ppLoop_sens hp (fuel + 1) _ _ _ h
      have k2 : ∀ (r : PPLoc) (s : σ) (o : σ × β),
          (((ppSubProg c r.iter (sub + 1) r).andThen fun r => .call .endRound fun _ => ppLoopProg c (sub + 1) (fuel + 1) r).andThen
            fun r => .ret (F r)).run exec clk s = .ok o →
          Sens exec clk (((ppSubProg c r.iter (sub + 1) r).andThen fun r =>
            .call .endRound fun _ => ppLoopProg c (sub + 1) (fuel + 1) r).andThen fun r => .ret (F r)) s := by
        intro r s o h
        rw [andThen_assoc] at h ⊢
        exact ppSub_sens (fun r' => ppLoop_away hp) (fun r s o h => k1 r s o h) _ _ _ _ h
      by_cases e2 : c.bench = true
      · rw [if_pos e2] at h ⊢
        exact k2 _ _ _ h
      · rw [if_neg e2] at h ⊢
        obtain ⟨q, q1, h⟩ := run_call h
        intro q' q1'
        rw [q1] at q1'
        cases q1'
        refine dtSub_sens ?_ (fun r s o h => k2 r s o h) _ _ _ _ h
        intro r' hr'
        rw [andThen_assoc]
        exact ppSub_away (by simpa using e2) hr'

theorem ppProg_sens (hp : c.resprint ≠ 0) (fuel : ℕ) (s : σ) (o : σ × (PPLoc × Bool))
    (h : (ppProg c fuel).run exec clk s = .ok o) : Sens exec clk (ppProg c fuel) s := by
  cases fuel with
  | zero => cases h
  | succ fuel => exact ppLoop_sens hp _ _ _ _ h

end PPSens

end Model
