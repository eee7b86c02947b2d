import Verif.Proofs.SpmdLegacy

/-! Which time tests are made, in terms of the rows of the log. -/

namespace Model

variable {σ α β : Type} {exec : Exec σ} {clk : ℕ → Bool}

theorem critical_andThen {f : α → Prog β} : ∀ (A : Prog α) {s : σ} {q : σ × α}, A.run exec clk s = .ok q →
    critical exec clk (A.andThen f) s = critical exec clk A s ++ critical exec clk (f q.2) q.1 := by
  intro A
  induction A with
  | ret a => intro s q h; cases h; rfl
  | fail e => intro s q h; cases h
  | late t k ih =>
    intro s q h
    rw [Prog.andThen, critical, critical, List.cons_append, ih _ h]
  | call op k ih =>
    intro s q h
    obtain ⟨v, he, h⟩ := run_call h
    rw [Prog.andThen, critical_call he, critical_call he]
    exact ih _ h

/-- The rows of the log among the events: iteration, measured quantity, phase. -/
def ppRows : List PPEv → List (ℕ × ℝ × Bool)
  | [] => []
  | .row i g pp _ :: l => (i, g, pp) :: ppRows l
  | .dtStart :: l => ppRows l
  | .dtSweep :: l => ppRows l
  | .ppStart :: l => ppRows l
  | .ppSweep :: l => ppRows l

theorem ppRows_append (l l' : List PPEv) : ppRows (l ++ l') = ppRows l ++ ppRows l' := by
  induction l with
  | nil => rfl
  | cons e l ih => cases e <;> simp [ppRows, ih]

/-- The test of this row ends the loop whatever the clock says. -/
def Decides (c : PPCfg) (x : ℕ × ℝ × Bool) : Prop :=
  x.2.1 < c.tol ∨ (c.tucker = true ∧ x.2.2 = true ∧ (x.1 : ℤ) = c.maxiter)

open Classical in
/-- Numbers of the tests, counted from `base`, in which the clock is read. -/
noncomputable def due (c : PPCfg) : ℕ → List (ℕ × ℝ × Bool) → List ℕ
  | _, [] => []
  | base, x :: l => (if Decides c x then [] else [base]) ++ due c (base + 1) l

theorem due_append (c : PPCfg) : ∀ (l l' : List (ℕ × ℝ × Bool)) (base : ℕ),
    due c base (l ++ l') = due c base l ++ due c (base + l.length) l'
  | [], _, _ => rfl
  | x :: l, l', base => by
    rw [List.cons_append, due, due, due_append c l l' (base + 1), List.append_assoc, List.length_cons]
    congr 3
    omega

theorem mem_due (c : PPCfg) (t : ℕ) : ∀ (l : List (ℕ × ℝ × Bool)) (base : ℕ),
    t ∈ due c base l ↔ base ≤ t ∧ ∃ x, l[t - base]? = some x ∧ ¬ Decides c x
  | [], base => by simp [due]
  | x :: l, base => by
    rw [due, List.mem_append, mem_due c t l (base + 1)]
    constructor
    · rintro (h | ⟨h1, y, h2, h3⟩)
      · split at h
        · cases h
        · rename_i hx
          rw [List.mem_singleton] at h
          subst h
          exact ⟨le_rfl, x, by simp, hx⟩
      · refine ⟨by omega, y, ?_, h3⟩
        rw [show t - base = (t - (base + 1)) + 1 by omega, List.getElem?_cons_succ]
        exact h2
    · rintro ⟨h1, y, h2, h3⟩
      rcases Nat.eq_or_lt_of_le h1 with h | h
      · subst h
        rw [Nat.sub_self, List.getElem?_cons_zero, Option.some.injEq] at h2
        subst h2
        rw [if_neg h3]
        simp
      · refine Or.inr ⟨h, y, ?_, h3⟩
        rw [show t - base = (t - (base + 1)) + 1 by omega, List.getElem?_cons_succ] at h2
        exact h2

/-- From `r` to `r'` the rows `new` are written and the tests in `l` made. -/
def LogTo (c : PPCfg) (r r' : PPLoc) (l : List ℕ) : Prop :=
  ∃ new, ppRows r'.trace = ppRows r.trace ++ new ∧ r'.tests = r.tests + new.length ∧ l = due c r.tests new

theorem LogTo.same {c : PPCfg} {r r' : PPLoc} (h1 : ppRows r'.trace = ppRows r.trace) (h2 : r'.tests = r.tests) :
    LogTo c r r' [] := ⟨[], by simp [h1], by simp [h2], rfl⟩

theorem LogTo.trans {c : PPCfg} {r r' r'' : PPLoc} {l l' : List ℕ} (h : LogTo c r r' l) (h' : LogTo c r' r'' l') :
    LogTo c r r'' (l ++ l') := by
  obtain ⟨n, a1, a2, a3⟩ := h
  obtain ⟨n', b1, b2, b3⟩ := h'
  exact ⟨n ++ n', by rw [b1, a1, List.append_assoc], by rw [b2, a2, List.length_append]; omega,
    by rw [due_append, ← a2, ← b3, ← a3]⟩

variable {c : PPCfg}

theorem ppTest_log {pp : Bool} {ch : Prop} {r : PPLoc} {s : σ} {o : σ × (PPLoc × Bool)}
    (h : (ppTestProg c pp ch r).run exec clk s = .ok o) :
    LogTo c r o.2.1 (critical exec clk (ppTestProg c pp ch r) s) ∧ o.2.1.iter = r.iter := by
  unfold ppTestProg at h ⊢
  by_cases e1 : c.resprint = 0
  · rw [if_pos e1] at h
    cases h
  rw [if_neg e1] at h ⊢
  by_cases e2 : ch
  swap
  · rw [if_neg e2] at h ⊢
    cases h
    exact ⟨.same rfl rfl, rfl⟩
  rw [if_pos e2] at h ⊢
  obtain ⟨q, q1, h⟩ := run_call h
  rw [critical_call q1]
  dsimp only at h ⊢
  have hrow : ∀ l, l = due c r.tests [(r.iter, q.2.1, pp)] →
      LogTo c r ⟨r.iter, q.2.1, r.tests + 1, (), r.trace ++ [.row r.iter q.2.1 pp q.2.2]⟩ l := by
    intro l hl
    exact ⟨[(r.iter, q.2.1, pp)], by simp [ppRows_append, ppRows], rfl, hl⟩
  by_cases e3 : q.2.1 < c.tol ∨ (c.tucker = true ∧ pp = true ∧ (r.iter : ℤ) = c.maxiter)
  · rw [if_pos e3] at h ⊢
    cases h
    refine ⟨hrow _ ?_, rfl⟩
    rw [due, if_pos (show Decides c (r.iter, q.2.1, pp) from e3)]
    rfl
  · rw [if_neg e3] at h ⊢
    rw [critical]
    rw [Prog.run] at h
    have hd : due c r.tests [(r.iter, q.2.1, pp)] = [r.tests] := by
      rw [due, if_neg (show ¬ Decides c (r.iter, q.2.1, pp) from e3)]
      rfl
    cases e4 : clk r.tests <;> rw [e4] at h
    · obtain ⟨q2, q2e, h⟩ := run_call h
      cases h
      simp only [Bool.false_eq_true, if_false]
      rw [critical_call q2e]
      exact ⟨hrow _ hd.symm, trivial⟩
    · cases h
      exact ⟨hrow _ hd.symm, rfl⟩

theorem dtSub_log : ∀ (fuel : ℕ) (r : PPLoc) (s : σ) (o : σ × PPLoc), (dtSubProg c fuel r).run exec clk s = .ok o →
    LogTo c r o.2 (critical exec clk (dtSubProg c fuel r) s)
  | 0, _, _, _, h => by cases h
  | fuel + 1, r, s, o, h => by
    unfold dtSubProg at h ⊢
    by_cases e1 : (r.iter : ℤ) ≤ c.maxiter
    swap
    · rw [if_neg e1] at h ⊢
      cases h
      exact .same rfl rfl
    rw [if_pos e1] at h ⊢
    obtain ⟨t, t1, h⟩ := run_andThen_ok h
    obtain ⟨h1, _⟩ := ppTest_log t1
    rw [critical_andThen _ t1]
    refine h1.trans ?_
    obtain ⟨s1, r1, b⟩ := t
    cases b
    · obtain ⟨q, q1, h⟩ := run_call h
      simp only [Bool.false_eq_true, if_false]
      rw [critical_call q1]
      obtain ⟨q2, q2e, h⟩ := run_call h
      erw [critical_call q2e]
      obtain ⟨s2, b⟩ := q2
      change Bool at b
      cases b
      · have := dtSub_log fuel _ _ _ h
        obtain ⟨n, a1, a2, a3⟩ := this
        exact ⟨n, by rw [a1]; simp [ppRows_append, ppRows], a2, a3⟩
      · cases h
        exact .same (by simp [ppRows_append, ppRows]) rfl
    · cases h
      exact .same rfl rfl

theorem benchInc_log (r : PPLoc) : LogTo c r (benchInc c r) [] := by
  unfold benchInc
  split
  · exact .same rfl rfl
  · exact .same rfl rfl

theorem ppSub_log {init : ℕ} : ∀ (fuel : ℕ) (r : PPLoc) (s : σ) (o : σ × PPLoc), (ppSubProg c init fuel r).run exec clk s = .ok o →
    LogTo c r o.2 (critical exec clk (ppSubProg c init fuel r) s)
  | 0, _, _, _, h => by cases h
  | fuel + 1, r, s, o, h => by
    unfold ppSubProg at h ⊢
    by_cases e1 : (r.iter : ℤ) ≤ c.maxiter
    swap
    · rw [if_neg e1] at h ⊢
      cases h
      exact benchInc_log r
    rw [if_pos e1] at h ⊢
    obtain ⟨⟨s1, far⟩, f1, h⟩ := run_andThen_ok h
    rw [critical_andThen _ f1]
    have hfar : critical exec clk (if c.bench then .ret false else .call .ppFar fun (b : Bool) => .ret b : Prog Bool) s = [] := by
      by_cases e4 : c.bench = true
      · rw [if_pos e4]
        rfl
      · rw [if_neg e4] at f1 ⊢
        obtain ⟨q, q1, f1⟩ := run_call f1
        erw [critical_call q1]
        rfl
    rw [hfar, List.nil_append]
    dsimp only at h ⊢
    by_cases e2 : (far || (c.tucker == false && r.iter != init && (r.iter - init) % 15 == 0)) = true
    · rw [if_pos e2] at h ⊢
      cases h
      exact .same rfl rfl
    rw [if_neg e2] at h ⊢
    obtain ⟨⟨s2, r1⟩, g1, h⟩ := run_andThen_ok h
    rw [critical_andThen _ g1]
    have hen : LogTo c r r1 (critical exec clk (if r.iter = init then .call .ppBegin fun _ =>
        .ret { r with trace := r.trace ++ [.ppStart] } else .ret r : Prog PPLoc) s1) := by
      by_cases e3 : r.iter = init
      · rw [if_pos e3] at g1 ⊢
        obtain ⟨q, q1, g1⟩ := run_call g1
        rw [critical_call q1]
        cases g1
        exact .same (by simp [ppRows_append, ppRows]) rfl
      · rw [if_neg e3] at g1 ⊢
        cases g1
        exact .same rfl rfl
    refine hen.trans ?_
    obtain ⟨t, t1, h⟩ := run_andThen_ok h
    obtain ⟨h1, _⟩ := ppTest_log t1
    rw [critical_andThen _ t1]
    refine h1.trans ?_
    obtain ⟨s3, r2, b⟩ := t
    cases b
    · obtain ⟨q, q1, h⟩ := run_call h
      simp only [Bool.false_eq_true, if_false]
      rw [critical_call q1]
      obtain ⟨n, a1, a2, a3⟩ := ppSub_log fuel _ _ _ h
      exact ⟨n, by rw [a1]; simp [ppRows_append, ppRows], a2, a3⟩
    · cases h
      exact benchInc_log r2

theorem ppLoop_log {sub : ℕ} : ∀ (fuel : ℕ) (r : PPLoc) (s : σ) (o : σ × PPLoc), (ppLoopProg c sub fuel r).run exec clk s = .ok o →
    LogTo c r o.2 (critical exec clk (ppLoopProg c sub fuel r) s)
  | 0, _, _, _, h => by cases h
  | fuel + 1, r, s, o, h => by
    unfold ppLoopProg at h ⊢
    by_cases e1 : c.tol < r.grad ∧ (r.iter : ℤ) ≤ c.maxiter
    swap
    · rw [if_neg e1] at h ⊢
      cases h
      exact .same rfl rfl
    rw [if_pos e1] at h ⊢
    obtain ⟨⟨s1, r1⟩, f1, h⟩ := run_andThen_ok h
    rw [critical_andThen _ f1]
    have hdt : LogTo c r r1 (critical exec clk (if c.bench then .ret r
        else .call .dtBegin fun _ => dtSubProg c sub { r with trace := r.trace ++ [.dtStart] } : Prog PPLoc) s) := by
      by_cases e4 : c.bench = true
      · rw [if_pos e4] at f1 ⊢
        cases f1
        exact .same rfl rfl
      · rw [if_neg e4] at f1 ⊢
        obtain ⟨q, q1, f1⟩ := run_call f1
        rw [critical_call q1]
        obtain ⟨n, a1, a2, a3⟩ := dtSub_log sub _ _ _ f1
        exact ⟨n, by rw [a1]; simp [ppRows_append, ppRows], a2, a3⟩
    refine hdt.trans ?_
    obtain ⟨⟨s2, r2⟩, g1, h⟩ := run_andThen_ok h
    rw [critical_andThen _ g1]
    refine (ppSub_log _ _ _ _ g1).trans ?_
    obtain ⟨q, q1, h⟩ := run_call h
    rw [critical_call q1]
    exact ppLoop_log fuel _ _ _ h

/-- The time tests made by a PP driver are those of the rows that do not decide by themselves. -/
theorem ppProg_critical {fuel : ℕ} {s : σ} {o : σ × (PPLoc × Bool)} (h : (ppProg c fuel).run exec clk s = .ok o) (t : ℕ) :
    t ∈ critical exec clk (ppProg c fuel) s ↔ ∃ x, (ppRows o.2.1.trace)[t]? = some x ∧ ¬ Decides c x := by
  unfold ppProg at h ⊢
  obtain ⟨q, q1, h⟩ := run_andThen_ok h
  rw [critical_andThen _ q1]
  obtain ⟨n, a1, a2, a3⟩ := ppLoop_log _ _ _ _ q1
  cases h
  rw [a3, a1]
  simp only [critical, List.append_nil, mem_due, Nat.zero_le, true_and, Nat.sub_zero, ppRows, List.nil_append]

/-- The time tests made by one of the older drivers are those of the rows whose measured quantity is not below `tol`. -/
theorem llProg_critical (a : LLArgs) (checked : ℕ → Prop) : ∀ (fuel iter : ℕ) (rows : List (ℕ × ℝ × ℝ)) (s : σ) (o : σ × LLRes),
    (llProg a checked fuel iter rows).run exec clk s = .ok o → ∃ new, o.2.2.1 = rows ++ new ∧
      ∀ t, t ∈ critical exec clk (llProg a checked fuel iter rows) s ↔ ∃ x ∈ new, x.1 = t ∧ ¬ x.2.1 < a.tol
  | 0, _, _, _, _, h => by cases h
  | fuel + 1, iter, rows, s, o, h => by
    unfold llProg at h ⊢
    by_cases e1 : (iter : ℤ) ≤ a.maxiter
    swap
    · rw [if_neg e1] at h ⊢
      cases h
      exact ⟨[], by simp, by simp [critical]⟩
    rw [if_pos e1] at h ⊢
    by_cases e2 : a.resprint = 0
    · rw [if_pos e2] at h
      cases h
    rw [if_neg e2] at h ⊢
    by_cases e3 : checked iter
    swap
    · rw [if_neg e3] at h ⊢
      obtain ⟨q, q1, h⟩ := run_call h
      rw [critical_call q1]
      exact llProg_critical a checked fuel _ _ _ _ h
    rw [if_pos e3] at h ⊢
    obtain ⟨q, q1, h⟩ := run_call h
    rw [critical_call q1]
    dsimp only at h ⊢
    by_cases e4 : q.2.1 < a.tol
    · rw [if_pos e4] at h ⊢
      cases h
      exact ⟨[(iter, q.2.1, q.2.2)], rfl, by simp [critical, e4]⟩
    rw [if_neg e4] at h ⊢
    rw [Prog.run] at h
    rw [critical]
    cases e5 : clk iter <;> rw [e5] at h
    · obtain ⟨q2, q2e, h⟩ := run_call h
      obtain ⟨q3, q3e, h⟩ := run_call h
      obtain ⟨new, n1, n2⟩ := llProg_critical a checked fuel _ _ _ _ h
      refine ⟨(iter, q.2.1, q.2.2) :: new, by rw [n1]; simp, fun t => ?_⟩
      simp only [Bool.false_eq_true, if_false]
      rw [critical_call q2e, critical_call q3e, List.mem_cons, n2]
      constructor
      · rintro (rfl | ⟨x, x1, x2⟩)
        · exact ⟨_, List.mem_cons_self, rfl, e4⟩
        · exact ⟨x, List.mem_cons_of_mem _ x1, x2⟩
      · rintro ⟨x, x1, x2, x3⟩
        rcases List.mem_cons.1 x1 with rfl | x1
        · exact Or.inl x2.symm
        · exact Or.inr ⟨x, x1, x2, x3⟩
    · cases h
      refine ⟨[(iter, q.2.1, q.2.2)], rfl, fun t => ?_⟩
      simp [critical, not_lt.1 e4, eq_comm]

theorem due_pairwise (c : PPCfg) : ∀ (l : List (ℕ × ℝ × Bool)) (base : ℕ), (due c base l).Pairwise (· < ·)
  | [], _ => List.Pairwise.nil
  | x :: l, base => by
    rw [due]
    have h := due_pairwise c l (base + 1)
    split
    · exact h
    · refine List.Pairwise.cons ?_ h
      intro t ht
      have := ((mem_due c t l (base + 1)).1 ht).1
      omega

theorem ppProg_pairwise {fuel : ℕ} {s : σ} {o : σ × (PPLoc × Bool)} (h : (ppProg c fuel).run exec clk s = .ok o) :
    (critical exec clk (ppProg c fuel) s).Pairwise (· < ·) := by
  unfold ppProg at h ⊢
  obtain ⟨q, q1, h⟩ := run_andThen_ok h
  rw [critical_andThen _ q1]
  obtain ⟨n, a1, a2, a3⟩ := ppLoop_log _ _ _ _ q1
  rw [a3]
  simpa only [critical, List.append_nil] using due_pairwise c n _

/-- Ranks that agree with a fictitious rank up to test `t` and disagree with each other there. -/
theorem spmd_split_at {P : ℕ} {clk : Fin P → ℕ → Bool} (clk' : ℕ → Bool) {t : ℕ} {p q : Fin P} (hpq : clk p t ≠ clk q t) :
    ∀ (A : Prog α) (s : σ) (o : σ × α), A.run exec clk' s = .ok o → Sens exec clk' A s → t ∈ critical exec clk' A s →
    (critical exec clk' A s).Pairwise (· < ·) → (∀ u ∈ critical exec clk' A s, u < t → ∀ p, clk p u = clk' u) →
    Spmd exec clk (fun _ => A) s .mismatch := by
  intro A
  induction A with
  | ret a => rintro s o h _ ht; cases ht
  | fail f => intro s o h _; cases h
  | late u k ih =>
    rintro s o h ⟨hs, hs'⟩ ht hw ha
    rw [critical] at ht hw ha
    refine .late (fun _ => rfl) ?_
    rcases List.mem_cons.1 ht with h1 | h1
    · subst h1
      obtain ⟨hc, hh⟩ := hs
      have hne : ¬ ∃ (op : DOp) (k' : Fin P → op.Res → Prog α), ∀ p, k (clk p t) = .call op (k' p) := by
        rintro ⟨op, k', h'⟩
        refine hh ⟨op, ?_⟩
        have h1 := h' p
        have h2 := h' q
        cases e1 : clk p t <;> cases e2 : clk q t <;> rw [e1] at h1 <;> rw [e2] at h2
        · exact absurd (e1.trans e2.symm) hpq
        · exact ⟨_, _, h2, h1⟩
        · exact ⟨_, _, h1, h2⟩
        · exact absurd (e1.trans e2.symm) hpq
      cases e1 : clk p t <;> cases e2 : clk q t
      · exact absurd (e1.trans e2.symm) hpq
      · refine .mismatch p q ?_ hne
        simp only [e1, e2]
        exact hc
      · refine .mismatch q p ?_ hne
        simp only [e1, e2]
        exact hc
      · exact absurd (e1.trans e2.symm) hpq
    · have hlt := List.rel_of_pairwise_cons hw h1
      have e : (fun p => k (clk p u)) = fun _ => k (clk' u) := by
        funext p
        rw [ha u List.mem_cons_self hlt p]
      rw [e]
      exact ih _ s o h hs' h1 hw.of_cons fun v hv => ha v (List.mem_cons_of_mem _ hv)
  | call op k ih =>
    rintro s o h hs ht hw ha
    obtain ⟨v, he, h⟩ := run_call h
    rw [critical_call he] at ht hw ha
    exact .call (fun _ => rfl) he (ih _ _ o h (hs v he) ht hw ha)

/-- Ranks that agree with a fictitious rank. -/
theorem spmd_follow {P : ℕ} {clk : Fin P → ℕ → Bool} (clk' : ℕ → Bool) : ∀ (A : Prog α) (s : σ) (o : σ × α),
    A.run exec clk' s = .ok o → (∀ t ∈ critical exec clk' A s, ∀ p, clk p t = clk' t) →
    Spmd exec clk (fun _ => A) s (.finished o.1 fun _ => o.2) := by
  intro A
  induction A with
  | ret a => intro s o h _; cases h; exact .done fun _ => rfl
  | fail f => intro s o h _; cases h
  | late t k ih =>
    intro s o h ha
    refine .late (fun _ => rfl) ?_
    have e : (fun p => k (clk p t)) = fun _ => k (clk' t) := by
      funext p
      rw [ha t (by rw [critical]; simp) p]
    rw [e]
    exact ih _ s o h fun t' ht' => ha t' (by rw [critical]; exact List.mem_cons_of_mem _ ht')
  | call op k ih =>
    intro s o h ha
    obtain ⟨v, he, h⟩ := run_call h
    rw [critical_call he] at ha
    exact .call (fun _ => rfl) he (ih _ _ o h ha)

/-- A failing run. -/
theorem spmd_agree_error {P : ℕ} {clk : Fin P → ℕ → Bool} (q : Fin P) : ∀ (A : Prog α) (s : σ) (f : Fault),
    A.run exec (clk q) s = .error f → (∀ t ∈ critical exec (clk q) A s, ∀ p, clk p t = clk q t) →
    Spmd exec clk (fun _ => A) s (.fault f) := by
  intro A
  induction A with
  | ret a => intro s o h _; cases h
  | fail f => intro s o h _; cases h; exact .fail fun _ => rfl
  | late t k ih =>
    intro s o h ha
    refine .late (fun _ => rfl) ?_
    have e : (fun p => k (clk p t)) = fun _ => k (clk q t) := by
      funext p
      rw [ha t (by rw [critical]; simp) p]
    rw [e]
    exact ih _ s o h fun t' ht' => ha t' (by rw [critical]; exact List.mem_cons_of_mem _ ht')
  | call op k ih =>
    intro s o h ha
    cases he : exec op s with
    | error e =>
      rw [run_call_eq, he] at h
      cases h
      exact .error (fun _ => rfl) he
    | ok q =>
      rw [run_call_eq, he] at h
      rw [critical_call he] at ha
      exact .call (fun _ => rfl) he (ih _ _ o h ha)

end Model
