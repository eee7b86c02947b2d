import Verif.Proofs.Ieee
import Verif.Properties.RunMain
import Verif.Properties.PartDriver
import Verif.Properties.BenchTuck

/-! # C67: NaN and infinite values in the stop tests -/

namespace Properties

open Model Finset

/-! ## What the comparisons say -/

/-- `tol` can never be met from below: nothing is smaller than NaN. -/
theorem below_nan_tol (tl : F64) (clock : ℕ → F64) (x : F64) : ¬ (ieeeCmp .nan tl clock).below x := by
  cases x <;> exact id

/-- NaN is not below any tolerance, and not above it. -/
theorem cmp_nan (tol tl : F64) (clock : ℕ → F64) : ¬ (ieeeCmp tol tl clock).below .nan ∧ ¬ (ieeeCmp tol tl clock).above .nan := by
  constructor
  · exact id
  · cases tol <;> exact id

/-- A limit that is NaN or `+inf` is never passed. -/
theorem never_late {tl : F64} (h : tl = .nan ∨ tl = .pinf) (tol : F64) (clock : ℕ → F64) (k : ℕ) :
    ¬ (ieeeCmp tol tl clock).late k := by
  rcases h with rfl | rfl <;> simp only [ieeeCmp] <;> cases clock k <;> exact id

theorem never_late_mix {tl : F64} (h : tl = .nan ∨ tl = .pinf) (tol : F64) (clock : ℕ → ℝ) (k : ℕ) :
    ¬ (mixCmp tol tl clock).late k := by
  rcases h with rfl | rfl <;> simp only [mixCmp] <;> exact id

/-! ## The loops of `alsCP`, `alsCP_DT`, `alsTucker`, `alsTucker_DT` -/

section Loop

variable {σ : Type} {M : Type}

theorem llLoopC_exit (t : Cmp M) {mi rp : ℤ} {h : LLHooks σ M} : ∀ {fuel it : ℕ} {st : σ} {rows : List (ℕ × M × M)} {r : LLEnd σ M},
    llLoopC t mi rp h fuel it st rows = .ok r → (it : ℤ) ≤ mi + 1 →
    (r.iter : ℤ) ≤ mi + 1 ∧ it ≤ r.iter ∧ (r.ret = true ↔ ¬ (r.iter : ℤ) = mi + 1) ∧
      ((r.iter : ℤ) ≤ mi → ∃ g d, r.rows.getLast? = some (r.iter, g, d) ∧ (t.below g ∨ t.late r.iter)) ∧
      ∀ row ∈ r.rows, row ∈ rows ∨ (it ≤ row.1 ∧ row.1 ≤ r.iter ∧ (row.1 < r.iter → ¬ t.below row.2.1 ∧ ¬ t.late row.1)) := by
  intro fuel
  induction fuel with
  | zero => intro it st rows r hr; cases hr
  | succ fuel ih =>
    intro it st rows r hr hit
    unfold llLoopC at hr
    by_cases h1 : (it : ℤ) ≤ mi
    · rw [if_pos h1] at hr
      by_cases h2 : rp = 0
      · rw [if_pos h2] at hr; cases hr
      · rw [if_neg h2] at hr
        by_cases h3 : h.checked it
        · rw [if_pos h3] at hr
          simp only [bind, Except.bind] at hr
          cases hc : h.check st with
          | error e => rw [hc] at hr; cases hr
          | ok c =>
            rw [hc] at hr
            simp only at hr
            by_cases h4 : t.below c.2.1 ∨ t.late it
            · rw [if_pos h4] at hr
              obtain rfl := Except.ok.inj hr
              refine ⟨hit, le_rfl, by simp, fun _ => ⟨c.2.1, c.2.2, by simp, h4⟩, ?_⟩
              intro row hrow
              simp only [List.mem_append, List.mem_singleton] at hrow
              rcases hrow with hrow | rfl
              · exact .inl hrow
              · exact .inr ⟨le_rfl, le_rfl, fun h => absurd h (lt_irrefl _)⟩
            · rw [if_neg h4] at hr
              cases ha : h.accept c.1 with
              | error e => rw [ha] at hr; cases hr
              | ok s1 =>
                rw [ha] at hr
                simp only at hr
                cases hs : h.sweep s1 with
                | error e => rw [hs] at hr; cases hr
                | ok s2 =>
                  rw [hs] at hr
                  obtain ⟨a1, a2, a3, a4, a5⟩ := ih hr (by push_cast; omega)
                  refine ⟨a1, by omega, a3, a4, fun row hrow => ?_⟩
                  rcases a5 row hrow with h | ⟨h, h', h''⟩
                  · simp only [List.mem_append, List.mem_singleton] at h
                    rcases h with h | rfl
                    · exact .inl h
                    · exact .inr ⟨le_rfl, by simp only; omega, fun _ => not_or.1 h4⟩
                  · exact .inr ⟨by omega, h', h''⟩
        · rw [if_neg h3] at hr
          simp only [bind, Except.bind] at hr
          cases hs : h.sweep st with
          | error e => rw [hs] at hr; cases hr
          | ok s2 =>
            rw [hs] at hr
            obtain ⟨a1, a2, a3, a4, a5⟩ := ih hr (by push_cast; omega)
            refine ⟨a1, by omega, a3, a4, fun row hrow => ?_⟩
            rcases a5 row hrow with h | ⟨h, h', h''⟩
            · exact .inl h
            · exact .inr ⟨by omega, h', h''⟩
    · rw [if_neg h1] at hr
      obtain rfl := Except.ok.inj hr
      exact ⟨hit, le_rfl, by simp, fun h => absurd h h1, fun row hrow => .inl hrow⟩

/-- **C67 (the ALS loops).** `alsCP`, `alsCP_DT`, `alsTucker`, `alsTucker_DT` with arbitrary IEEE doubles as `tol`, `timelimit`, clock
and measured values: at most `maxiter + 1` iterations; `true` is returned exactly if fewer were made, and then the last line of the log
has a value that is smaller than `tol` in the IEEE sense (so neither is NaN), or the limit was passed (so it is neither NaN nor `+inf`);
no earlier line has. -/
theorem C67_loop {tol tl : F64} {clock : ℕ → F64} {mi rp : ℤ} (hm : 0 ≤ mi) {h : LLHooks σ F64} {fuel : ℕ} {st : σ} {r : LLEnd σ F64}
    (hr : llLoopC (ieeeCmp tol tl clock) mi rp h fuel 0 st [] = .ok r) :
    (r.iter : ℤ) ≤ mi + 1 ∧ (r.ret = true ↔ (r.iter : ℤ) ≤ mi) ∧
      (r.ret = true → ∃ g d, r.rows.getLast? = some (r.iter, g, d) ∧ (g.lt tol ∨ tl.lt (clock r.iter))) ∧
      ∀ row ∈ r.rows, row.1 < r.iter → ¬ row.2.1.lt tol ∧ ¬ tl.lt (clock row.1) := by
  obtain ⟨a1, -, a3, a4, a5⟩ := llLoopC_exit _ hr (by push_cast; omega)
  have a6 : r.ret = true ↔ (r.iter : ℤ) ≤ mi := by rw [a3]; omega
  refine ⟨a1, a6, fun h => a4 (a6.1 h), fun row hrow hlt => ?_⟩
  rcases a5 row hrow with h | h
  · cases h
  · exact h.2.2 hlt

/-- **C67 (the ALS loops, no stop test).** With `tol` NaN and a limit that is NaN or `+inf` all `maxiter + 1` iterations are made and
`false` is returned. -/
theorem C67_loop_nan_tol {tl : F64} (htl : tl = .nan ∨ tl = .pinf) {clock : ℕ → F64} {mi rp : ℤ} (hm : 0 ≤ mi) {h : LLHooks σ F64}
    {fuel : ℕ} {st : σ} {r : LLEnd σ F64} (hr : llLoopC (ieeeCmp .nan tl clock) mi rp h fuel 0 st [] = .ok r) :
    (r.iter : ℤ) = mi + 1 ∧ r.ret = false := by
  obtain ⟨a1, a2, a3, -⟩ := C67_loop hm hr
  have hret : ¬ r.ret = true := by
    intro h
    obtain ⟨g, d, -, h | h⟩ := a3 h
    · exact below_nan_tol tl clock g h
    · exact never_late htl .nan clock _ h
  refine ⟨?_, by simpa using hret⟩
  rw [a2] at hret
  omega

/-- **C67 (the ALS loops, NaN in the factors).** Once the state is such that the measured value is NaN and stays so, no test stops the
loop: unless the limit is passed it makes all `maxiter + 1` iterations (with NaN factors) and returns `false`. -/
theorem C67_loop_poisoned {tol tl : F64} {clock : ℕ → F64} (hl : ∀ k, ¬ tl.lt (clock k)) {mi rp : ℤ} (hm : 0 ≤ mi) (hrp : rp ≠ 0)
    {h : LLHooks σ F64} (P : σ → Prop) (hc : ∀ s, P s → ∃ s' d, h.check s = .ok (s', .nan, d) ∧ P s')
    (ha : ∀ s, P s → ∃ s', h.accept s = .ok s' ∧ P s') (hs : ∀ s, P s → ∃ s', h.sweep s = .ok s' ∧ P s') {fuel : ℕ}
    (hf : mi + 1 < fuel) {st : σ} (h0 : P st) :
    ∃ r, llLoopC (ieeeCmp tol tl clock) mi rp h fuel 0 st [] = .ok r ∧ (r.iter : ℤ) = mi + 1 ∧ r.ret = false ∧ P r.st := by
  have key : ∀ (fuel it : ℕ) st rows, P st → (it : ℤ) ≤ mi + 1 → mi + 1 < (it : ℤ) + fuel →
      ∃ r, llLoopC (ieeeCmp tol tl clock) mi rp h fuel it st rows = .ok r ∧ (r.iter : ℤ) = mi + 1 ∧ r.ret = false ∧ P r.st := by
    intro fuel
    induction fuel with
    | zero => intro it st rows _ h1 h2; omega
    | succ fuel ih =>
      intro it st rows hP h1 h2
      unfold llLoopC
      by_cases h3 : (it : ℤ) ≤ mi
      · rw [if_pos h3, if_neg hrp]
        by_cases h4 : h.checked it
        · rw [if_pos h4]
          obtain ⟨s1, d, c1, c2⟩ := hc st hP
          obtain ⟨s2, d1, d2⟩ := ha s1 c2
          obtain ⟨s3, e1, e2⟩ := hs s2 d2
          simp only [bind, Except.bind, c1]
          rw [if_neg (by rintro (h | h); exact (cmp_nan tol tl clock).1 h; exact hl _ h), d1]
          simp only [e1]
          exact ih _ _ _ e2 (by push_cast; omega) (by push_cast at h2 ⊢; omega)
        · rw [if_neg h4]
          obtain ⟨s3, e1, e2⟩ := hs st hP
          simp only [bind, Except.bind, e1]
          exact ih _ _ _ e2 (by push_cast; omega) (by push_cast at h2 ⊢; omega)
      · rw [if_neg h3]
        have : (it : ℤ) = mi + 1 := by omega
        exact ⟨_, rfl, this, by simp [this], hP⟩
  exact key fuel 0 st [] h0 (by push_cast; omega) (by push_cast; omega)

/-! ## `CPD::als` -/

theorem alsLoopC_exit (t : Cmp M) {mi rp : ℤ} {step : σ → Except Fault σ} {inc : ℚ} {check : σ → Except Fault (M × M)} :
    ∀ {fuel it : ℕ} {sw : ℚ} {st : σ} {rows : List (AlsRow M)} {r : AlsEnd σ M},
    alsLoopC t mi rp step inc check fuel it sw st rows = .ok r →
    (r.ret = true ↔ ¬ r.sweeps = (mi : ℚ) + 1) ∧ (mi < ⌊r.sweeps⌋ ∨
      ∃ row, r.rows.getLast? = some row ∧ row.iter = r.iters ∧ (t.below row.gradnorm ∨ t.late r.iters)) := by
  intro fuel
  induction fuel with
  | zero => intro it sw st rows r hr; cases hr
  | succ fuel ih =>
    intro it sw st rows r hr
    unfold alsLoopC at hr
    by_cases h1 : ⌊sw⌋ ≤ mi
    · rw [if_pos h1] at hr
      by_cases h2 : rp = 0
      · rw [if_pos h2] at hr; cases hr
      · rw [if_neg h2] at hr
        have hstep : ∀ rows', (do let st' ← step st; alsLoopC t mi rp step inc check fuel (it + 1) (sw + inc) st' rows') = .ok r →
            (r.ret = true ↔ ¬ r.sweeps = (mi : ℚ) + 1) ∧ (mi < ⌊r.sweeps⌋ ∨
              ∃ row, r.rows.getLast? = some row ∧ row.iter = r.iters ∧ (t.below row.gradnorm ∨ t.late r.iters)) := by
          intro rows' h
          simp only [bind, Except.bind] at h
          cases hs : step st with
          | error e => rw [hs] at h; cases h
          | ok s2 => rw [hs] at h; exact ih h
        split_ifs at hr with h3
        · simp only [bind, Except.bind] at hr
          cases hc : check st with
          | error e => rw [hc] at hr; cases hr
          | ok c =>
            rw [hc] at hr
            simp only at hr
            by_cases h4 : t.below c.1 ∨ t.late it
            · rw [if_pos h4] at hr
              obtain rfl := Except.ok.inj hr
              exact ⟨by simp, .inr ⟨⟨it, sw, c.1, c.2⟩, by simp, rfl, h4⟩⟩
            · rw [if_neg h4] at hr
              exact hstep _ hr
        · exact hstep _ hr
    · rw [if_neg h1] at hr
      obtain rfl := Except.ok.inj hr
      exact ⟨by simp, .inl (by simp only; omega)⟩

/-- **C67 (`CPD::als`).** `als` with arbitrary IEEE doubles as `tol`, `timelimit`, clock and measured values: when it returns, either more
than `max_sweep` sweeps were made, or the last line of the log has a gradient norm smaller than `tol` in the IEEE sense (so neither is
NaN), or the limit was passed. -/
theorem C67_als {tol tl : F64} {clock : ℕ → F64} {mi rp : ℤ} {step : σ → Except Fault σ} {inc : ℚ} {check : σ → Except Fault (F64 × F64)}
    {fuel : ℕ} {st : σ} {r : AlsEnd σ F64} (hr : alsLoopC (ieeeCmp tol tl clock) mi rp step inc check fuel 0 0 st [] = .ok r) :
    (r.ret = true ↔ r.sweeps ≠ (mi : ℚ) + 1) ∧ (mi < ⌊r.sweeps⌋ ∨
      ∃ row, r.rows.getLast? = some row ∧ row.iter = r.iters ∧ (row.gradnorm.lt tol ∨ tl.lt (clock r.iters))) :=
  alsLoopC_exit _ hr

/-- **C67 (`CPD::als`, NaN in the factors).** Once the gradient norm is NaN and stays so, `als` goes on until `max_sweep` sweeps are
exceeded, unless the limit is passed. -/
theorem C67_als_poisoned {tol tl : F64} {clock : ℕ → F64} (hl : ∀ k, ¬ tl.lt (clock k)) {mi rp : ℤ} (hrp : rp ≠ 0)
    {step : σ → Except Fault σ} {inc : ℚ} (hinc : 0 < inc) {check : σ → Except Fault (F64 × F64)} (P : σ → Prop)
    (hc : ∀ s, P s → ∃ d, check s = .ok (.nan, d)) (hs : ∀ s, P s → ∃ s', step s = .ok s' ∧ P s') {fuel : ℕ}
    (hf0 : 0 < fuel) (hf : ((mi : ℚ) + 1) / inc + 1 ≤ fuel) {st : σ} (h0 : P st) :
    ∃ r, alsLoopC (ieeeCmp tol tl clock) mi rp step inc check fuel 0 0 st [] = .ok r ∧ mi < ⌊r.sweeps⌋ ∧ r.broke = false ∧ P r.st := by
  have key : ∀ (fuel it : ℕ) (sw : ℚ) st rows, P st → 0 < fuel → (mi : ℚ) + 1 + inc ≤ sw + inc * (fuel : ℕ) →
      ∃ r, alsLoopC (ieeeCmp tol tl clock) mi rp step inc check fuel it sw st rows = .ok r ∧ mi < ⌊r.sweeps⌋ ∧ r.broke = false ∧
        P r.st := by
    intro fuel
    induction fuel with
    | zero => intro it sw st rows _ h1; omega
    | succ fuel ih =>
      intro it sw st rows hP _ h2
      unfold alsLoopC
      by_cases h3 : ⌊sw⌋ ≤ mi
      · rw [if_pos h3, if_neg hrp]
        obtain ⟨s3, e1, e2⟩ := hs st hP
        have hsw : sw < (mi : ℚ) + 1 := by
          have := Int.lt_floor_add_one sw
          have h4 : ((⌊sw⌋ : ℤ) : ℚ) ≤ mi := by exact_mod_cast h3
          linarith
        push_cast at h2
        have hpos : 0 < fuel := by
          rcases Nat.eq_zero_or_pos fuel with h | h
          · subst h
            push_cast at h2
            linarith
          · exact h
        have hgo := fun rows' => ih (it + 1) (sw + inc) s3 rows' e2 hpos (by linarith)
        split_ifs with h4
        · obtain ⟨d, c1⟩ := hc st hP
          simp only [bind, Except.bind, c1]
          rw [if_neg (by rintro (h | h); exact (cmp_nan tol tl clock).1 h; exact hl _ h), e1]
          exact hgo _
        · simp only [bind, Except.bind, e1]
          exact hgo _
      · rw [if_neg h3]
        exact ⟨_, rfl, by simp only; omega, rfl, hP⟩
  have hq : (mi : ℚ) + 1 + inc ≤ inc * (fuel : ℕ) := by
    have := (div_le_iff₀ hinc).1 (show ((mi : ℚ) + 1) / inc ≤ (fuel : ℚ) - 1 by linarith)
    linarith
  exact key fuel 0 0 st [] h0 hf0 (by linarith)

end Loop

/-! ## The PP drivers -/

section PP

variable {σ : Type} {M : Type}

/-- The measured value in an event, if it is a line of the log. -/
def ppVal : PPEv M → Option M
  | .row _ g _ _ => some g
  | _ => none

/-- The counter is within its limit, and the remembered value is the one in the last line of the log (`ten` if there is none). -/
def PPInv (ten : M) (c : PPCtl) (r : PPRun σ M) : Prop :=
  (r.iter : ℤ) ≤ c.maxiter + 1 ∧ (r.trace.filterMap ppVal).getLast?.getD ten = r.grad

theorem ppTestC_inv {ten : M} {t : Cmp M} {c : PPCtl} {h : PPHooks σ M} {pp : Bool} {ch : Prop} {r : PPRun σ M} {u : PPRun σ M × Bool}
    (hr : PPInv ten c r) (hu : ppTestC t c h pp ch r = .ok u) : PPInv ten c u.1 ∧ u.1.iter = r.iter := by
  unfold ppTestC at hu
  split_ifs at hu with h1 h2
  · simp only [bind, Except.bind, pure, Except.pure] at hu
    cases hq : h.check r.st with
    | error e => rw [hq] at hu; cases hu
    | ok q =>
      rw [hq] at hu
      simp only at hu
      split_ifs at hu with h3
      · obtain rfl := Except.ok.inj hu
        exact ⟨⟨hr.1, by simp [List.filterMap_append, ppVal]⟩, rfl⟩
      · cases ha : h.accept q.1 with
        | error e => rw [ha] at hu; cases hu
        | ok s =>
          rw [ha] at hu
          obtain rfl := Except.ok.inj hu
          exact ⟨⟨hr.1, by simp [List.filterMap_append, ppVal]⟩, rfl⟩
  · obtain rfl := Except.ok.inj hu
    exact ⟨hr, rfl⟩

theorem dtSubLoopC_inv {ten : M} {t : Cmp M} {c : PPCtl} {h : PPHooks σ M} : ∀ {fuel : ℕ} {r r' : PPRun σ M}, PPInv ten c r →
    dtSubLoopC t c h fuel r = .ok r' → PPInv ten c r' := by
  intro fuel
  induction fuel with
  | zero => intro r r' _ h; cases h
  | succ fuel ih =>
    intro r r' hr hu
    unfold dtSubLoopC at hu
    split_ifs at hu with h1
    · simp only [bind, Except.bind, pure, Except.pure] at hu
      cases ht : ppTestC t c h false (dtCheckedC c r.iter) r with
      | error e => rw [ht] at hu; cases hu
      | ok u =>
        rw [ht] at hu
        obtain ⟨v1, v2⟩ := ppTestC_inv hr ht
        simp only at hu
        split_ifs at hu with h2
        · obtain rfl := Except.ok.inj hu
          exact v1
        · cases hs : h.dtSweep u.1.st with
          | error e => rw [hs] at hu; cases hu
          | ok s =>
            rw [hs] at hu
            simp only at hu
            cases hc : h.dtClose s with
            | error e => rw [hc] at hu; cases hu
            | ok b =>
              rw [hc] at hu
              simp only at hu
              have w : (List.filterMap ppVal (u.1.trace ++ [PPEv.dtSweep])).getLast?.getD ten = u.1.grad := by
                rw [List.filterMap_append]
                simpa [ppVal] using v1.2
              split_ifs at hu with h3
              · obtain rfl := Except.ok.inj hu
                exact ⟨v1.1, w⟩
              · exact ih ⟨by simp only; push_cast; omega, w⟩ hu
    · obtain rfl := Except.ok.inj hu
      exact hr

theorem ppSubLoopC_inv {ten : M} {t : Cmp M} {c : PPCtl} (hb : c.bench = false) {h : PPHooks σ M} {init : ℕ} :
    ∀ {fuel : ℕ} {r r' : PPRun σ M}, PPInv ten c r → ppSubLoopC t c h init fuel r = .ok r' → PPInv ten c r' := by
  intro fuel
  induction fuel with
  | zero => intro r r' _ h; cases h
  | succ fuel ih =>
    intro r r' hr hu
    unfold ppSubLoopC at hu
    split_ifs at hu with h1 h0
    · rw [hb] at h0; cases h0
    · simp only [bind, Except.bind, pure, Except.pure] at hu
      cases hfar : h.ppFar r.st with
      | error e => rw [hfar] at hu; cases hu
      | ok far =>
        rw [hfar] at hu
        simp only at hu
        split_ifs at hu with h2
        · obtain rfl := Except.ok.inj hu
          exact hr
        · cases he : ppEnterC h init r with
          | error e => rw [he] at hu; cases hu
          | ok r1 =>
            rw [he] at hu
            simp only at hu
            have hr1 : PPInv ten c r1 ∧ r1.iter = r.iter := by
              unfold ppEnterC at he
              split_ifs at he with h3
              · simp only [bind, Except.bind, pure, Except.pure] at he
                cases hs : h.ppBegin r.st with
                | error e => rw [hs] at he; cases he
                | ok s =>
                  rw [hs] at he
                  obtain rfl := Except.ok.inj he
                  refine ⟨⟨hr.1, ?_⟩, rfl⟩
                  simp only [List.filterMap_append]
                  simpa [ppVal] using hr.2
              · obtain rfl := Except.ok.inj he
                exact ⟨hr, rfl⟩
            cases ht : ppTestC t c h true (ppCheckedC c init r.iter) r1 with
            | error e => rw [ht] at hu; cases hu
            | ok u =>
              rw [ht] at hu
              obtain ⟨v1, v2⟩ := ppTestC_inv hr1.1 ht
              simp only at hu
              split_ifs at hu with h4
              · obtain rfl := Except.ok.inj hu
                unfold benchIncC
                rw [hb]
                exact v1
              · cases hs : h.ppSweep u.1.st with
                | error e => rw [hs] at hu; cases hu
                | ok s =>
                  rw [hs] at hu
                  refine ih ⟨?_, ?_⟩ hu
                  · have := hr1.2
                    simp only
                    push_cast
                    omega
                  · simp only [List.filterMap_append]
                    simpa [ppVal] using v1.2
    · obtain rfl := Except.ok.inj hu
      unfold benchIncC
      rw [hb]
      exact hr

theorem ppDriverLoopC_inv {ten : M} {t : Cmp M} {c : PPCtl} (hb : c.bench = false) {h : PPHooks σ M} {sub : ℕ} :
    ∀ {fuel : ℕ} {r r' : PPRun σ M}, PPInv ten c r → ppDriverLoopC t c h sub fuel r = .ok r' →
      PPInv ten c r' ∧ ¬ (t.above r'.grad ∧ (r'.iter : ℤ) ≤ c.maxiter) := by
  intro fuel
  induction fuel with
  | zero => intro r r' _ h; cases h
  | succ fuel ih =>
    intro r r' hr hu
    unfold ppDriverLoopC at hu
    split_ifs at hu with h1 h0
    · rw [hb] at h0; cases h0
    · unfold dtSubC at hu
      simp only [bind, Except.bind, pure, Except.pure] at hu
      cases hs : h.dtBegin r.st with
      | error e => rw [hs] at hu; cases hu
      | ok s =>
        rw [hs] at hu
        simp only at hu
        have hr0 : PPInv ten c { r with st := s, trace := r.trace ++ [.dtStart] } := by
          refine ⟨hr.1, ?_⟩
          simp only [List.filterMap_append]
          simpa [ppVal] using hr.2
        cases hd : dtSubLoopC t c h sub { r with st := s, trace := r.trace ++ [.dtStart] } with
        | error e => rw [hd] at hu; cases hu
        | ok r1 =>
          rw [hd] at hu
          simp only at hu
          cases hp : ppSubLoopC t c h r1.iter sub r1 with
          | error e => rw [hp] at hu; cases hu
          | ok r2 =>
            rw [hp] at hu
            have hr2 := ppSubLoopC_inv hb (dtSubLoopC_inv hr0 hd) hp
            exact ih (r := { r2 with st := h.endRound r2.st }) hr2 hu
    · obtain rfl := Except.ok.inj hu
      exact ⟨hr, h1⟩

/-- **C67 (the PP drivers).** `alsCP_PP`, `alsCP_PP_partupdate`, `alsTucker_PP` with arbitrary IEEE doubles as `tol`, `timelimit`, clock
and measured values: at most `maxiter + 1` iterations; `true` is returned exactly if fewer were made, and then the last measured value
(10 if nothing was measured) is not larger than `tol` in the IEEE sense, i.e. at most `tol`, or one of the two is NaN. -/
theorem C67_pp {tol tl : F64} {clock : ℕ → F64} {c : PPCtl} (hm : 0 ≤ c.maxiter) (hb : c.bench = false) {h : PPHooks σ F64} {fuel : ℕ}
    {st : σ} {r : PPRun σ F64} {ret : Bool} (hr : ppDriverC (ieeeCmp tol tl clock) (.fin 10) c h fuel st = .ok (r, ret)) :
    (r.iter : ℤ) ≤ c.maxiter + 1 ∧ (ret = true ↔ (r.iter : ℤ) ≤ c.maxiter) ∧
      (r.trace.filterMap ppVal).getLast?.getD (.fin 10) = r.grad ∧ (ret = true → ¬ tol.lt r.grad) := by
  unfold ppDriverC at hr
  simp only [bind, Except.bind, pure, Except.pure] at hr
  cases hl : ppDriverLoopC (ieeeCmp tol tl clock) c h fuel fuel ⟨0, .fin 10, 0, st, []⟩ with
  | error e => rw [hl] at hr; cases hr
  | ok r1 =>
    rw [hl] at hr
    obtain ⟨rfl, rfl⟩ := Prod.mk.inj (Except.ok.inj hr)
    obtain ⟨⟨a1, a2⟩, a3⟩ := ppDriverLoopC_inv (ten := .fin 10) hb ⟨by simp only; push_cast; omega, rfl⟩ hl
    have a4 : decide (¬ (r1.iter : ℤ) = c.maxiter + 1) = true ↔ (r1.iter : ℤ) ≤ c.maxiter := by
      rw [decide_eq_true_iff]; omega
    exact ⟨a1, a4, a2, fun h => fun h' => a3 ⟨h', a4.1 h⟩⟩

/-- **C67 (violated: NaN tolerance).** With `tol` NaN, or not below 10 (`+inf` included), a PP driver computes nothing, leaves the
initial factors, writes no log and returns `true`. -/
theorem C67_pp_nothing {tol : F64} (ht : tol = .nan ∨ tol = .pinf ∨ ∃ x, tol = .fin x ∧ 10 ≤ x) (tl : F64) (clock : ℕ → F64) {c : PPCtl}
    (hm : 0 ≤ c.maxiter) (h : PPHooks σ F64) (fuel : ℕ) (st : σ) :
    ppDriverC (ieeeCmp tol tl clock) (.fin 10) c h (fuel + 1) st = .ok (⟨0, .fin 10, 0, st, []⟩, true) := by
  have ha : ¬ (ieeeCmp tol tl clock).above (.fin 10) := by
    rcases ht with rfl | rfl | ⟨x, rfl, hx⟩
    · exact id
    · exact id
    · exact not_lt.2 hx
  unfold ppDriverC ppDriverLoopC
  simp only [ha, false_and, if_false, bind, Except.bind, pure, Except.pure]
  congr 2
  simp only [decide_eq_true_iff]
  push_cast
  omega

theorem ppTestC_poisoned {tol tl : F64} {clock : ℕ → F64} (hl : ∀ k, ¬ tl.lt (clock k)) {c : PPCtl} (hrp : c.resprint ≠ 0)
    {h : PPHooks σ F64} {P : σ → Prop} (hc : ∀ s, P s → ∃ s' d, h.check s = .ok (s', .nan, d) ∧ P s')
    (ha : ∀ s, P s → ∃ s', h.accept s = .ok s' ∧ P s') {pp : Bool} {ch : Prop} {r : PPRun σ F64}
    (hpp : ¬ (c.tucker = true ∧ pp = true ∧ (r.iter : ℤ) = c.maxiter)) (hP : P r.st) : ∃ u, ppTestC (ieeeCmp tol tl clock) c h pp ch r = .ok (u, false) ∧ P u.st ∧ u.iter = r.iter ∧
      (ch → u.grad = .nan) ∧ (¬ ch → u.grad = r.grad) := by
  unfold ppTestC
  rw [if_neg hrp]
  split_ifs with h1
  · obtain ⟨s1, d, c1, c2⟩ := hc _ hP
    obtain ⟨s2, d1, d2⟩ := ha s1 c2
    simp only [bind, Except.bind, c1, pure, Except.pure]
    rw [if_neg, d1]
    · exact ⟨_, rfl, d2, rfl, fun _ => rfl, fun h => absurd h1 h⟩
    · rintro (h | h | h)
      · exact (cmp_nan tol tl clock).1 h
      · exact hl _ h
      · exact hpp h
  · exact ⟨r, rfl, hP, rfl, fun h => absurd h h1, fun _ => rfl⟩

/-- **C67 (violated: NaN in the pairwise perturbation phase).** Suppose the first dimension-tree phase of a CP driver (`alsCP_PP`,
`alsCP_PP_partupdate`) ends in a state in which the gradient norm is NaN and stays so in the PP phase (no factor is "far", since no
comparison with NaN holds).  Then the driver makes 15 more sweeps, ends, and returns `true` ("converged"). -/
theorem C67_pp_poisoned {tol tl : F64} {clock : ℕ → F64} (hl : ∀ k, ¬ tl.lt (clock k)) {c : PPCtl} (hrp : c.resprint ≠ 0)
    (hb : c.bench = false) (htk : c.tucker = false) (h10 : tol.lt (.fin 10)) {h : PPHooks σ F64} (P : σ → Prop)
    (hc : ∀ s, P s → ∃ s' d, h.check s = .ok (s', .nan, d) ∧ P s') (ha : ∀ s, P s → ∃ s', h.accept s = .ok s' ∧ P s')
    (hfar : ∀ s, P s → h.ppFar s = .ok false) (hbeg : ∀ s, P s → ∃ s', h.ppBegin s = .ok s' ∧ P s')
    (hs : ∀ s, P s → ∃ s', h.ppSweep s = .ok s' ∧ P s') (hend : ∀ s, P s → P (h.endRound s)) {fuel : ℕ} (hf : 16 ≤ fuel) {st : σ} {r1 : PPRun σ F64}
    (hd : dtSubC (ieeeCmp tol tl clock) c h fuel ⟨0, .fin 10, 0, st, []⟩ = .ok r1) (h1 : P r1.st)
    (hmi : (r1.iter : ℤ) + 15 ≤ c.maxiter) :
    ∃ r, ppDriverC (ieeeCmp tol tl clock) (.fin 10) c h fuel st = .ok (r, true) ∧ r.iter = r1.iter + 15 ∧ r.grad = .nan ∧ P r.st := by
  have key : ∀ (n fuel : ℕ) (r : PPRun σ F64), P r.st → r.iter + n = r1.iter + 15 → n < fuel → n ≤ 15 → (n < 15 → r.grad = .nan) →
      ∃ r', ppSubLoopC (ieeeCmp tol tl clock) c h r1.iter fuel r = .ok r' ∧ r'.iter = r1.iter + 15 ∧ r'.grad = .nan ∧ P r'.st := by
    intro n
    induction n with
    | zero =>
      intro fuel r hP hi hf _ hg
      obtain ⟨fuel, rfl⟩ : ∃ m, fuel = m + 1 := ⟨fuel - 1, by omega⟩
      unfold ppSubLoopC
      rw [if_pos (by omega)]
      simp only [hb, Bool.false_eq_true, if_false, bind, Except.bind, hfar _ hP, htk, pure, Except.pure]
      rw [if_pos]
      · exact ⟨r, rfl, by omega, hg (by norm_num), hP⟩
      · have : r.iter = r1.iter + 15 := by omega
        simp [this]
    | succ n ih =>
      intro fuel r hP hi hf hn hg
      obtain ⟨fuel, rfl⟩ : ∃ m, fuel = m + 1 := ⟨fuel - 1, by omega⟩
      unfold ppSubLoopC
      rw [if_pos (by omega)]
      simp only [hb, Bool.false_eq_true, if_false, bind, Except.bind, hfar _ hP, htk, pure, Except.pure]
      rw [if_neg]
      · obtain ⟨r2, e1, e2, e3, e4⟩ : ∃ r2, ppEnterC h r1.iter r = .ok r2 ∧ P r2.st ∧ r2.iter = r.iter ∧ r2.grad = r.grad := by
          unfold ppEnterC
          split_ifs
          · obtain ⟨s, s1, s2⟩ := hbeg _ hP
            simp only [bind, Except.bind, s1, pure, Except.pure]
            exact ⟨_, rfl, s2, rfl, rfl⟩
          · exact ⟨r, rfl, hP, rfl, rfl⟩
        rw [e1]
        simp only
        obtain ⟨u, u1, u2, u3, u4, u5⟩ := ppTestC_poisoned (pp := true) (ch := ppCheckedC c r1.iter r.iter) hl hrp hc ha
          (by rw [htk]; intro h; cases h.1) e2
        rw [u1]
        simp only [Bool.false_eq_true, if_false]
        obtain ⟨s, s1, s2⟩ := hs _ u2
        rw [s1]
        simp only
        refine ih _ _ s2 (by simp only; omega) (by omega) (by omega) fun _ => ?_
        simp only
        by_cases hch : ppCheckedC c r1.iter r.iter
        · exact u4 hch
        · rw [u5 hch, e4]
          refine hg ?_
          by_contra hge
          exact hch (.inr (by omega))
      · simp only [Bool.false_or, Bool.and_eq_true, beq_iff_eq, bne_iff_ne, true_and, not_and]
        intro hne
        omega
  obtain ⟨r2, p1, p2, p3, p4⟩ := key 15 fuel r1 h1 rfl (by omega) le_rfl (fun h => absurd h (lt_irrefl _))
  refine ⟨{ r2 with st := h.endRound r2.st }, ?_, p2, p3, hend _ p4⟩
  obtain ⟨fuel, rfl⟩ : ∃ m, fuel = m + 2 := ⟨fuel - 2, by omega⟩
  unfold ppDriverC ppDriverLoopC
  rw [if_pos ⟨h10, by simp only; push_cast; omega⟩]
  simp only [hb, Bool.false_eq_true, if_false, bind, Except.bind, hd, p1, pure, Except.pure]
  unfold ppDriverLoopC
  rw [if_neg (by simp only [p3]; exact fun h => (cmp_nan tol tl clock).2 h.1)]
  simp only
  congr 2
  simp only [decide_eq_true_iff, p2]
  push_cast
  omega

/-- **C67 (violated: NaN in the pairwise perturbation phase, Tucker).** As `C67_pp_poisoned` for `alsTucker_PP`, which has no limit of
15 sweeps: it goes on to iteration `maxiter`, whose test ends the phase, and returns `true`. -/
theorem C67_tucker_pp_poisoned {tol tl : F64} {clock : ℕ → F64} (hl : ∀ k, ¬ tl.lt (clock k)) {c : PPCtl} (hrp : c.resprint ≠ 0)
    (hb : c.bench = false) (htk : c.tucker = true) (h10 : tol.lt (.fin 10)) (hm : 0 ≤ c.maxiter) {h : PPHooks σ F64} (P : σ → Prop)
    (hc : ∀ s, P s → ∃ s' d, h.check s = .ok (s', .nan, d) ∧ P s') (ha : ∀ s, P s → ∃ s', h.accept s = .ok s' ∧ P s')
    (hfar : ∀ s, P s → h.ppFar s = .ok false) (hbeg : ∀ s, P s → ∃ s', h.ppBegin s = .ok s' ∧ P s')
    (hs : ∀ s, P s → ∃ s', h.ppSweep s = .ok s' ∧ P s') (hend : ∀ s, P s → P (h.endRound s)) {fuel : ℕ} (hf : c.maxiter + 1 < fuel)
    {st : σ} {r1 : PPRun σ F64} (hd : dtSubC (ieeeCmp tol tl clock) c h fuel ⟨0, .fin 10, 0, st, []⟩ = .ok r1) (h1 : P r1.st)
    (hmi : (r1.iter : ℤ) ≤ c.maxiter) :
    ∃ r, ppDriverC (ieeeCmp tol tl clock) (.fin 10) c h fuel st = .ok (r, true) ∧ (r.iter : ℤ) = c.maxiter ∧ r.grad = .nan ∧
      P r.st := by
  have key : ∀ (n fuel : ℕ) (r : PPRun σ F64), P r.st → (r.iter : ℤ) + n = c.maxiter → n < fuel →
      ∃ r', ppSubLoopC (ieeeCmp tol tl clock) c h r1.iter fuel r = .ok r' ∧ (r'.iter : ℤ) = c.maxiter ∧ r'.grad = .nan ∧ P r'.st := by
    intro n
    induction n with
    | zero =>
      intro fuel r hP hi hf
      obtain ⟨fuel, rfl⟩ : ∃ m, fuel = m + 1 := ⟨fuel - 1, by omega⟩
      have hi' : (r.iter : ℤ) = c.maxiter := by push_cast at hi; omega
      unfold ppSubLoopC
      rw [if_pos (by omega)]
      simp only [hb, Bool.false_eq_true, if_false, bind, Except.bind, hfar _ hP, htk, pure, Except.pure]
      rw [if_neg (by simp)]
      obtain ⟨r2, e1, e2, e3⟩ : ∃ r2, ppEnterC h r1.iter r = .ok r2 ∧ P r2.st ∧ r2.iter = r.iter := by
        unfold ppEnterC
        split_ifs
        · obtain ⟨s, s1, s2⟩ := hbeg _ hP
          simp only [bind, Except.bind, s1, pure, Except.pure]
          exact ⟨_, rfl, s2, rfl⟩
        · exact ⟨r, rfl, hP, rfl⟩
      rw [e1]
      simp only
      obtain ⟨s1, d, c1, c2⟩ := hc _ e2
      unfold ppTestC
      rw [if_neg hrp, if_pos (by
        unfold ppCheckedC dtCheckedC
        rw [htk, if_pos rfl]
        exact .inl (.inr (.inr hi')))]
      simp only [bind, Except.bind, c1, pure, Except.pure]
      rw [if_pos (.inr (.inr ⟨htk, rfl, by rw [e3]; exact hi'⟩))]
      unfold benchIncC
      simp only [hb, Bool.false_eq_true, if_false, if_true]
      exact ⟨_, rfl, by simp only [e3]; exact hi', rfl, c2⟩
    | succ n ih =>
      intro fuel r hP hi hf
      obtain ⟨fuel, rfl⟩ : ∃ m, fuel = m + 1 := ⟨fuel - 1, by omega⟩
      push_cast at hi
      unfold ppSubLoopC
      rw [if_pos (by omega)]
      simp only [hb, Bool.false_eq_true, if_false, bind, Except.bind, hfar _ hP, htk, pure, Except.pure]
      rw [if_neg (by simp)]
      obtain ⟨r2, e1, e2, e3⟩ : ∃ r2, ppEnterC h r1.iter r = .ok r2 ∧ P r2.st ∧ r2.iter = r.iter := by
        unfold ppEnterC
        split_ifs
        · obtain ⟨s, s1, s2⟩ := hbeg _ hP
          simp only [bind, Except.bind, s1, pure, Except.pure]
          exact ⟨_, rfl, s2, rfl⟩
        · exact ⟨r, rfl, hP, rfl⟩
      rw [e1]
      simp only
      obtain ⟨u, u1, u2, u3, -⟩ := ppTestC_poisoned (pp := true) (ch := ppCheckedC c r1.iter r.iter) hl hrp hc ha
        (by rintro ⟨-, -, h⟩; omega) e2
      rw [u1]
      simp only [Bool.false_eq_true, if_false]
      obtain ⟨s, s1, s2⟩ := hs _ u2
      rw [s1]
      simp only
      exact ih fuel ⟨u.iter + 1, u.grad, u.tests, s, u.trace ++ [.ppSweep]⟩ s2 (by simp only; push_cast; omega) (by omega)
  obtain ⟨r2, p1, p2, p3, p4⟩ := key (c.maxiter - r1.iter).toNat fuel r1 h1 (by omega) (by omega)
  refine ⟨{ r2 with st := h.endRound r2.st }, ?_, p2, p3, hend _ p4⟩
  obtain ⟨fuel, rfl⟩ : ∃ m, fuel = m + 2 := ⟨fuel - 2, by omega⟩
  unfold ppDriverC ppDriverLoopC
  rw [if_pos ⟨h10, by simp only; push_cast; omega⟩]
  simp only [hb, Bool.false_eq_true, if_false, bind, Except.bind, hd, p1, pure, Except.pure]
  unfold ppDriverLoopC
  rw [if_neg (by simp only [p3]; exact fun h => (cmp_nan tol tl clock).2 h.1)]
  simp [p2]

/-- **C67 (NaN in the dimension-tree phase).** If the measured value is NaN and stays so in the dimension-tree phase (in which the
factors are never "close"), the driver makes `maxiter + 1` iterations and returns `false`. -/
theorem C67_pp_poisoned_dt {tol tl : F64} {clock : ℕ → F64} (hl : ∀ k, ¬ tl.lt (clock k)) {c : PPCtl} (hrp : c.resprint ≠ 0)
    (hb : c.bench = false) (h10 : tol.lt (.fin 10)) (hm : 0 ≤ c.maxiter) {h : PPHooks σ F64} (P : σ → Prop)
    (hc : ∀ s, P s → ∃ s' d, h.check s = .ok (s', .nan, d) ∧ P s') (ha : ∀ s, P s → ∃ s', h.accept s = .ok s' ∧ P s')
    (hbeg : ∀ s, P s → ∃ s', h.dtBegin s = .ok s' ∧ P s') (hs : ∀ s, P s → ∃ s', h.dtSweep s = .ok s' ∧ P s')
    (hcl : ∀ s, P s → h.dtClose s = .ok false) {fuel : ℕ} (hf : c.maxiter + 1 < fuel) {st : σ} (h0 : P st) :
    ∃ r, ppDriverC (ieeeCmp tol tl clock) (.fin 10) c h fuel st = .ok (r, false) ∧ (r.iter : ℤ) = c.maxiter + 1 := by
  have key : ∀ (fuel : ℕ) (r : PPRun σ F64), P r.st → (r.iter : ℤ) ≤ c.maxiter + 1 → c.maxiter + 1 < (r.iter : ℤ) + fuel →
      ∃ r', dtSubLoopC (ieeeCmp tol tl clock) c h fuel r = .ok r' ∧ (r'.iter : ℤ) = c.maxiter + 1 := by
    intro fuel
    induction fuel with
    | zero => intro r _ h1 h2; omega
    | succ fuel ih =>
      intro r hP h1 h2
      unfold dtSubLoopC
      by_cases h3 : (r.iter : ℤ) ≤ c.maxiter
      · rw [if_pos h3]
        obtain ⟨u, u1, u2, u3, -⟩ := ppTestC_poisoned (pp := false) (ch := dtCheckedC c r.iter) hl hrp hc ha (by rintro ⟨-, h, -⟩; cases h) hP
        obtain ⟨s, s1, s2⟩ := hs _ u2
        simp only [bind, Except.bind]
        rw [u1]
        simp only [Bool.false_eq_true, if_false, s1, hcl _ s2]
        exact ih ⟨u.iter + 1, u.grad, u.tests, s, u.trace ++ [.dtSweep]⟩ s2 (by simp only; push_cast; omega)
          (by simp only; push_cast at h2 ⊢; omega)
      · rw [if_neg h3]
        exact ⟨r, rfl, by omega⟩
  obtain ⟨s, s1, s2⟩ := hbeg _ h0
  obtain ⟨r1, d1, d2⟩ := key fuel ⟨0, .fin 10, 0, s, [] ++ [.dtStart]⟩ s2 (by simp only; push_cast; omega) (by simp only; push_cast; omega)
  obtain ⟨fuel, rfl⟩ : ∃ m, fuel = m + 2 := ⟨fuel - 2, by omega⟩
  refine ⟨{ r1 with st := h.endRound r1.st }, ?_, d2⟩
  unfold ppDriverC ppDriverLoopC
  rw [if_pos ⟨h10, by simp only; push_cast; omega⟩]
  unfold dtSubC
  simp only [hb, Bool.false_eq_true, if_false, bind, Except.bind, s1, d1, pure, Except.pure]
  unfold ppSubLoopC
  rw [if_neg (by omega)]
  simp only
  have hbi : benchIncC c r1 = r1 := by unfold benchIncC; rw [hb]; rfl
  rw [hbi]
  unfold ppDriverLoopC
  rw [if_neg (show ¬ ((ieeeCmp tol tl clock).above r1.grad ∧ (r1.iter : ℤ) ≤ c.maxiter) by rintro ⟨-, h⟩; omega)]
  simp [d2]

end PP

/-! ## The programs -/

/-- No limit: `-timelimit nan` and `-timelimit inf` are as a clock that stands still. -/
theorem mixCmp_no_limit {tl : F64} (h : tl = .nan ∨ tl = .pinf) (x : F64) (clock : ℕ → ℝ) :
    mixCmp x tl clock = mixCmp x (.fin 0) fun _ => 0 := by
  have : (fun k => tl.lt (.fin (clock k))) = fun _ => (F64.fin 0).lt (.fin 0) := by
    funext k
    have e : (F64.fin 0).lt (.fin 0) = False := eq_false (lt_irrefl (0 : ℝ))
    rw [e]
    rcases h with rfl | rfl <;> rfl
  unfold mixCmp
  rw [this]

/-- **C67 (run.cxx, `-timelimit nan` or `inf`).** The run is as with a finite limit and a clock that stands still (for which see C59):
the time never ends it. -/
theorem C67_run_no_limit {o : Opts} (h : o.timelimit = .nan ∨ o.timelimit = .pinf) (E : MainEnv) (lr : ℕ → Bool → Spec.LowRank ℝ)
    (fuel : ℕ) : runMain E lr fuel o = runMain { E with clock := fun _ => 0 } lr fuel { o with timelimit := .fin 0 } := by
  unfold runMain
  simp only [mixCmp_no_limit h _ E.clock]
  rfl

/-- **C67 (test_ALS.cxx, `-timelimit nan` or `inf`).** As `C67_run_no_limit` (see C57). -/
theorem C67_test_no_limit {o : Opts} (h : o.timelimit = .nan ∨ o.timelimit = .pinf) (E : MainEnv) (fuel : ℕ) :
    testMain E fuel o = testMain { E with clock := fun _ => 0 } fuel { o with timelimit := .fin 0 } := by
  unfold testMain mainDrive
  simp only [mixCmp_no_limit h _ E.clock]
  rfl

/-- **C67 (pp_bench.cxx, `-timelimit nan` or `inf`).** As `C67_run_no_limit` (see C63). -/
theorem C67_bench_no_limit {o : Opts} (h : o.timelimit = .nan ∨ o.timelimit = .pinf) (E : MainEnv) (clkD clkP : ℕ → ℕ → ℝ) (fuel : ℕ) :
    benchMain E clkD clkP fuel o = benchMain E (fun _ _ => 0) (fun _ _ => 0) fuel { o with timelimit := .fin 0 } := by
  unfold benchMain benchDrive
  simp only [mixCmp_no_limit h]
  rfl

theorem alsLoopC_congr {σ : Type} {M : Type} {t t' : Cmp M} {mi rp : ℤ} {step : σ → Except Fault σ} {inc : ℚ} {check : σ → Except Fault (M × M)}
    (hb : ∀ s c, check s = .ok c → (t.below c.1 ↔ t'.below c.1)) (hl : ∀ k, t.late k ↔ t'.late k) : ∀ fuel it sw st rows,
    alsLoopC t mi rp step inc check fuel it sw st rows = alsLoopC t' mi rp step inc check fuel it sw st rows := by
  intro fuel
  induction fuel with
  | zero => intros; rfl
  | succ fuel ih =>
    intro it sw st rows
    unfold alsLoopC
    simp only [ih]
    cases hc : check st with
    | error e => rfl
    | ok c =>
      have e : ∀ k, (t.below c.1 ∨ t.late k) = (t'.below c.1 ∨ t'.late k) := fun k => propext (or_congr (hb st c hc) (hl k))
      simp only [bind, Except.bind]
      by_cases hx : t.below c.1 ∨ t.late it
      · have hx' := (e it).mp hx
        simp only [if_pos hx, if_pos hx']
      · have hx' : ¬ (t'.below c.1 ∨ t'.late it) := fun h => hx ((e it).mpr h)
        simp only [if_neg hx, if_neg hx']

theorem llLoopC_congr {σ : Type} {M : Type} {t t' : Cmp M} {mi rp : ℤ} {h : LLHooks σ M}
    (hb : ∀ s c, h.check s = .ok c → (t.below c.2.1 ↔ t'.below c.2.1)) (hl : ∀ k, t.late k ↔ t'.late k) : ∀ fuel it st rows,
    llLoopC t mi rp h fuel it st rows = llLoopC t' mi rp h fuel it st rows := by
  intro fuel
  induction fuel with
  | zero => intros; rfl
  | succ fuel ih =>
    intro it st rows
    unfold llLoopC
    simp only [ih]
    cases hc : h.check st with
    | error e => rfl
    | ok c =>
      have e : ∀ k, (t.below c.2.1 ∨ t.late k) = (t'.below c.2.1 ∨ t'.late k) := fun k => propext (or_congr (hb st c hc) (hl k))
      simp only [bind, Except.bind]
      by_cases hx : t.below c.2.1 ∨ t.late it
      · have hx' := (e it).mp hx
        simp only [if_pos hx, if_pos hx']
      · have hx' : ¬ (t'.below c.2.1 ∨ t'.late it) := fun h => hx ((e it).mpr h)
        simp only [if_neg hx, if_neg hx']

theorem below_nan_zero {g y : ℝ} (hg : 0 ≤ g) (tl : F64) (clock : ℕ → ℝ) :
    (mixCmp (F64.mul .nan y) tl clock).below g ↔ (mixCmp (F64.mul (.fin 0) y) tl clock).below g := by
  have h1 : ¬ (mixCmp (F64.mul .nan y) tl clock).below g := id
  have h2 : ¬ (mixCmp (F64.mul (.fin 0) y) tl clock).below g := by
    change ¬ (g < 0 * y)
    rw [zero_mul]
    exact not_lt.2 hg
  tauto

/-- **C67 (run.cxx, `-tol nan`).** `-tol nan` passes the range check and is as `-tol 0` (for which see C59): the gradient norm never
ends the run. -/
theorem C67_run_nan_tol {o : Opts} (h : o.tol = .nan) (E : MainEnv) (lr : ℕ → Bool → Spec.LowRank ℝ) (fuel : ℕ) :
    runMain E lr fuel o = runMain E lr fuel { o with tol := .fin 0 } := by
  unfold runMain
  have ht : mainTensor E { o with tol := .fin 0 } = mainTensor E o := rfl
  rw [ht]
  cases mainTensor E o with
  | error e => rfl
  | ok V =>
    simp only [bind, Except.bind]
    have hd : dispatch { o with tol := .fin 0 } = dispatch o := rfl
    rw [hd]
    cases dispatch o with
    | none => rfl
    | some k =>
      simp only
      have key : ∀ o0 W, cpdAlsC k o.dim.toNat o.R.toNat 0 E.solve o.updateRank.toNat (lr o.updateRank.toNat (decide (o.randomsvd = 1))) V
          (mixCmp (o.tol.mul (norm2 V)) o.timelimit E.clock) o.maxiter o.resprint fuel (o0, W) =
        cpdAlsC k o.dim.toNat o.R.toNat 0 E.solve o.updateRank.toNat (lr o.updateRank.toNat (decide (o.randomsvd = 1))) V
          (mixCmp ((F64.fin 0).mul (norm2 V)) o.timelimit E.clock) o.maxiter o.resprint fuel (o0, W) := by
        intro o0 W
        rw [h]
        apply alsLoopC_congr
        · intro s c hc
          unfold cpdCheck at hc
          simp only [bind, Except.bind, pure, Except.pure] at hc
          cases hg : gradnorm s.2.G o.dim.toNat with
          | error e => rw [hg] at hc; cases hc
          | ok g =>
            rw [hg] at hc
            simp only at hc
            cases hr : Model.residual V s.2.W o.dim.toNat with
            | error e => rw [hr] at hc; cases hc
            | ok d =>
              rw [hr] at hc
              rw [← Except.ok.inj hc]
              exact below_nan_zero (gradnorm_nonneg hg) _ _
        · exact fun _ => Iff.rfl
      simp only [key]

/-- **C67 (run.cxx without stop test).** `-tol nan` with `-timelimit nan` or `inf`, under the conditions of C59: the run returns after
more than `-maxiter` sweeps. -/
theorem C67_run_to_end {E : MainEnv} {o : Opts} (lr : ℕ → Bool → Spec.LowRank ℝ) {atof : CStr → F64} {argv : List CStr}
    (ho : runOpts atof argv = .ok o) (ht : o.tol = .nan) (hl : o.timelimit = .nan ∨ o.timelimit = .pinf) (hr : o.resprint ≠ 0)
    (hk : PlainKind o) (hin : InputOk E o) (h3 : 3 ≤ o.dim) (h18 : o.dim ≤ 18) (hC : o.model.head? = some 'C') (hpp : o.pp ≤ 4)
    (h10 : o.pp = 4 → o.dim ≤ 10) {fuel : ℕ} (hfu : 2 * (o.maxiter + 1) < fuel) :
    ∃ V r, runMain E lr fuel o = .ok (V, some r) ∧ InputSpec E o V ∧ o.maxiter < ⌊r.sweeps⌋ := by
  obtain ⟨-, hpp0, -, hmi, -⟩ := C44_ranges ho
  obtain ⟨V, r, tr, g, e1, e2, e3⟩ := C59_run_of (E := { E with clock := fun _ => 0 })
    (o := { o with tol := .fin 0, timelimit := .fin 0 }) lr hpp0 hmi ⟨0, rfl⟩ ⟨0, rfl⟩ hr hk hin h3 h18 hC hpp h10 hfu
  rw [C67_run_no_limit hl, C67_run_nan_tol (o := { o with timelimit := .fin 0 }) ht]
  refine ⟨V, r, e1, e2, ?_⟩
  by_contra hlt
  have hlt' : ⌊r.sweeps⌋ ≤ o.maxiter := by omega
  rcases (e3.stop hlt').2 with h | h
  · obtain ⟨f, -, hf⟩ := e3.grads r.iters
    have h' : g r.iters < 0 * norm2 V := h
    rw [zero_mul] at h'
    exact absurd h' (not_lt.2 (gradnorm_nonneg hf))
  · exact lt_irrefl (0 : ℝ) h

/-- **C67 (test_ALS.cxx, `-tol nan`, `-model CP -pp 0`).** As `-tol 0` (see C57). -/
theorem C67_test_nan_tol {o : Opts} (h : o.tol = .nan) (hC : o.model.head? = some 'C') (hp : o.pp = 0) (E : MainEnv) (fuel : ℕ) :
    testMain E fuel o = testMain E fuel { o with tol := .fin 0 } := by
  have hC' : o.model[0]? = some 'C' := by rw [← List.head?_eq_getElem?]; exact hC
  unfold testMain
  have ht : mainTensor E { o with tol := .fin 0 } = mainTensor E o := rfl
  rw [ht]
  cases mainTensor E o with
  | error e => rfl
  | ok V =>
    simp only [bind, Except.bind]
    have key : mainDrive E fuel o V = mainDrive E fuel { o with tol := .fin 0 } V := by
      unfold mainDrive alsCPDTC
      simp only [if_pos hC', if_pos hp, h]
      rw [llLoopC_congr (t' := mixCmp ((F64.fin 0).mul (norm2 V)) o.timelimit E.clock)]
      · intro s c hc
        simp only [cpDTHooks, bind, Except.bind, pure, Except.pure] at hc
        cases hg : gradnorm s.G V.lens.length with
        | error e => rw [hg] at hc; cases hc
        | ok g =>
          rw [hg] at hc
          simp only at hc
          cases hr : Model.residual V s.W V.lens.length with
          | error e => rw [hr] at hc; cases hc
          | ok d =>
            rw [hr] at hc
            rw [← Except.ok.inj hc]
            exact below_nan_zero (gradnorm_nonneg hg) _ _
      · exact fun _ => Iff.rfl
    rw [key]

/-- **C67 (violated: test_ALS.cxx, `-tol nan`, `-model CP -pp 1` or `2`).** The drivers return at once: the factors are the random start,
the log is empty, and `true` ("converged") is returned. -/
theorem C67_test_nan_tol_pp {E : MainEnv} {o : Opts} (h : o.tol = .nan) (hm : 0 ≤ o.maxiter) (hC : o.model.head? = some 'C')
    {V : Tensor ℝ} (hV : mainTensor E o = .ok V) {fuel : ℕ} (hf : 1 ≤ fuel) :
    (o.pp = 1 → ∃ r, testMain E fuel o = .ok (V, .cpPP r true) ∧ r.iter = 0 ∧ r.st.W = fillMats V.lens o.R.toNat E.w0 ∧ r.trace = []) ∧
    (o.pp = 2 → ∃ r, testMain E fuel o = .ok (V, .cpPart r true) ∧ r.iter = 0 ∧ r.st.cp.W = fillMats V.lens o.R.toNat E.w0 ∧ r.trace = []) := by
  have hC' : o.model[0]? = some 'C' := by rw [← List.head?_eq_getElem?]; exact hC
  obtain ⟨fuel, rfl⟩ : ∃ n, fuel = n + 1 := ⟨fuel - 1, by omega⟩
  have hlt : ¬ (mixCmp (F64.nan.mul (norm2 V)) o.timelimit E.clock).above 10 := id
  have hne : ¬ ((0 : ℤ) = o.maxiter + 1) := by omega
  constructor
  · intro h1
    refine ⟨⟨0, 10, 0, ⟨fillMats V.lens o.R.toNat E.w0, fillMats V.lens o.R.toNat E.g0,
        (fillMats V.lens o.R.toNat E.w0).map zerosLike, [], [], []⟩, []⟩, testMain_of hV ?_, rfl, rfl, rfl⟩
    unfold mainDrive
    simp only [if_pos hC', h]
    rw [if_neg (by omega), if_pos h1]
    simp [alsCPPPC, ppDriverC, ppDriverLoopC, hlt, hne, bind, Except.bind, pure, Except.pure]
  · intro h1
    refine ⟨⟨0, 10, 0, ⟨⟨fillMats V.lens o.R.toNat E.w0, fillMats V.lens o.R.toNat E.g0,
        (fillMats V.lens o.R.toNat E.w0).map zerosLike, [], [], []⟩, [], [], []⟩, []⟩, testMain_of hV ?_, rfl, rfl, rfl⟩
    unfold mainDrive
    simp only [if_pos hC', h]
    rw [if_neg (by omega), if_neg (by omega), if_pos h1]
    simp [alsCPPartC, ppDriverC, ppDriverLoopC, hlt, hne, bind, Except.bind, pure, Except.pure]

/-! ## Non-vacuity -/

/-- A computation whose measured value is NaN from the start. -/
def exNanLL : LLHooks Unit F64 where
  checked _ := True
  check s := .ok (s, .nan, .nan)
  accept s := .ok s
  sweep s := .ok s

example : ∃ r, llLoopC (ieeeCmp (.fin 1) (.fin 60) fun _ => .fin 0) 5 1 exNanLL 7 0 () [] = .ok r ∧ (r.iter : ℤ) = 6 ∧ r.ret = false := by
  obtain ⟨r, h1, h2, h3, -⟩ := C67_loop_poisoned (tol := .fin 1) (tl := .fin 60) (clock := fun _ => .fin 0)
    (fun _ => by simp only [F64.lt]; norm_num) (mi := 5) (rp := 1) (by norm_num) (by norm_num) (h := exNanLL) (fun _ => True)
    (fun _ _ => ⟨_, _, rfl, trivial⟩) (fun _ _ => ⟨_, rfl, trivial⟩) (fun _ _ => ⟨_, rfl, trivial⟩) (fuel := 7) (by norm_num)
    (st := ()) trivial
  exact ⟨r, h1, h2, h3⟩

/-- One finite sweep, after which all values are NaN; the factors are then "close", so that the PP phase begins. -/
def exNanPP : PPHooks Bool F64 where
  dtBegin s := .ok s
  dtSweep _ := .ok true
  dtClose s := .ok s
  ppFar _ := .ok false
  ppBegin s := .ok s
  ppSweep s := .ok s
  check s := .ok (s, if s then .nan else .fin 5, .fin 0)
  accept s := .ok s
  endRound s := s

example : ∃ r, ppDriverC (ieeeCmp (.fin 1) (.fin 60) fun _ => .fin 0) (.fin 10) ⟨false, 100, 10, false⟩ exNanPP 200 false = .ok (r, true) ∧
    r.iter = 15 ∧ r.grad = .nan := by
  have hn : ∀ n : ℕ, dtSubC (ieeeCmp (.fin 1) (.fin 60) fun _ => .fin 0) ⟨false, 100, 10, false⟩ exNanPP (n + 1) ⟨0, .fin 10, 0, false, []⟩ =
      .ok ⟨0, .fin 5, 1, true, [.dtStart, .row 0 (.fin 5) false (.fin 0), .dtSweep]⟩ := by
    intro n
    norm_num [dtSubC, dtSubLoopC, ppTestC, exNanPP, dtCheckedC, bind, Except.bind, pure, Except.pure, ieeeCmp, F64.lt]
  obtain ⟨r, h1, h2, h3, -⟩ := C67_pp_poisoned (tol := .fin 1) (tl := .fin 60) (clock := fun _ => .fin 0)
    (fun _ => by simp only [F64.lt]; norm_num) (c := ⟨false, 100, 10, false⟩) (by norm_num) rfl rfl (by simp only [F64.lt]; norm_num)
    (h := exNanPP) (fun s => s = true) (fun s hs => ⟨true, .fin 0, by subst hs; rfl, rfl⟩) (fun s hs => ⟨s, rfl, hs⟩) (fun _ _ => rfl)
    (fun s hs => ⟨s, rfl, hs⟩) (fun s hs => ⟨s, rfl, hs⟩) (fun _ hs => hs) (fuel := 200) (by norm_num) (st := false)
    (r1 := ⟨0, .fin 5, 1, true, [.dtStart, .row 0 (.fin 5) false (.fin 0), .dtSweep]⟩) (hn 199) rfl (by norm_num)
  exact ⟨r, h1, h2, h3⟩

example : ∃ r, ppDriverC (ieeeCmp (.fin 1) (.fin 60) fun _ => .fin 0) (.fin 10) ⟨true, 100, 10, false⟩ exNanPP 200 false = .ok (r, true) ∧
    (r.iter : ℤ) = 100 ∧ r.grad = .nan := by
  have hn : ∀ n : ℕ, dtSubC (ieeeCmp (.fin 1) (.fin 60) fun _ => .fin 0) ⟨true, 100, 10, false⟩ exNanPP (n + 1) ⟨0, .fin 10, 0, false, []⟩ =
      .ok ⟨0, .fin 10, 0, true, [.dtStart, .dtSweep]⟩ := by
    intro n
    norm_num [dtSubC, dtSubLoopC, ppTestC, exNanPP, dtCheckedC, bind, Except.bind, pure, Except.pure, ieeeCmp, F64.lt]
  obtain ⟨r, h1, h2, h3, -⟩ := C67_tucker_pp_poisoned (tol := .fin 1) (tl := .fin 60) (clock := fun _ => .fin 0)
    (fun _ => by simp only [F64.lt]; norm_num) (c := ⟨true, 100, 10, false⟩) (by norm_num) rfl rfl (by simp only [F64.lt]; norm_num)
    (by norm_num) (h := exNanPP) (fun s => s = true) (fun s hs => ⟨true, .fin 0, by subst hs; rfl, rfl⟩) (fun s hs => ⟨s, rfl, hs⟩)
    (fun _ _ => rfl) (fun s hs => ⟨s, rfl, hs⟩) (fun s hs => ⟨s, rfl, hs⟩) (fun _ hs => hs) (fuel := 200) (by norm_num) (st := false)
    (r1 := ⟨0, .fin 10, 0, true, [.dtStart, .dtSweep]⟩) (hn 199) rfl (by norm_num)
  exact ⟨r, h1, h2, h3⟩

/-- `run -tensor r2 -dim 4 -size 3 -pp 1 -tol nan -timelimit inf`. -/
example (lr : ℕ → Bool → Spec.LowRank ℝ) : ∃ (atof : CStr → F64) (E : MainEnv) (V : _) (r : _), runProgram E lr atof 20000
    ["run".toList, "-tensor".toList, "r2".toList, "-dim".toList, "4".toList, "-size".toList, "3".toList, "-pp".toList, "1".toList,
      "-tol".toList, "nan".toList, "-timelimit".toList, "inf".toList] = .ok (V, some r) ∧ 5000 < ⌊r.sweeps⌋ := by
  obtain ⟨k, -⟩ := exists_kernOk
  have ho : runOpts (fun s => if s = "nan".toList then .nan else .pinf)
      ["run".toList, "-tensor".toList, "r2".toList, "-dim".toList, "4".toList, "-size".toList, "3".toList, "-pp".toList, "1".toList,
      "-tol".toList, "nan".toList, "-timelimit".toList, "inf".toList] =
        .ok { exRunOpts 1 with tol := .nan, timelimit := .pinf } := by
    have h1 : runOpts (fun s => if s = "nan".toList then .nan else .pinf)
      ["run".toList, "-tensor".toList, "r2".toList, "-dim".toList, "4".toList, "-size".toList, "3".toList, "-pp".toList, "1".toList,
      "-tol".toList, "nan".toList, "-timelimit".toList, "inf".toList] =
        .ok { exRunOpts 1 with
          tol := dblOpt (fun s => if s = "nan".toList then .nan else .pinf)
            ["run".toList, "-tensor".toList, "r2".toList, "-dim".toList, "4".toList, "-size".toList, "3".toList, "-pp".toList,
              "1".toList, "-tol".toList, "nan".toList, "-timelimit".toList, "inf".toList] "-tol" notUnit 1e-10
          timelimit := dblOpt (fun s => if s = "nan".toList then .nan else .pinf)
            ["run".toList, "-tensor".toList, "r2".toList, "-dim".toList, "4".toList, "-size".toList, "3".toList, "-pp".toList,
              "1".toList, "-tol".toList, "nan".toList, "-timelimit".toList, "inf".toList] "-timelimit" negative 5000 } := rfl
    have h2 : ¬ notUnit .nan := by simp [notUnit, F64.lt]
    have h3 : ¬ negative .pinf := by simp [negative, F64.lt]
    rw [h1]
    have e1 : dblOpt (fun s => if s = "nan".toList then .nan else .pinf)
            ["run".toList, "-tensor".toList, "r2".toList, "-dim".toList, "4".toList, "-size".toList, "3".toList, "-pp".toList,
              "1".toList, "-tol".toList, "nan".toList, "-timelimit".toList, "inf".toList] "-tol" notUnit 1e-10 = .nan := if_neg h2
    have e2 : dblOpt (fun s => if s = "nan".toList then .nan else .pinf)
            ["run".toList, "-tensor".toList, "r2".toList, "-dim".toList, "4".toList, "-size".toList, "3".toList, "-pp".toList,
              "1".toList, "-tol".toList, "nan".toList, "-timelimit".toList, "inf".toList] "-timelimit" negative 5000 = .pinf :=
      if_neg h3
    rw [e1, e2]
  obtain ⟨V, r, h1, -, h2⟩ := C67_run_to_end (E := exEnv k fun _ => []) lr ho rfl (.inr rfl) (by simp [exRunOpts]) (.inr (.inr (.inr rfl)))
    trivial (by simp [exRunOpts]) (by simp [exRunOpts]) rfl (by simp [exRunOpts]) (by simp [exRunOpts]) (fuel := 20000) (by simp [exRunOpts])
  refine ⟨(fun s => if s = "nan".toList then .nan else .pinf), exEnv k fun _ => [], V, r, ?_, h2⟩
  unfold runProgram
  rw [ho]
  exact h1

/-- `test_ALS -pp 1 -tol nan` on the default tensor. -/
example : ∃ (E : MainEnv) (o : Opts) (V : Tensor ℝ) (r : _), testMain E 6000 o = .ok (V, .cpPP r true) ∧ o.tol = .nan ∧ r.trace = [] := by
  obtain ⟨k, -⟩ := exists_kernOk
  have hin := exEnv_input (k := k) (srt := fun _ => []) (o := { exRunOpts 1 with tensor := "p".toList, dim := 8, size := 10, tol := .nan })
    rfl rfl rfl
  obtain ⟨V, v1, -⟩ := C57_tensor hin.1
  obtain ⟨r, h1, -, -, h2⟩ := (C67_test_nan_tol_pp (E := exEnv k fun _ => [])
    (o := { exRunOpts 1 with tensor := "p".toList, dim := 8, size := 10, tol := .nan }) rfl (by simp [exRunOpts]) rfl v1 (fuel := 6000)
    (by norm_num)).1 rfl
  exact ⟨_, _, V, r, h1, rfl, h2⟩

end Properties
