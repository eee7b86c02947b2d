import Verif.Model.PPDriver
import Mathlib.Tactic.Linarith

/-! # Control flow of the PP drivers -/

namespace Model

variable {σ : Type}

/-- Outcome is `ok` with a result satisfying `P`. -/
def Succ {α : Type} (e : Except Fault α) (P : α → Prop) : Prop := ∃ a, e = .ok a ∧ P a

/-- The computations succeed on the states satisfying the invariants: `I` between phases, `D` in a dimension tree phase,
`Q` in a PP phase. -/
structure HooksOk (h : PPHooks σ) (I D Q : σ → Prop) : Prop where
  DI : ∀ s, D s → I s
  QI : ∀ s, Q s → I s
  dtBegin : ∀ s, I s → Succ (h.dtBegin s) D
  dtSweep : ∀ s, D s → Succ (h.dtSweep s) D
  dtClose : ∀ s, D s → Succ (h.dtClose s) fun _ => True
  ppFar : ∀ s, I s → Succ (h.ppFar s) fun _ => True
  ppBegin : ∀ s, I s → Succ (h.ppBegin s) Q
  ppSweep : ∀ s, Q s → Succ (h.ppSweep s) Q
  checkD : ∀ s, D s → Succ (h.check s) fun q => D q.1
  checkQ : ∀ s, Q s → Succ (h.check s) fun q => Q q.1
  acceptD : ∀ s, D s → Succ (h.accept s) D
  acceptQ : ∀ s, Q s → Succ (h.accept s) Q
  endRound : ∀ s, I s → I (h.endRound s)

/-- `ppSweep` events. -/
def PPEv.isSweep : PPEv → Bool
  | .ppSweep => true
  | _ => false

/-- `ppStart` events. -/
def PPEv.isStart : PPEv → Bool
  | .ppStart => true
  | _ => false

/-- At most `n` PP sweeps since the last start of a PP phase. -/
def Since (tr : List PPEv) (n : ℕ) : Prop := ∀ l, l <:+ tr → (∀ e ∈ l, e.isStart = false) → l.countP PPEv.isSweep ≤ n

/-- At most 15 PP sweeps in any stretch of the history in which no PP phase starts. -/
def Capped (tr : List PPEv) : Prop := ∀ l, l <:+: tr → (∀ e ∈ l, e.isStart = false) → l.countP PPEv.isSweep ≤ 15

theorem infix_snoc {l tr : List PPEv} {e : PPEv} (h : l <:+: tr ++ [e]) : l <:+: tr ∨ l <:+ tr ++ [e] := by
  rcases List.eq_nil_or_concat l with rfl | ⟨m, x, rfl⟩
  · exact .inl (List.nil_infix)
  · obtain ⟨a, b, hab⟩ := h
    rcases List.eq_nil_or_concat b with rfl | ⟨b', y, rfl⟩
    · exact .inr ⟨a, by simpa using hab⟩
    · left
      refine ⟨a, b', ?_⟩
      have : (a ++ m.concat x ++ b') ++ [y] = tr ++ [e] := by simpa using hab
      exact (List.append_inj' this rfl).1

theorem since_snoc {tr : List PPEv} {e : PPEv} {n : ℕ} (he : e.isSweep = false) (h : Since tr n) :
    Since (tr ++ [e]) n := by
  rintro l ⟨a, ha⟩ hl
  rcases List.eq_nil_or_concat l with rfl | ⟨m, x, rfl⟩
  · simp
  · have h' : (a ++ m) ++ [x] = tr ++ [e] := by simpa using ha
    obtain ⟨h1, h2⟩ := List.append_inj' h' rfl
    cases h2
    have := h m ⟨a, h1⟩ (fun e he' => hl e (by simp [he']))
    simp [he]
    exact this

theorem since_sweep {tr : List PPEv} {n : ℕ} (h : Since tr n) : Since (tr ++ [.ppSweep]) (n + 1) := by
  rintro l ⟨a, ha⟩ hl
  rcases List.eq_nil_or_concat l with rfl | ⟨m, x, rfl⟩
  · simp
  · have h' : (a ++ m) ++ [x] = tr ++ [.ppSweep] := by simpa using ha
    obtain ⟨h1, h2⟩ := List.append_inj' h' rfl
    cases h2
    have := h m ⟨a, h1⟩ (fun e he' => hl e (by simp [he']))
    simp [PPEv.isSweep] at this ⊢
    omega

theorem since_start {tr : List PPEv} : Since (tr ++ [.ppStart]) 0 := by
  rintro l ⟨a, ha⟩ hl
  rcases List.eq_nil_or_concat l with rfl | ⟨m, x, rfl⟩
  · simp
  · have h' : (a ++ m) ++ [x] = tr ++ [.ppStart] := by simpa using ha
    obtain ⟨h1, h2⟩ := List.append_inj' h' rfl
    cases h2
    have := hl .ppStart (by simp)
    simp [PPEv.isStart] at this

theorem capped_snoc {tr : List PPEv} {e : PPEv} (he : e.isSweep = false) (h : Capped tr) : Capped (tr ++ [e]) := by
  intro l hl hs
  rcases infix_snoc hl with h1 | h1
  · exact h l h1 hs
  · exact since_snoc he (fun l ⟨a, ha⟩ => h l ⟨a, [], by simpa using ha⟩) l h1 hs

theorem capped_sweep {tr : List PPEv} {n : ℕ} (h : Capped tr) (h1 : Since tr n) (hn : n < 15) :
    Capped (tr ++ [.ppSweep]) := by
  intro l hl hs
  rcases infix_snoc hl with h2 | h2
  · exact h l h2 hs
  · exact (since_sweep h1 l h2 hs).trans hn

/-- The clock has passed the limit in some test. -/
def TimedOut (c : PPCfg) (clock : ℕ → ℝ) : Prop := ∃ k, c.timelimit < clock k

theorem ppTest_ok {c : PPCfg} {h : PPHooks σ} {clock : ℕ → ℝ} {pp : Bool} {P : σ → Prop} {checked : Prop}
    (hc : ∀ s, P s → Succ (h.check s) fun q => P q.1) (ha : ∀ s, P s → Succ (h.accept s) P)
    (hr : c.resprint ≠ 0) {r : PPRun σ} (hP : P r.st) :
    ∃ t, ppTest c h clock pp checked r = .ok t ∧ P t.1.st ∧ t.1.iter = r.iter ∧
      (t.1.trace = r.trace ∧ t.1.grad = r.grad ∨ ∃ d, t.1.trace = r.trace ++ [.row r.iter t.1.grad pp d]) ∧
      (t.2 = true → checked ∧ (t.1.grad < c.tol ∨ TimedOut c clock ∨
        (c.tucker = true ∧ pp = true ∧ (r.iter : ℤ) = c.maxiter))) ∧
      (t.2 = false → checked → ¬ (c.tucker = true ∧ pp = true ∧ (r.iter : ℤ) = c.maxiter)) := by
  unfold ppTest
  rw [if_neg hr]
  by_cases hk : checked
  · obtain ⟨q, q1, q2⟩ := hc _ hP
    simp only [hk, if_true, q1, bind, Except.bind]
    split
    · next hstop =>
      refine ⟨_, rfl, q2, rfl, .inr ⟨_, rfl⟩, fun _ => ⟨trivial, ?_⟩, fun h => by simp at h⟩
      rcases hstop with h1 | h1 | h1
      · exact .inl h1
      · exact .inr (.inl ⟨_, h1⟩)
      · exact .inr (.inr h1)
    · next hstop =>
      obtain ⟨s, s1, s2⟩ := ha _ q2
      simp only [s1]
      refine ⟨_, rfl, s2, rfl, .inr ⟨_, rfl⟩, fun h => by simp at h, fun _ _ h => hstop (.inr (.inr h))⟩
  · simp only [hk, if_false]
    exact ⟨_, rfl, hP, rfl, .inl ⟨rfl, rfl⟩, fun h => by simp at h, fun _ h => h.elim⟩

theorem capped_test {r t : PPRun σ} {pp : Bool}
    (h : t.trace = r.trace ∧ t.grad = r.grad ∨ ∃ d, t.trace = r.trace ++ [.row r.iter t.grad pp d]) {n : ℕ}
    (hS : Since r.trace n) : Since t.trace n := by
  rcases h with ⟨h, _⟩ | ⟨d, h⟩
  · rw [h]; exact hS
  · rw [h]; exact since_snoc rfl hS

theorem capped_test' {r t : PPRun σ} {pp : Bool}
    (h : t.trace = r.trace ∧ t.grad = r.grad ∨ ∃ d, t.trace = r.trace ++ [.row r.iter t.grad pp d])
    (hS : Capped r.trace) : Capped t.trace := by
  rcases h with ⟨h, _⟩ | ⟨d, h⟩
  · rw [h]; exact hS
  · rw [h]; exact capped_snoc rfl hS

/-- The dimension tree phase ends: `fuel` passes suffice, and the possible reasons. -/
theorem dtSubLoop_ok {c : PPCfg} {h : PPHooks σ} {clock : ℕ → ℝ} {I D Q : σ → Prop} (hk : HooksOk h I D Q)
    (hr : c.resprint ≠ 0) : ∀ (fuel : ℕ) (r : PPRun σ), D r.st → (c.maxiter + 1 - r.iter).toNat < fuel →
    ∃ r', dtSubLoop c h clock fuel r = .ok r' ∧ D r'.st ∧ r.iter ≤ r'.iter ∧
      ((r'.iter : ℤ) ≤ c.maxiter + 1 ∨ r'.iter = r.iter) ∧
      (c.tucker = false → Capped r.trace → Capped r'.trace) ∧
      (r'.grad < c.tol ∨ TimedOut c clock ∨ c.maxiter < r'.iter ∨ h.dtClose r'.st = .ok true)
  | 0, _, _, hf => by omega
  | fuel + 1, r, hD, hf => by
    unfold dtSubLoop
    by_cases hi : (r.iter : ℤ) ≤ c.maxiter
    · rw [if_pos hi]
      obtain ⟨t, t1, t2, t3, t4, t5, _⟩ := ppTest_ok (pp := false) (checked := dtChecked c r.iter) hk.checkD hk.acceptD hr hD
        (clock := clock)
      simp only [t1, bind, Except.bind]
      by_cases hs : t.2 = true
      · rw [if_pos hs]
        refine ⟨t.1, rfl, t2, t3.ge, .inr t3, fun _ => capped_test' t4, ?_⟩
        rcases (t5 hs).2 with h1 | h1 | h1
        · exact .inl h1
        · exact .inr (.inl h1)
        · exact absurd h1.2.1 (by simp)
      · rw [if_neg hs]
        obtain ⟨s, s1, s2⟩ := hk.dtSweep _ t2
        obtain ⟨b, b1, -⟩ := hk.dtClose _ s2
        simp only [s1, b1]
        cases b
        · simp only [Bool.false_eq_true, if_false]
          obtain ⟨r', a1, a2, a3, a4, a5, a6⟩ := dtSubLoop_ok hk hr fuel
            ⟨t.1.iter + 1, t.1.grad, t.1.tests, s, t.1.trace ++ [.dtSweep]⟩ s2 (by simp only [t3]; omega) (clock := clock)
          simp only [t3] at a1 a3 a4
          rw [t3]
          refine ⟨r', a1, a2, by omega, by omega, fun ht hc => a5 ht ?_, a6⟩
          exact capped_snoc rfl (capped_test' t4 hc)
        · simp only [if_true]
          exact ⟨_, rfl, s2, t3.ge, .inr t3, fun _ hc => capped_snoc rfl (capped_test' t4 hc), .inr (.inr (.inr b1))⟩
    · rw [if_neg hi]
      exact ⟨r, rfl, hD, le_rfl, .inr rfl, fun _ h => h, .inr (.inr (.inl (by omega)))⟩

theorem benchInc_st (c : PPCfg) (r : PPRun σ) : (benchInc c r).st = r.st := by unfold benchInc; split <;> rfl
theorem benchInc_trace (c : PPCfg) (r : PPRun σ) : (benchInc c r).trace = r.trace := by unfold benchInc; split <;> rfl
theorem benchInc_grad (c : PPCfg) (r : PPRun σ) : (benchInc c r).grad = r.grad := by unfold benchInc; split <;> rfl
theorem benchInc_iter (c : PPCfg) (r : PPRun σ) :
    (benchInc c r).iter = r.iter + if c.bench = true then 1 else 0 := by
  unfold benchInc; split <;> rfl

/-- In `bench` mode, `iter = maxiter + 1` at the end of a PP phase means that a test stopped it. -/
def BenchEnd (c : PPCfg) (clock : ℕ → ℝ) (r : PPRun σ) : Prop :=
  c.bench = true → c.tucker = false → (r.iter : ℤ) = c.maxiter + 1 → r.grad < c.tol ∨ TimedOut c clock

/-- The PP phase ends, and the possible reasons. -/
theorem ppSubLoop_ok {c : PPCfg} {h : PPHooks σ} {clock : ℕ → ℝ} {I D Q : σ → Prop} (hk : HooksOk h I D Q)
    (hr : c.resprint ≠ 0) (init : ℕ) : ∀ (fuel : ℕ) (r : PPRun σ), init ≤ r.iter →
    (r.iter = init → I r.st) → (r.iter ≠ init → Q r.st ∧ (c.tucker = false →
      Since r.trace (r.iter - init) ∧ r.iter ≤ init + 15)) →
    (c.maxiter + 1 - r.iter).toNat < fuel →
    ∃ r', ppSubLoop c h clock init fuel r = .ok r' ∧ I r'.st ∧ r.iter ≤ r'.iter ∧
      ((r'.iter : ℤ) ≤ c.maxiter + 1 + (if c.bench = true then 1 else 0) ∨ r'.iter = r.iter + (if c.bench = true then 1 else 0)) ∧
      (c.tucker = false → Capped r.trace → Capped r'.trace) ∧
      (r'.grad < c.tol ∨ TimedOut c clock ∨ (c.tucker = true ∧ (r'.iter : ℤ) = c.maxiter + (if c.bench = true then 1 else 0)) ∨
        init < r'.iter ∨ (r' = r ∧ c.bench = false ∧ h.ppFar r.st = .ok true) ∨ c.maxiter < r'.iter) ∧
      BenchEnd c clock r'
  | 0, _, _, _, _, hf => by omega
  | fuel + 1, r, hi0, hI, hQ, hf => by
    have hI' : I r.st := by
      by_cases e : r.iter = init
      · exact hI e
      · exact hk.QI _ (hQ e).1
    unfold ppSubLoop
    by_cases hi : (r.iter : ℤ) ≤ c.maxiter
    · rw [if_pos hi]
      obtain ⟨far, f1, f2⟩ : ∃ far, (if c.bench = true then (.ok false : Except Fault Bool) else h.ppFar r.st) = .ok far ∧
          (far = true → c.bench = false ∧ h.ppFar r.st = .ok true) := by
        by_cases hb : c.bench = true
        · exact ⟨false, by rw [if_pos hb], by simp⟩
        · obtain ⟨b, b1, -⟩ := hk.ppFar _ hI'
          exact ⟨b, by rw [if_neg hb, b1], fun e => ⟨by simpa using hb, by rw [b1, e]⟩⟩
      simp only [f1, bind, Except.bind]
      split
      · next hret =>
        refine ⟨r, rfl, hI', le_rfl, ?_, fun _ h => h, ?_, fun _ _ h => by omega⟩
        · left; split <;> omega
        · by_cases e : r.iter = init
          · rw [e] at hret
            simp at hret
            exact .inr (.inr (.inr (.inr (.inl ⟨rfl, f2 hret⟩))))
          · exact .inr (.inr (.inr (.inl (by omega))))
      · next hret =>
        simp only [Bool.or_eq_true, Bool.and_eq_true, beq_iff_eq, bne_iff_ne, ne_eq, not_or, not_and] at hret
        obtain ⟨r1, e1, e2, e3, e4, e5, e6⟩ : ∃ r1 : PPRun σ, ppEnter h init r = .ok r1 ∧ Q r1.st ∧ r1.iter = r.iter ∧ (c.tucker = false → Since r1.trace (r.iter - init)) ∧
            (c.tucker = false → Capped r.trace → Capped r1.trace) ∧ (c.tucker = false → r.iter < init + 15) := by
          by_cases e : r.iter = init
          · obtain ⟨s, s1, s2⟩ := hk.ppBegin _ (hI e)
            refine ⟨{ r with st := s, trace := r.trace ++ [.ppStart] }, by
              unfold ppEnter; rw [if_pos e, s1]; rfl, s2, rfl, fun _ => ?_,
              fun _ hc => capped_snoc rfl hc, fun _ => by omega⟩
            rw [e, Nat.sub_self]
            exact since_start
          · refine ⟨r, by unfold ppEnter; rw [if_neg e], (hQ e).1, rfl, fun ht => ((hQ e).2 ht).1, fun _ h => h, fun ht => ?_⟩
            have h1 := ((hQ e).2 ht).2
            have h2 := hret.2 ⟨ht, e⟩
            omega
        rw [e1]
        simp only
        obtain ⟨t, t1, t2, t3, t4, t5, _⟩ := ppTest_ok (pp := true) (checked := ppChecked c init r.iter) hk.checkQ hk.acceptQ
          hr e2 (clock := clock)
        simp only [t1]
        by_cases hs : t.2 = true
        · rw [if_pos hs]
          refine ⟨_, rfl, by rw [benchInc_st]; exact hk.QI _ t2, ?_, .inr ?_, fun ht hc => ?_, ?_, fun _ ht _ => ?_⟩
          · rw [benchInc_iter]; omega
          · rw [benchInc_iter, t3, e3]
          · rw [benchInc_trace]; exact capped_test' t4 (e5 ht hc)
          · rw [benchInc_grad, benchInc_iter, t3, e3]
            rcases (t5 hs).2 with h1 | h1 | h1
            · exact .inl h1
            · exact .inr (.inl h1)
            · have := h1.2.2
              rw [e3] at this
              refine .inr (.inr (.inl ⟨h1.1, by push_cast; omega⟩))
          · rw [benchInc_grad]
            rcases (t5 hs).2 with h1 | h1 | h1
            · exact .inl h1
            · exact .inr h1
            · rw [ht] at h1; simp at h1
        · rw [if_neg hs]
          obtain ⟨s, s1, s2⟩ := hk.ppSweep _ t2
          simp only [s1]
          obtain ⟨r', a1, a2, a3, a4, a5, a6, a7⟩ := ppSubLoop_ok hk hr init fuel
            ⟨t.1.iter + 1, t.1.grad, t.1.tests, s, t.1.trace ++ [.ppSweep]⟩ (by simp only [t3, e3]; omega)
            (by simp only [t3, e3]; omega) (fun _ => ⟨s2, fun ht => by
              have h1 := e6 ht
              have h2 := since_sweep (capped_test t4 (e4 ht))
              simp only [t3, e3]
              rw [show r.iter + 1 - init = r.iter - init + 1 by omega]
              exact ⟨h2, by omega⟩⟩) (by simp only [t3, e3]; omega) (clock := clock)
          simp only [t3, e3] at a1 a3 a4 a6
          rw [t3, e3]
          refine ⟨r', a1, a2, by omega, ?_, fun ht hc => a5 ht ?_, ?_, a7⟩
          · left
            rcases a4 with a4 | a4
            · exact a4
            · rw [a4]; push_cast; omega
          · exact capped_sweep (capped_test' t4 (e5 ht hc)) (capped_test t4 (e4 ht)) (by have := e6 ht; omega)
          · exact .inr (.inr (.inr (.inl (by omega))))
    · rw [if_neg hi]
      refine ⟨_, rfl, by rw [benchInc_st]; exact hI', by rw [benchInc_iter]; omega, .inr (by rw [benchInc_iter]),
        fun _ hc => by rw [benchInc_trace]; exact hc, ?_, fun hb _ h => by
          rw [benchInc_iter] at h; simp only [hb, if_true] at h; omega⟩
      rw [benchInc_iter]
      exact .inr (.inr (.inr (.inr (.inr (by push_cast; split <;> omega)))))

/-- One round of the driver. -/
theorem round_ok {c : PPCfg} {h : PPHooks σ} {clock : ℕ → ℝ} {I D Q : σ → Prop} (hk : HooksOk h I D Q)
    (hr : c.resprint ≠ 0) (hclose : ∀ s, D s → h.dtClose s = .ok true → h.ppFar s = .ok false) {sub : ℕ}
    {r : PPRun σ} (hI : I r.st) (hi : (r.iter : ℤ) ≤ c.maxiter) (hs : (c.maxiter + 1 - r.iter).toNat < sub) :
    ∃ r1 r2, (if c.bench = true then .ok r else dtSub c h clock sub r) = .ok r1 ∧
      ppSubLoop c h clock r1.iter sub r1 = .ok r2 ∧ I r2.st ∧ r.iter ≤ r2.iter ∧
      (r2.iter : ℤ) ≤ c.maxiter + 1 + (if c.bench = true then 1 else 0) ∧
      (c.tucker = false → Capped r.trace → Capped r2.trace) ∧
      (r2.grad < c.tol ∨ TimedOut c clock ∨ r.iter < r2.iter ∨
        (c.tucker = true ∧ (r2.iter : ℤ) = c.maxiter + (if c.bench = true then 1 else 0)) ∨ c.maxiter < r2.iter) ∧ BenchEnd c clock r2 := by
  by_cases hb : c.bench = true
  · obtain ⟨r2, b1, b2, b3, b4, b5, b6, b7⟩ := ppSubLoop_ok hk hr r.iter sub r le_rfl (fun _ => hI) (fun h => absurd rfl h) hs
      (clock := clock)
    refine ⟨r, r2, if_pos hb, b1, b2, b3, by simp only [if_pos hb] at b4 ⊢; omega, b5, ?_, b7⟩
    rcases b6 with h1 | h1 | h1 | h1 | h1 | h1
    · exact .inl h1
    · exact .inr (.inl h1)
    · exact .inr (.inr (.inr (.inl h1)))
    · exact .inr (.inr (.inl h1))
    · rw [hb] at h1; simp at h1
    · exact .inr (.inr (.inr (.inr h1)))
  · obtain ⟨s, s1, s2⟩ := hk.dtBegin _ hI
    obtain ⟨r1, a1, a2, a3, a4, a5, a6⟩ := dtSubLoop_ok hk hr sub
      ⟨r.iter, r.grad, r.tests, s, r.trace ++ [.dtStart]⟩ s2 hs (clock := clock)
    simp only at a3 a4 a5
    obtain ⟨r2, b1, b2, b3, b4, b5, b6, b7⟩ := ppSubLoop_ok hk hr r1.iter sub r1 le_rfl (fun _ => hk.DI _ a2)
      (fun h => absurd rfl h) (by omega) (clock := clock)
    refine ⟨r1, r2, ?_, b1, b2, by omega, by simp only [if_neg hb] at b4 ⊢; omega,
      fun ht hc => b5 ht (a5 ht (capped_snoc rfl hc)), ?_, b7⟩
    · rw [if_neg hb]; unfold dtSub; rw [s1]; exact a1
    · rcases b6 with h1 | h1 | h1 | h1 | h1 | h1
      · exact .inl h1
      · exact .inr (.inl h1)
      · exact .inr (.inr (.inr (.inl h1)))
      · exact .inr (.inr (.inl (by omega)))
      · obtain ⟨rfl, -, hfar⟩ := h1
        rcases a6 with h2 | h2 | h2 | h2
        · exact .inl h2
        · exact .inr (.inl h2)
        · exact .inr (.inr (.inr (.inr h2)))
        · rw [hclose _ a2 h2] at hfar
          cases hfar
      · exact .inr (.inr (.inr (.inr h1)))

/-- What holds when a driver has returned. -/
structure PPExit (c : PPCfg) (clock : ℕ → ℝ) (I : σ → Prop) (r : PPRun σ) : Prop where
  inv : I r.st
  stop : ¬ (c.tol < r.grad ∧ (r.iter : ℤ) ≤ c.maxiter)
  bound : (r.iter : ℤ) ≤ c.maxiter + 1 + (if c.bench = true then 1 else 0)
  capped : c.tucker = false → Capped r.trace
  bench : BenchEnd c clock r

/-- Termination of the CP drivers without timeout. -/
theorem ppDriverLoop_ok {c : PPCfg} {h : PPHooks σ} {clock : ℕ → ℝ} {I D Q : σ → Prop} (hk : HooksOk h I D Q)
    (hr : c.resprint ≠ 0) (hclose : ∀ s, D s → h.dtClose s = .ok true → h.ppFar s = .ok false)
    (ht : c.tucker = false) (hclk : ¬ TimedOut c clock) {sub : ℕ} : ∀ (fuel : ℕ) (r : PPRun σ), I r.st →
    (r.iter : ℤ) ≤ c.maxiter + 1 + (if c.bench = true then 1 else 0) → Capped r.trace → BenchEnd c clock r →
    (c.maxiter + 1 - r.iter).toNat < sub → (c.maxiter + 1 - r.iter).toNat + 1 < fuel →
    ∃ r', ppDriverLoop c h clock sub fuel r = .ok r' ∧ PPExit c clock I r'
  | 0, _, _, _, _, _, _, hf => by omega
  | fuel + 1, r, hI, hi, hc, hbe, hs, hf => by
    unfold ppDriverLoop
    split
    · next hgo =>
      obtain ⟨r1, r2, a1, a2, a3, a4, a5, a6, a7, a8⟩ := round_ok hk hr hclose hI hgo.2 hs (clock := clock)
      rw [a1]
      simp only [bind, Except.bind, a2]
      by_cases hg : r2.grad < c.tol
      · obtain ⟨fuel, rfl⟩ : ∃ f, fuel = f + 1 := ⟨fuel - 1, by omega⟩
        unfold ppDriverLoop
        rw [if_neg (by simp only [not_and]; intro h; linarith)]
        exact ⟨_, rfl, hk.endRound _ a3, by simp only [not_and]; intro h; linarith, a5, fun ht => a6 ht hc, a8⟩
      · refine ppDriverLoop_ok hk hr hclose ht hclk fuel _ (hk.endRound _ a3) a5 (a6 ht hc) a8 (by simp only; omega) ?_
        have : r.iter < r2.iter := by
          rcases a7 with h1 | h1 | h1 | h1 | h1
          · exact absurd h1 hg
          · exact absurd h1 hclk
          · exact h1
          · rw [ht] at h1; simp at h1
          · omega
        simp only
        omega
    · next hgo => exact ⟨r, rfl, hI, hgo, hi, fun _ => hc, hbe⟩

/-- Whatever the clock does: a driver that returns has a reason, and never made more than 15 sweeps with the same
operators (CP). -/
theorem ppDriverLoop_exit {c : PPCfg} {h : PPHooks σ} {clock : ℕ → ℝ} {I D Q : σ → Prop} (hk : HooksOk h I D Q)
    (hr : c.resprint ≠ 0) (hclose : ∀ s, D s → h.dtClose s = .ok true → h.ppFar s = .ok false)
    {sub : ℕ} : ∀ (fuel : ℕ) (r r' : PPRun σ), I r.st →
    (r.iter : ℤ) ≤ c.maxiter + 1 + (if c.bench = true then 1 else 0) → (c.tucker = false → Capped r.trace) → BenchEnd c clock r →
    (c.maxiter + 1 - r.iter).toNat < sub → ppDriverLoop c h clock sub fuel r = .ok r' → PPExit c clock I r'
  | 0, _, _, _, _, _, _, _, e => by cases e
  | fuel + 1, r, r', hI, hi, hc, hbe, hs, e => by
    unfold ppDriverLoop at e
    split at e
    · next hgo =>
      obtain ⟨r1, r2, a1, a2, a3, a4, a5, a6, a7, a8⟩ := round_ok hk hr hclose hI hgo.2 hs (clock := clock)
      rw [a1] at e
      simp only [bind, Except.bind, a2] at e
      exact ppDriverLoop_exit hk hr hclose fuel { r2 with st := h.endRound r2.st } r' (hk.endRound _ a3) a5 (fun ht => a6 ht (hc ht)) a8
        (by simp only; omega) e
    · next hgo =>
      cases e
      exact ⟨hI, hgo, hi, hc, hbe⟩

theorem ppTest_late {c : PPCfg} {h : PPHooks σ} {clock : ℕ → ℝ} {pp : Bool} {J : σ → Prop} {k0 : ℕ} {checked : Prop}
    (hc : ∀ s, J s → Succ (h.check s) fun q => J q.1 ∧ c.tol < q.2.1) (hr : c.resprint ≠ 0) (hk : checked)
    (hclk : ∀ k, k0 ≤ k → c.timelimit < clock k) {r : PPRun σ} (hJ : J r.st) (ht : k0 ≤ r.tests) :
    ∃ t, ppTest c h clock pp checked r = .ok (t, true) ∧ J t.st ∧ t.iter = r.iter ∧ k0 ≤ t.tests ∧ c.tol < t.grad := by
  unfold ppTest
  obtain ⟨q, q1, q2, q3⟩ := hc _ hJ
  simp only [hr, hk, if_true, if_false, q1, bind, Except.bind]
  rw [if_pos (.inr (.inl (hclk _ ht)))]
  exact ⟨_, rfl, q2, rfl, by simp only; omega, q3⟩

/-- The livelock: once the limit has passed at an iteration with a test, the driver makes no progress any more. -/
theorem ppDriverLoop_livelock {c : PPCfg} {h : PPHooks σ} {clock : ℕ → ℝ} {J : σ → Prop} {k0 i : ℕ}
    (hr : c.resprint ≠ 0) (hb : c.bench = false)
    (hdt : ∀ s, J s → Succ (h.dtBegin s) J) (hc : ∀ s, J s → Succ (h.check s) fun q => J q.1 ∧ c.tol < q.2.1)
    (hfar : ∀ s, J s → Succ (h.ppFar s) fun _ => True) (hpp : ∀ s, J s → Succ (h.ppBegin s) J)
    (hend : ∀ s, J s → J (h.endRound s)) (hclk : ∀ k, k0 ≤ k → c.timelimit < clock k)
    (hchk : dtChecked c i) (hi : (i : ℤ) ≤ c.maxiter) (sub : ℕ) : ∀ (fuel : ℕ) (r : PPRun σ), J r.st → r.iter = i →
    k0 ≤ r.tests → c.tol < r.grad → ppDriverLoop c h clock sub fuel r = .error .diverge
  | 0, _, _, _, _, _ => rfl
  | fuel + 1, r, hJ, e, ht, hg => by
    unfold ppDriverLoop
    rw [if_pos ⟨hg, by rw [e]; exact hi⟩]
    simp only [hb, Bool.false_eq_true, if_false]
    obtain ⟨s, s1, s2⟩ := hdt _ hJ
    unfold dtSub
    rw [s1]
    simp only [bind, Except.bind]
    cases sub with
    | zero => rfl
    | succ sub =>
      obtain ⟨t, t1, t2, t3, t4, t5⟩ := ppTest_late (pp := false) (checked := dtChecked c i) hc hr hchk hclk
        (r := ⟨r.iter, r.grad, r.tests, s, r.trace ++ [.dtStart]⟩) s2 ht
      have hdl : dtSubLoop c h clock (sub + 1) ⟨r.iter, r.grad, r.tests, s, r.trace ++ [.dtStart]⟩ = .ok t := by
        unfold dtSubLoop
        simp only [e]
        rw [if_pos hi]
        simp only [bind, Except.bind]
        simp only [e] at t1
        rw [t1]
        rfl
      rw [hdl]
      simp only at t3
      simp only
      obtain ⟨b, b1, -⟩ := hfar _ t2
      have hpl : ∃ t', ppSubLoop c h clock t.iter (sub + 1) t = .ok t' ∧ J t'.st ∧ t'.iter = i ∧ k0 ≤ t'.tests ∧
          c.tol < t'.grad := by
        unfold ppSubLoop
        rw [if_pos (by rw [t3, e]; exact hi)]
        simp only [hb, Bool.false_eq_true, if_false, b1, bind, Except.bind]
        cases b
        · obtain ⟨u, u1, u2⟩ := hpp _ t2
          obtain ⟨v, v1, v2, v3, v4, v5⟩ := ppTest_late (pp := true) (checked := ppChecked c t.iter t.iter) hc hr
            (.inr rfl) hclk (r := { t with st := u, trace := t.trace ++ [.ppStart] }) u2 t4
          simp only [Bool.false_or, bne_self_eq_false, Bool.and_false, Bool.false_and, Bool.false_eq_true, if_false,
            ppEnter, if_true, u1, bind, Except.bind, pure, Except.pure, v1]
          refine ⟨_, rfl, ?_, ?_, ?_, ?_⟩
          all_goals simp only [benchInc, hb, Bool.false_eq_true, if_false]
          · exact v2
          · rw [v3]; exact t3.trans e
          · exact v4
          · exact v5
        · simp only [Bool.true_or, if_true]
          exact ⟨t, rfl, t2, t3.trans e, t4, t5⟩
      obtain ⟨t', p1, p2, p3, p4, p5⟩ := hpl
      rw [p1]
      simp only
      exact ppDriverLoop_livelock hr hb hdt hc hfar hpp hend hclk hchk hi (sub + 1) fuel _ (hend _ p2) p3 p4 p5

end Model
