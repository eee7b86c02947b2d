import Verif.Properties.TuckPP

/-! # C54: the schedule of the tolerance `tol_init` in `alsTucker_PP` -/

namespace Model

/-- Is this the start of a dimension tree phase? -/
def PPEv.isDtStart : PPEv → Bool
  | .dtStart => true
  | _ => false

section Generic

variable {σ α : Type} {c : PPCfg} {h : PPHooks σ} {clock : ℕ → ℝ} {φ : σ → α}

/-- The computations leave `φ` alone. -/
structure Keeps (h : PPHooks σ) (φ : σ → α) : Prop where
  dtBegin : ∀ s s', h.dtBegin s = .ok s' → φ s' = φ s
  dtSweep : ∀ s s', h.dtSweep s = .ok s' → φ s' = φ s
  ppBegin : ∀ s s', h.ppBegin s = .ok s' → φ s' = φ s
  ppSweep : ∀ s s', h.ppSweep s = .ok s' → φ s' = φ s
  check : ∀ s q, h.check s = .ok q → φ q.1 = φ s
  accept : ∀ s s', h.accept s = .ok s' → φ s' = φ s

/-- Value of `φ` and number of dimension tree phases started. -/
def mark (φ : σ → α) (r : PPRun σ) : α × ℕ := (φ r.st, r.trace.countP PPEv.isDtStart)

theorem bind_ok {β γ : Type} {x : Except Fault β} {f : β → Except Fault γ} {y : γ} (h : (x >>= f) = .ok y) :
    ∃ a, x = .ok a ∧ f a = .ok y := by
  cases x with
  | error e => cases h
  | ok a => exact ⟨a, rfl, h⟩

theorem ppTest_mark (hk : Keeps h φ) {pp : Bool} {ch : Prop} {r : PPRun σ} {t : PPRun σ × Bool}
    (e : ppTest c h clock pp ch r = .ok t) : mark φ t.1 = mark φ r := by
  unfold ppTest at e
  split at e
  · cases e
  split at e
  · obtain ⟨q, q1, e⟩ := bind_ok e
    dsimp only at e
    split at e
    · cases e
      simp [mark, hk.check _ _ q1, PPEv.isDtStart]
    · obtain ⟨s, s1, e⟩ := bind_ok e
      cases e
      simp [mark, hk.accept _ _ s1, hk.check _ _ q1, PPEv.isDtStart]
  · cases e
    rfl

theorem dtSubLoop_mark (hk : Keeps h φ) : ∀ (fuel : ℕ) (r r' : PPRun σ), dtSubLoop c h clock fuel r = .ok r' →
    mark φ r' = mark φ r
  | 0, _, _, e => by cases e
  | fuel + 1, r, r', e => by
    unfold dtSubLoop at e
    split at e
    · obtain ⟨t, t1, e⟩ := bind_ok e
      have ht := ppTest_mark hk t1
      split at e
      · cases e
        exact ht
      · obtain ⟨s, s1, e⟩ := bind_ok e
        obtain ⟨cl, c1, e⟩ := bind_ok e
        have hs := hk.dtSweep _ _ s1
        split at e
        · cases e
          rw [← ht]
          simp [mark, hs, PPEv.isDtStart]
        · rw [dtSubLoop_mark hk fuel _ _ e, ← ht]
          simp [mark, hs, PPEv.isDtStart]
    · cases e
      rfl

theorem dtSub_mark (hk : Keeps h φ) {fuel : ℕ} {r r' : PPRun σ} (e : dtSub c h clock fuel r = .ok r') :
    mark φ r' = (φ r.st, r.trace.countP PPEv.isDtStart + 1) := by
  unfold dtSub at e
  obtain ⟨s, s1, e⟩ := bind_ok e
  rw [dtSubLoop_mark hk _ _ _ e]
  simp [mark, hk.dtBegin _ _ s1, PPEv.isDtStart]

theorem benchInc_mark (r : PPRun σ) : mark φ (benchInc c r) = mark φ r := by
  unfold benchInc
  split <;> rfl

theorem ppSubLoop_mark (hk : Keeps h φ) (init : ℕ) : ∀ (fuel : ℕ) (r r' : PPRun σ),
    ppSubLoop c h clock init fuel r = .ok r' → mark φ r' = mark φ r
  | 0, _, _, e => by cases e
  | fuel + 1, r, r', e => by
    unfold ppSubLoop at e
    split at e
    · obtain ⟨far, _, e⟩ := bind_ok e
      split at e
      · cases e
        rfl
      · obtain ⟨r1, e1, e⟩ := bind_ok e
        have h1 : mark φ r1 = mark φ r := by
          unfold ppEnter at e1
          split at e1
          · obtain ⟨s, s1, e1⟩ := bind_ok e1
            cases e1
            simp [mark, hk.ppBegin _ _ s1, PPEv.isDtStart]
          · cases e1
            rfl
        obtain ⟨t, t1, e⟩ := bind_ok e
        have ht := ppTest_mark hk t1
        split at e
        · cases e
          rw [benchInc_mark, ht, h1]
        · obtain ⟨s, s1, e⟩ := bind_ok e
          rw [ppSubLoop_mark hk init fuel _ _ e, ← h1, ← ht]
          simp [mark, hk.ppSweep _ _ s1, PPEv.isDtStart]
    · cases e
      exact benchInc_mark r

/-- Outside `bench` mode `φ` has been changed by `step` once per dimension tree phase. -/
theorem ppDriverLoop_mark (hk : Keeps h φ) (hb : c.bench = false) {step : α → α} (hs : ∀ s, φ (h.endRound s) = step (φ s))
    (sub : ℕ) : ∀ (fuel : ℕ) (r r' : PPRun σ), ppDriverLoop c h clock sub fuel r = .ok r' →
    ∃ n, r'.trace.countP PPEv.isDtStart = r.trace.countP PPEv.isDtStart + n ∧ φ r'.st = step^[n] (φ r.st)
  | 0, _, _, e => by cases e
  | fuel + 1, r, r', e => by
    unfold ppDriverLoop at e
    split at e
    · obtain ⟨r1, e1, e⟩ := bind_ok e
      obtain ⟨r2, e2, e⟩ := bind_ok e
      rw [hb] at e1
      simp only [Bool.false_eq_true, if_false] at e1
      have h1 := dtSub_mark hk e1
      have h2 := (ppSubLoop_mark hk _ _ _ _ e2).trans h1
      obtain ⟨h3, h4⟩ := Prod.mk.inj h2
      obtain ⟨n, n1, n2⟩ := ppDriverLoop_mark hk hb hs sub fuel _ _ e
      refine ⟨n + 1, ?_, ?_⟩
      · simp only at n1
        omega
      · rw [n2, hs, h3, Function.iterate_succ_apply]
    · cases e
      exact ⟨0, rfl, rfl⟩

end Generic

end Model

namespace Properties

open Model

/-- The reduction documented in the code: `if (tol_init > 5e-3) tol_init *= 0.9`. -/
noncomputable def tolStep (x : ℝ) : ℝ := open Classical in if 5 / 1000 < x then x * (9 / 10) else x

/-- **C54 (tolerance schedule).** Outside `bench` mode, whenever `alsTucker_PP` returns, the tolerance it used has been
reduced by `0.9` once per round (a round starts with a dimension tree phase) as long as it was above `5e-3`, and never
otherwise: nothing in the sweeps, the tests or the set-up of the operators changes it.  No assumption on the tensor, the
factors, the kernels or the clock. -/
theorem C54_tol_schedule (N : ℕ) (kn : Kern ℝ) (V : Tensor ℝ) (tolInit : ℝ) (c : PPCfg) (hb : c.bench = false)
    (clock : ℕ → ℝ) (fuel : ℕ) (core : Tensor ℝ) (W : List (Tensor ℝ)) (r : PPRun TuckPPState) (ret : Bool)
    (he : alsTuckerPP N kn V tolInit c clock fuel core W = .ok (r, ret)) :
    r.st.tolInit = tolStep^[r.trace.countP PPEv.isDtStart] tolInit := by
  unfold alsTuckerPP ppDriver at he
  obtain ⟨r0, e, he⟩ := bind_ok he
  cases he
  have hk : Keeps (tuckPPHooks N kn V) TuckPPState.tolInit := by
    constructor
    · intro s s' e; cases e; rfl
    · intro s s' e
      obtain ⟨_, _, e⟩ := bind_ok e
      obtain ⟨_, _, e⟩ := bind_ok e
      cases e; rfl
    · intro s s' e
      obtain ⟨_, _, e⟩ := bind_ok e
      cases e; rfl
    · intro s s' e
      obtain ⟨_, _, e⟩ := bind_ok e
      cases e; rfl
    · intro s s' e
      obtain ⟨_, _, e⟩ := bind_ok e
      cases e; rfl
    · intro s s' e
      obtain ⟨_, _, e⟩ := bind_ok e
      cases e; rfl
  obtain ⟨n, h1, h2⟩ := ppDriverLoop_mark (c := { c with tucker := true }) hk hb (step := tolStep)
    (fun s => by
      unfold tolStep
      change TuckPPState.tolInit (if 5 / 1000 < s.tolInit then { s with tolInit := s.tolInit * (9 / 10) } else s) = _
      split <;> rfl) fuel fuel _ _ e
  rw [h2, h1]
  simp

theorem tolStep_le {x : ℝ} (h : 0 ≤ x) : tolStep x ≤ x := by
  unfold tolStep
  split <;> linarith

theorem tolStep_floor {x : ℝ} (h : 45 / 10000 ≤ x) : 45 / 10000 ≤ tolStep x := by
  unfold tolStep
  split <;> linarith

/-- **C54 (tolerance floor).** A tolerance of at least `4.5e-3` never falls below `4.5e-3`, and never grows. -/
theorem C54_tol_floor {x : ℝ} (h : 45 / 10000 ≤ x) (n : ℕ) : 45 / 10000 ≤ tolStep^[n] x ∧ tolStep^[n] x ≤ x := by
  induction n with
  | zero => exact ⟨h, le_rfl⟩
  | succ n ih =>
    rw [Function.iterate_succ_apply']
    exact ⟨tolStep_floor ih.1, (tolStep_le (by linarith [ih.1])).trans ih.2⟩

/-- Two reductions from `1e-2`, and none from `5e-3` on. -/
example : tolStep^[2] (1 / 100) = 81 / 10000 ∧ tolStep^[7] (5 / 1000) = 5 / 1000 := by
  constructor
  · norm_num [tolStep]
  · have : tolStep (5 / 1000) = 5 / 1000 := by norm_num [tolStep]
    exact Function.iterate_fixed this 7

/-- A run to which the schedule applies. -/
example : ∃ k r ret, alsTuckerPP 4 k exTuckV (1 / 10) ⟨true, 1 / 1000, 60, 100, 10, false⟩ (fun _ => 1) 103
    ⟨[1, 2, 1, 3], fun _ => 1⟩ exTuckW = .ok (r, ret) ∧ r.st.tolInit = tolStep^[r.trace.countP PPEv.isDtStart] (1 / 10) := by
  obtain ⟨k, hl, hk⟩ := exists_svdLeading
  obtain ⟨r, ret, h, _⟩ := C54_terminates (by norm_num) (by norm_num) (by norm_num) exTuckRank exTuckShaped
    (core := ⟨[1, 2, 1, 3], fun _ => 1⟩) rfl hk hl (1 / 10) 0 (by norm_num) ⟨true, 1 / 1000, 60, 100, 10, false⟩
    (by norm_num) (by norm_num) (by norm_num) (fun _ => 1) (fun _ => by norm_num) 103 (by norm_num)
  exact ⟨k, r, ret, h, C54_tol_schedule 4 k exTuckV _ _ rfl _ _ _ _ r ret h⟩

end Properties
