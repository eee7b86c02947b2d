import Verif.Proofs.PPDriver

/-! # Control flow of `alsTucker_PP` -/

namespace Model

variable {σ : Type}

theorem Succ.of_ok {α : Type} {e : Except Fault α} {P : α → Prop} (h : Succ e P) {a : α} (ha : e = .ok a) : P a := by
  obtain ⟨b, b1, b2⟩ := h
  rw [ha] at b1
  rw [Except.ok.inj b1]
  exact b2

/-- `E` (the core belongs to the factors) is established by a dimension tree sweep and by a test, and kept by everything but a
PP sweep. -/
structure ExactOk (h : PPHooks σ) (I D Q E : σ → Prop) : Prop where
  dtSweep : ∀ s, D s → Succ (h.dtSweep s) E
  checkD : ∀ s, D s → Succ (h.check s) fun q => E q.1
  checkQ : ∀ s, Q s → Succ (h.check s) fun q => E q.1
  acceptD : ∀ s, D s → E s → Succ (h.accept s) E
  acceptQ : ∀ s, Q s → E s → Succ (h.accept s) E
  ppBegin : ∀ s, I s → E s → Succ (h.ppBegin s) E
  endRound : ∀ s, E s → E (h.endRound s)

/-- A test, when it returns: either nothing was tested, or the state is that of `check` (stop) or of `accept` after it. -/
theorem ppTest_inv {c : PPCfg} {h : PPHooks σ} {clock : ℕ → ℝ} {pp : Bool} {checked : Prop} {r : PPRun σ}
    {t : PPRun σ × Bool} (e : ppTest c h clock pp checked r = .ok t) :
    t.1.iter = r.iter ∧
    ((¬ checked ∧ t = (r, false)) ∨
     (checked ∧ ∃ q, h.check r.st = .ok q ∧ t.1.grad = q.2.1 ∧
       ((t.2 = true ∧ t.1.st = q.1 ∧
          (q.2.1 < c.tol ∨ TimedOut c clock ∨ (c.tucker = true ∧ pp = true ∧ (r.iter : ℤ) = c.maxiter))) ∨
        (t.2 = false ∧ h.accept q.1 = .ok t.1.st ∧ c.tol ≤ q.2.1 ∧
          ¬ (c.tucker = true ∧ pp = true ∧ (r.iter : ℤ) = c.maxiter))))) := by
  unfold ppTest at e
  split at e
  · cases e
  · split at e
    · next hch =>
      cases hq : h.check r.st with
      | error x => rw [hq] at e; cases e
      | ok q =>
        rw [hq] at e
        simp only [bind, Except.bind] at e
        split at e
        · next hs =>
          rw [← Except.ok.inj e]
          refine ⟨rfl, .inr ⟨hch, q, rfl, rfl, .inl ⟨rfl, rfl, ?_⟩⟩⟩
          rcases hs with h1 | h1 | h1
          · exact .inl h1
          · exact .inr (.inl ⟨_, h1⟩)
          · exact .inr (.inr h1)
        · next hs =>
          cases ha : h.accept q.1 with
          | error x => rw [ha] at e; cases e
          | ok a =>
            rw [ha] at e
            rw [← Except.ok.inj e]
            refine ⟨rfl, .inr ⟨hch, q, rfl, rfl, .inr ⟨rfl, ha, ?_, fun h => hs (.inr (.inr h))⟩⟩⟩
            exact not_lt.1 fun h => hs (.inl h)
    · next hch =>
      rw [← Except.ok.inj e]
      exact ⟨rfl, .inl ⟨hch, rfl⟩⟩

/-- The dimension tree phase leaves an exact core. -/
theorem dtSubLoop_exact {c : PPCfg} {h : PPHooks σ} {clock : ℕ → ℝ} {I D Q E : σ → Prop} (hk : HooksOk h I D Q)
    (he : ExactOk h I D Q E) : ∀ (fuel : ℕ) (r r' : PPRun σ), D r.st → ((r.iter : ℤ) ≤ c.maxiter ∨ E r.st) →
    dtSubLoop c h clock fuel r = .ok r' → E r'.st
  | 0, _, _, _, _, e => by cases e
  | fuel + 1, r, r', hD, hi, e => by
    unfold dtSubLoop at e
    split at e
    · next hi' =>
      cases ht : ppTest c h clock false (dtChecked c r.iter) r with
      | error x => rw [ht] at e; cases e
      | ok t =>
        rw [ht] at e
        simp only [bind, Except.bind] at e
        obtain ⟨t1, t2⟩ := ppTest_inv ht
        have hDt : D t.1.st ∧ (t.2 = true → E t.1.st) := by
          rcases t2 with ⟨_, h2⟩ | ⟨_, q, q1, _, ⟨h2, h3, _⟩ | ⟨h2, h3, _⟩⟩
          · rw [h2]; exact ⟨hD, by simp⟩
          · rw [h3]
            exact ⟨(hk.checkD _ hD).of_ok q1, fun _ => (he.checkD _ hD).of_ok q1⟩
          · exact ⟨(hk.acceptD _ ((hk.checkD _ hD).of_ok q1)).of_ok h3, by simp [h2]⟩
        split at e
        · next hs =>
          rw [← Except.ok.inj e]
          exact hDt.2 hs
        · obtain ⟨s, s1, s2⟩ := hk.dtSweep _ hDt.1
          have s3 := (he.dtSweep _ hDt.1).of_ok s1
          obtain ⟨b, b1, -⟩ := hk.dtClose _ s2
          simp only [s1, b1] at e
          split at e
          · rw [← Except.ok.inj e]
            exact s3
          · exact dtSubLoop_exact hk he fuel _ r' s2 (.inr s3) e
    · next hi' =>
      rw [← Except.ok.inj e]
      exact hi.resolve_left hi'

/-- The PP phase of Tucker: it never passes `maxiter`, and it leaves an exact core unless it was left because the factors had
moved too far, the last measured change being at least `tol`. -/
theorem ppSubLoop_exact {c : PPCfg} {h : PPHooks σ} {clock : ℕ → ℝ} {I D Q E : σ → Prop} (hk : HooksOk h I D Q)
    (he : ExactOk h I D Q E) (htk : c.tucker = true) (init : ℕ) : ∀ (fuel : ℕ) (r r' : PPRun σ), init ≤ r.iter →
    (r.iter : ℤ) ≤ c.maxiter → (r.iter = init → I r.st ∧ (c.bench = false → E r.st)) → (r.iter ≠ init → Q r.st ∧ c.tol ≤ r.grad) →
    ppSubLoop c h clock init fuel r = .ok r' →
    (r'.iter : ℤ) ≤ c.maxiter + 1 ∧ (E r'.st ∨ (c.tol ≤ r'.grad ∧ (r'.iter : ℤ) ≤ c.maxiter ∧ c.bench = false))
  | 0, _, _, _, _, _, _, e => by cases e
  | fuel + 1, r, r', h0, hi, hI, hQ, e => by
    unfold ppSubLoop at e
    rw [if_pos hi] at e
    cases hf : (if c.bench = true then .ok false else h.ppFar r.st) with
    | error x => rw [hf] at e; cases e
    | ok far =>
      rw [hf] at e
      simp only [bind, Except.bind, htk] at e
      split at e
      · next hfar =>
        have hb : c.bench = false := by
          by_contra hb
          rw [if_pos (by simpa using hb)] at hf
          rw [← Except.ok.inj hf] at hfar
          simp at hfar
        rw [← Except.ok.inj e]
        refine ⟨by omega, ?_⟩
        by_cases e' : r.iter = init
        · exact .inl ((hI e').2 hb)
        · exact .inr ⟨(hQ e').2, hi, hb⟩
      · cases h1 : ppEnter h init r with
        | error x => rw [h1] at e; cases e
        | ok r1 =>
          rw [h1] at e
          simp only at e
          have h1' : Q r1.st ∧ r1.iter = r.iter ∧ (r.iter ≠ init → c.tol ≤ r1.grad) := by
            unfold ppEnter at h1
            split at h1
            · next ei =>
              obtain ⟨s, s1, s2⟩ := hk.ppBegin _ (hI ei).1
              rw [s1] at h1
              rw [← Except.ok.inj h1]
              exact ⟨s2, rfl, fun h => absurd ei h⟩
            · next ei =>
              rw [← Except.ok.inj h1]
              exact ⟨(hQ ei).1, rfl, fun _ => (hQ ei).2⟩
          cases ht : ppTest c h clock true (ppChecked c init r.iter) r1 with
          | error x => rw [ht] at e; cases e
          | ok t =>
            rw [ht] at e
            simp only at e
            obtain ⟨t1, t2⟩ := ppTest_inv ht
            have hQt : Q t.1.st ∧ (t.2 = true → E t.1.st) ∧ (t.2 = false → c.tol ≤ t.1.grad ∧ (r.iter : ℤ) ≠ c.maxiter) := by
              rcases t2 with ⟨h2, h3⟩ | ⟨_, q, q1, q2, ⟨h2, h3, _⟩ | ⟨h2, h3, h4, h5⟩⟩
              · rw [h3]
                refine ⟨h1'.1, by simp, fun _ => ⟨h1'.2.2 fun ei => h2 (.inr ei), fun hm => h2 (.inl ?_)⟩⟩
                unfold dtChecked
                rw [if_pos htk]
                exact .inr (.inr hm)
              · rw [h3, h2]
                exact ⟨(hk.checkQ _ h1'.1).of_ok q1, fun _ => (he.checkQ _ h1'.1).of_ok q1, by simp⟩
              · refine ⟨(hk.acceptQ _ ((hk.checkQ _ h1'.1).of_ok q1)).of_ok h3, by simp [h2], fun _ => ⟨by rw [q2]; exact h4, ?_⟩⟩
                intro hm
                exact h5 ⟨htk, rfl, by rw [h1'.2.1]; exact hm⟩
            split at e
            · next hs =>
              rw [← Except.ok.inj e, benchInc_st, benchInc_iter, t1, h1'.2.1]
              exact ⟨by split <;> (push_cast; omega), .inl (hQt.2.1 hs)⟩
            · next hs =>
              obtain ⟨s, s1, s2⟩ := hk.ppSweep _ hQt.1
              simp only [s1] at e
              have hs := hQt.2.2 (by simpa using hs)
              refine ppSubLoop_exact hk he htk init fuel ⟨t.1.iter + 1, t.1.grad, t.1.tests, s, t.1.trace ++ [.ppSweep]⟩ r'
                ?_ ?_ (fun h => ?_) (fun _ => ⟨s2, hs.1⟩) e
              · simp only [t1, h1'.2.1]; omega
              · simp only [t1, h1'.2.1]; push_cast; omega
              · simp only [t1, h1'.2.1] at h; omega

/-- `F` (fresh: `W_prev = 0`, small `tol_init`) holds at the start of a dimension tree phase, survives a test, and prevents the
first sweep from being close.  A test repeated after the set-up of a PP phase measures the same. -/
structure FreshOk (h : PPHooks σ) (I D F : σ → Prop) : Prop where
  dtBegin : ∀ s, I s → Succ (h.dtBegin s) F
  check : ∀ s, D s → F s → Succ (h.check s) fun q => F q.1
  accept : ∀ s, D s → F s → Succ (h.accept s) F
  dtSweep : ∀ s, D s → F s → Succ (h.dtSweep s) fun s' => h.dtClose s' = .ok false

/-- A test repeated after the set-up of a PP phase measures the same. -/
def Stable (h : PPHooks σ) (D : σ → Prop) : Prop := ∀ s q s' q', D s → h.check s = .ok q → h.ppBegin q.1 = .ok s' →
  h.check s' = .ok q' → q'.2.1 = q.2.1

theorem dtSubLoop_mono {c : PPCfg} {h : PPHooks σ} {clock : ℕ → ℝ} : ∀ (fuel : ℕ) (r r' : PPRun σ),
    dtSubLoop c h clock fuel r = .ok r' → r.iter ≤ r'.iter
  | 0, _, _, e => by cases e
  | fuel + 1, r, r', e => by
    unfold dtSubLoop at e
    split at e
    · cases ht : ppTest c h clock false (dtChecked c r.iter) r with
      | error x => rw [ht] at e; cases e
      | ok t =>
        rw [ht] at e
        have t1 := (ppTest_inv ht).1
        simp only [bind, Except.bind] at e
        split at e
        · rw [← Except.ok.inj e, t1]
        · cases hs : h.dtSweep t.1.st with
          | error x => rw [hs] at e; cases e
          | ok s =>
            rw [hs] at e
            simp only at e
            cases hc : h.dtClose s with
            | error x => rw [hc] at e; cases e
            | ok b =>
              rw [hc] at e
              simp only at e
              split at e
              · rw [← Except.ok.inj e]; simp only [t1]; exact le_rfl
              · have := dtSubLoop_mono fuel _ r' e
                simp only [t1] at this
                omega
    · rw [← Except.ok.inj e]

/-- From a fresh state the dimension tree phase advances, unless its first test stops it. -/
theorem dtSubLoop_fresh {c : PPCfg} {h : PPHooks σ} {clock : ℕ → ℝ} {I D Q F : σ → Prop} (hk : HooksOk h I D Q)
    (hf : FreshOk h I D F) (fuel : ℕ) (r r' : PPRun σ) (hD : D r.st) (hF : F r.st) (hi : (r.iter : ℤ) ≤ c.maxiter)
    (e : dtSubLoop c h clock fuel r = .ok r') : r.iter < r'.iter ∨ TimedOut c clock ∨
      (r'.iter = r.iter ∧ ∃ s q, D s ∧ h.check s = .ok q ∧ r'.st = q.1 ∧ r'.grad = q.2.1 ∧ q.2.1 < c.tol) := by
  cases fuel with
  | zero => cases e
  | succ fuel =>
    unfold dtSubLoop at e
    rw [if_pos hi] at e
    cases ht : ppTest c h clock false (dtChecked c r.iter) r with
    | error x => rw [ht] at e; cases e
    | ok t =>
      rw [ht] at e
      simp only [bind, Except.bind] at e
      obtain ⟨t1, t2⟩ := ppTest_inv ht
      split at e
      · next hs =>
        rw [← Except.ok.inj e]
        rcases t2 with ⟨_, h2⟩ | ⟨_, q, q1, q2, ⟨h2, h3, h4⟩ | ⟨h2, h3, _⟩⟩
        · rw [h2] at hs; simp at hs
        · rcases h4 with h4 | h4 | h4
          · exact .inr (.inr ⟨t1, r.st, q, hD, q1, h3, q2, h4⟩)
          · exact .inr (.inl h4)
          · exact absurd h4.2.1 (by simp)
        · rw [h2] at hs; simp at hs
      · next hs =>
        have hDF : D t.1.st ∧ F t.1.st := by
          rcases t2 with ⟨_, h2⟩ | ⟨_, q, q1, q2, ⟨h2, h3, h4⟩ | ⟨h2, h3, _⟩⟩
          · rw [h2]; exact ⟨hD, hF⟩
          · exact absurd h2 hs
          · have d := (hk.checkD _ hD).of_ok q1
            have f := (hf.check _ hD hF).of_ok q1
            exact ⟨(hk.acceptD _ d).of_ok h3, (hf.accept _ d f).of_ok h3⟩
        obtain ⟨s, s1, s2⟩ := hf.dtSweep _ hDF.1 hDF.2
        simp only [s1, s2, Bool.false_eq_true, if_false] at e
        have := dtSubLoop_mono fuel _ r' e
        simp only [t1] at this
        exact .inl (by omega)

/-- A round of `alsTucker_PP` that starts fresh ends the loop or advances `iter`. -/
theorem round_adv {c : PPCfg} {h : PPHooks σ} {clock : ℕ → ℝ} {I D Q F : σ → Prop} (hk : HooksOk h I D Q)
    (hf : FreshOk h I D F) (hst : Stable h D) (htk : c.tucker = true) (hb : c.bench = false) (hclk : ¬ TimedOut c clock)
    {sub : ℕ} {r r1 r2 : PPRun σ} (hI : I r.st) (hi : (r.iter : ℤ) ≤ c.maxiter) (e1 : dtSub c h clock sub r = .ok r1)
    (e2 : ppSubLoop c h clock r1.iter sub r1 = .ok r2) (h12 : r1.iter ≤ r2.iter) : r2.grad < c.tol ∨ r.iter < r2.iter := by
  unfold dtSub at e1
  obtain ⟨s, s1, s2⟩ := hk.dtBegin _ hI
  have s3 := (hf.dtBegin _ hI).of_ok s1
  rw [s1] at e1
  simp only [bind, Except.bind] at e1
  rcases dtSubLoop_fresh hk hf sub ⟨r.iter, r.grad, r.tests, s, r.trace ++ [.dtStart]⟩ r1 s2 s3 hi e1 with h1 | h1 | ⟨h1, u, q, hu, q1, q2, q3, q4⟩
  · simp only at h1
    exact .inr (by omega)
  · exact absurd h1 hclk
  · left
    simp only at h1
    cases sub with
    | zero => cases e2
    | succ sub =>
      unfold ppSubLoop at e2
      rw [if_pos (by rw [h1]; exact hi)] at e2
      simp only [hb, Bool.false_eq_true, if_false] at e2
      cases hf : h.ppFar r1.st with
      | error x => rw [hf] at e2; cases e2
      | ok far =>
        rw [hf] at e2
        simp only [bind, Except.bind, htk] at e2
        split at e2
        · rw [← Except.ok.inj e2, q3]; exact q4
        · simp only [ppEnter, if_true] at e2
          cases hpb : h.ppBegin r1.st with
          | error x => rw [hpb] at e2; cases e2
          | ok s' =>
            rw [hpb] at e2
            simp only [bind, Except.bind, pure, Except.pure] at e2
            cases ht : ppTest c h clock true (ppChecked c r1.iter r1.iter)
              { r1 with st := s', trace := r1.trace ++ [.ppStart] } with
            | error x => rw [ht] at e2; cases e2
            | ok t =>
              rw [ht] at e2
              simp only at e2
              obtain ⟨t1, t2⟩ := ppTest_inv ht
              rcases t2 with ⟨h2, _⟩ | ⟨_, q', p1, p2, h3⟩
              · exact absurd (.inr rfl) h2
              · have hq := hst u q s' q' hu q1 (by rw [← q2]; exact hpb) p1
                rcases h3 with ⟨h2, h3, _⟩ | ⟨_, _, h4, _⟩
                · rw [if_pos h2] at e2
                  rw [← Except.ok.inj e2, benchInc_grad, p2, hq]
                  exact q4
                · rw [hq] at h4
                  exact absurd q4 (not_lt.2 h4)

/-- Termination of `alsTucker_PP` without timeout.  `I m`: at most `m` more rounds until rounds start fresh. -/
theorem ppDriverLoop_okT {c : PPCfg} {h : PPHooks σ} {clock : ℕ → ℝ} {I D Q : ℕ → σ → Prop} {F : σ → Prop}
    (hk : ∀ m, HooksOk h (I m) (D m) (Q m)) (hdec : ∀ m s, I (m + 1) s → I m (h.endRound s))
    (hf : FreshOk h (I 0) (D 0) F) (hst : Stable h (D 0))
    (hr : c.resprint ≠ 0) (hclose : ∀ m s, D m s → h.dtClose s = .ok true → h.ppFar s = .ok false)
    (htk : c.tucker = true) (hclk : ¬ TimedOut c clock) {sub : ℕ} : ∀ (fuel m : ℕ) (r : PPRun σ), I m r.st →
    (c.maxiter + 1 - r.iter).toNat < sub → (c.maxiter + 1 - r.iter).toNat + 1 + m < fuel →
    ∃ r', ppDriverLoop c h clock sub fuel r = .ok r' ∧ ¬ (c.tol < r'.grad ∧ (r'.iter : ℤ) ≤ c.maxiter) ∧ ∃ m', I m' r'.st
  | 0, _, _, _, _, hfu => by omega
  | fuel + 1, m, r, hI, hs, hfu => by
    unfold ppDriverLoop
    split
    · next hgo =>
      obtain ⟨r1, r2, a1, a2, a3, a4, a5, a6, a7, a8⟩ := round_ok (hk m) hr (hclose m) hI hgo.2 hs (clock := clock)
      rw [a1]
      simp only [bind, Except.bind, a2]
      by_cases hg : r2.grad < c.tol
      · obtain ⟨fuel, rfl⟩ : ∃ f, fuel = f + 1 := ⟨fuel - 1, by omega⟩
        unfold ppDriverLoop
        rw [if_neg (by simp only [not_and]; intro h; linarith)]
        exact ⟨_, rfl, by simp only [not_and]; intro h; linarith, m, (hk m).endRound _ a3⟩
      · by_cases hadv : r.iter < r2.iter
        · exact ppDriverLoop_okT hk hdec hf hst hr hclose htk hclk fuel m _ ((hk m).endRound _ a3) (by simp only; omega)
            (by simp only; omega)
        · cases m with
          | zero =>
            exfalso
            by_cases hb : c.bench = true
            · rcases a7 with h1 | h1 | h1 | h1 | h1
              · exact hg h1
              · exact hclk h1
              · exact hadv h1
              · have := h1.2
                rw [if_pos hb] at this
                omega
              · omega
            · rw [if_neg hb] at a1
              have h12 : r1.iter ≤ r2.iter := by
                have hD0 : I 0 r1.st ∧ r.iter ≤ r1.iter ∧ ((r1.iter : ℤ) ≤ c.maxiter + 1 ∨ r1.iter = r.iter) := by
                  have a1' := a1
                  unfold dtSub at a1'
                  obtain ⟨s, s1, s2⟩ := (hk 0).dtBegin _ hI
                  rw [s1] at a1'
                  obtain ⟨r', x1, x2, x3, x4, _⟩ := dtSubLoop_ok (hk 0) hr sub ⟨r.iter, r.grad, r.tests, s, r.trace ++ [.dtStart]⟩
                    s2 hs (clock := clock)
                  simp only [bind, Except.bind, x1] at a1'
                  rw [← Except.ok.inj a1']
                  exact ⟨(hk 0).DI _ x2, x3, x4⟩
                obtain ⟨r'', x1, _, x3, _⟩ := ppSubLoop_ok (hk 0) hr r1.iter sub r1 le_rfl (fun _ => hD0.1) (fun h => absurd rfl h)
                  (by omega) (clock := clock)
                rw [x1] at a2
                rw [← Except.ok.inj a2]
                exact x3
              rcases round_adv (hk 0) hf hst htk (by simpa using hb) hclk hI hgo.2 a1 a2 h12 with h1 | h1
              · exact hg h1
              · exact hadv h1
          | succ m =>
            exact ppDriverLoop_okT hk hdec hf hst hr hclose htk hclk fuel m _ (hdec m _ a3) (by simp only; omega)
              (by simp only; omega)
    · next hgo => exact ⟨r, rfl, hgo, m, hI⟩

/-- What holds whenever `alsTucker_PP` returns, whatever the clock. -/
theorem ppDriverLoop_exitT {c : PPCfg} {h : PPHooks σ} {clock : ℕ → ℝ} {I D Q E : σ → Prop} (hk : HooksOk h I D Q)
    (he : ExactOk h I D Q E) (hr : c.resprint ≠ 0) (hclose : ∀ s, D s → h.dtClose s = .ok true → h.ppFar s = .ok false)
    (htk : c.tucker = true) {sub : ℕ} : ∀ (fuel : ℕ) (r r' : PPRun σ), I r.st →
    (r.iter : ℤ) ≤ c.maxiter + 1 → ((c.tol < r.grad ∧ (r.iter : ℤ) ≤ c.maxiter) ∨ E r.st ∨ (r.grad = c.tol ∧ c.bench = false)) →
    (c.maxiter + 1 - r.iter).toNat < sub → ppDriverLoop c h clock sub fuel r = .ok r' →
    I r'.st ∧ ¬ (c.tol < r'.grad ∧ (r'.iter : ℤ) ≤ c.maxiter) ∧ (r'.iter : ℤ) ≤ c.maxiter + 1 ∧
      (E r'.st ∨ (r'.grad = c.tol ∧ c.bench = false))
  | 0, _, _, _, _, _, _, e => by cases e
  | fuel + 1, r, r', hI, hi, hE, hs, e => by
    unfold ppDriverLoop at e
    split at e
    · next hgo =>
      obtain ⟨r1, r2, a1, a2, a3, a4, a5, a6, a7, a8⟩ := round_ok hk hr hclose hI hgo.2 hs (clock := clock)
      rw [a1] at e
      simp only [bind, Except.bind, a2] at e
      have h1 : I r1.st ∧ ((r1.iter : ℤ) ≤ c.maxiter ∨ (r1.iter : ℤ) = c.maxiter + 1) ∧ (c.bench = false → E r1.st) ∧
          (c.bench = true → r1 = r) := by
        by_cases hb : c.bench = true
        · rw [if_pos hb] at a1
          rw [← Except.ok.inj a1]
          exact ⟨hI, .inl hgo.2, by simp [hb], fun _ => rfl⟩
        · rw [if_neg hb] at a1
          unfold dtSub at a1
          obtain ⟨s, s1, s2⟩ := hk.dtBegin _ hI
          rw [s1] at a1
          obtain ⟨r0, x1, x2, x3, x4, _⟩ := dtSubLoop_ok hk hr sub ⟨r.iter, r.grad, r.tests, s, r.trace ++ [.dtStart]⟩
            s2 hs (clock := clock)
          simp only [bind, Except.bind] at a1
          have hEx := dtSubLoop_exact hk he sub ⟨r.iter, r.grad, r.tests, s, r.trace ++ [.dtStart]⟩ r1 s2 (.inl hgo.2) a1
          rw [x1] at a1
          rw [← Except.ok.inj a1] at hEx ⊢
          simp only at x3 x4
          exact ⟨hk.DI _ x2, by omega, fun _ => hEx, fun h => absurd h hb⟩
      have h2 : (r2.iter : ℤ) ≤ c.maxiter + 1 ∧
          (E r2.st ∨ (c.tol ≤ r2.grad ∧ (r2.iter : ℤ) ≤ c.maxiter ∧ c.bench = false)) := by
        rcases h1.2.1 with hi1 | hi1
        · exact ppSubLoop_exact hk he htk r1.iter sub r1 r2 le_rfl hi1 (fun _ => ⟨h1.1, h1.2.2.1⟩) (fun h => absurd rfl h) a2
        · have hb : c.bench = false := by
            by_contra hb
            have := h1.2.2.2 (by simpa using hb)
            rw [this] at hi1
            omega
          cases sub with
          | zero => cases a2
          | succ sub =>
            unfold ppSubLoop at a2
            rw [if_neg (by omega)] at a2
            rw [← Except.ok.inj a2, benchInc_st, benchInc_iter, hb]
            simp only [Bool.false_eq_true, if_false]
            exact ⟨by omega, .inl (h1.2.2.1 hb)⟩
      refine ppDriverLoop_exitT hk he hr hclose htk fuel { r2 with st := h.endRound r2.st } r' (hk.endRound _ a3) h2.1 ?_
        (by simp only; omega) e
      rcases h2.2 with h3 | ⟨h3, h4, h5⟩
      · exact .inr (.inl (he.endRound _ h3))
      · rcases lt_or_eq_of_le h3 with h6 | h6
        · exact .inl ⟨h6, h4⟩
        · exact .inr (.inr ⟨h6.symm, h5⟩)
    · next hgo =>
      rw [← Except.ok.inj e]
      refine ⟨hI, hgo, hi, ?_⟩
      rcases hE with h1 | h1 | h1
      · exact absurd h1 hgo
      · exact .inl h1
      · exact .inr h1

end Model
