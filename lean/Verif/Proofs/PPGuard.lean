import Verif.Proofs.PPDriverT

/-! # Instrumented PP drivers: a sweep with the PP operators is only made in states satisfying a condition -/

namespace Model

variable {σ : Type}

open Classical in
/-- The same computations, except that a PP sweep started in a state not satisfying `P` aborts. -/
noncomputable def PPHooks.guardSweep (h : PPHooks σ) (P : σ → Prop) : PPHooks σ :=
  { h with ppSweep := fun s => if P s then h.ppSweep s else .error .abort }

/-- If it succeeds, the result satisfies `P`. -/
def IfOk {α : Type} (e : Except Fault α) (P : α → Prop) : Prop := ∀ a, e = .ok a → P a

theorem Succ.ifOk {α : Type} {e : Except Fault α} {P : α → Prop} (h : Succ e P) : IfOk e P := fun _ ha => h.of_ok ha

/-- The computations keep the invariants whenever they succeed. -/
structure HooksKeep (h : PPHooks σ) (I D Q : σ → Prop) : Prop where
  DI : ∀ s, D s → I s
  QI : ∀ s, Q s → I s
  dtBegin : ∀ s, I s → IfOk (h.dtBegin s) D
  dtSweep : ∀ s, D s → IfOk (h.dtSweep s) D
  ppBegin : ∀ s, I s → IfOk (h.ppBegin s) Q
  ppSweep : ∀ s, Q s → IfOk (h.ppSweep s) Q
  checkD : ∀ s, D s → IfOk (h.check s) fun q => D q.1
  checkQ : ∀ s, Q s → IfOk (h.check s) fun q => Q q.1
  acceptD : ∀ s, D s → IfOk (h.accept s) D
  acceptQ : ∀ s, Q s → IfOk (h.accept s) Q
  endRound : ∀ s, I s → I (h.endRound s)

theorem HooksOk.keep {h : PPHooks σ} {I D Q : σ → Prop} (k : HooksOk h I D Q) : HooksKeep h I D Q where
  DI := k.DI
  QI := k.QI
  dtBegin s hs := (k.dtBegin s hs).ifOk
  dtSweep s hs := (k.dtSweep s hs).ifOk
  ppBegin s hs := (k.ppBegin s hs).ifOk
  ppSweep s hs := (k.ppSweep s hs).ifOk
  checkD s hs := (k.checkD s hs).ifOk
  checkQ s hs := (k.checkQ s hs).ifOk
  acceptD s hs := (k.acceptD s hs).ifOk
  acceptQ s hs := (k.acceptQ s hs).ifOk
  endRound := k.endRound

/-- `ppFar` is not affected by tests, and is false after the set-up of the operators. -/
structure FarOk (h : PPHooks σ) (I Q : σ → Prop) : Prop where
  check : ∀ s, Q s → h.ppFar s = .ok false → IfOk (h.check s) fun q => h.ppFar q.1 = .ok false
  accept : ∀ s, Q s → h.ppFar s = .ok false → IfOk (h.accept s) fun s' => h.ppFar s' = .ok false
  ppBegin : ∀ s, I s → IfOk (h.ppBegin s) fun s' => h.ppFar s' = .ok false

theorem dtSubLoop_guard {c : PPCfg} {h : PPHooks σ} {clock : ℕ → ℝ} {P : σ → Prop} : ∀ (fuel : ℕ) (r : PPRun σ),
    dtSubLoop c (h.guardSweep P) clock fuel r = dtSubLoop c h clock fuel r
  | 0, _ => rfl
  | fuel + 1, r => by
    unfold dtSubLoop
    have ht : ppTest c (h.guardSweep P) clock false (dtChecked c r.iter) r = ppTest c h clock false (dtChecked c r.iter) r := rfl
    rw [ht]
    simp only [dtSubLoop_guard fuel]
    rfl

theorem dtSub_guard {c : PPCfg} {h : PPHooks σ} {clock : ℕ → ℝ} {P : σ → Prop} (fuel : ℕ) (r : PPRun σ) :
    dtSub c (h.guardSweep P) clock fuel r = dtSub c h clock fuel r := by
  unfold dtSub
  simp only [dtSubLoop_guard]
  rfl

theorem ppTest_keep {c : PPCfg} {h : PPHooks σ} {clock : ℕ → ℝ} {pp : Bool} {checked : Prop} {Q : σ → Prop} {r : PPRun σ}
    {t : PPRun σ × Bool} (hc : ∀ s, Q s → IfOk (h.check s) fun q => Q q.1) (ha : ∀ s, Q s → IfOk (h.accept s) Q) (hQ : Q r.st)
    (e : ppTest c h clock pp checked r = .ok t) : Q t.1.st := by
  obtain ⟨-, t2⟩ := ppTest_inv e
  rcases t2 with ⟨_, h3⟩ | ⟨_, q, q1, q2, ⟨_, h3, _⟩ | ⟨_, h3, _⟩⟩
  · rw [h3]; exact hQ
  · rw [h3]; exact hc _ hQ _ q1
  · exact ha _ (hc _ hQ _ q1) _ h3

theorem dtSubLoop_keep {c : PPCfg} {h : PPHooks σ} {clock : ℕ → ℝ} {I D Q : σ → Prop} (hk : HooksKeep h I D Q) :
    ∀ (fuel : ℕ) (r : PPRun σ), D r.st → IfOk (dtSubLoop c h clock fuel r) fun r' => D r'.st
  | 0, _, _ => fun _ e => by cases e
  | fuel + 1, r, hD => by
    intro r' e
    unfold dtSubLoop at e
    split at e
    · cases ht : ppTest c h clock false (dtChecked c r.iter) r with
      | error x => rw [ht] at e; cases e
      | ok t =>
        have hDt := ppTest_keep hk.checkD hk.acceptD hD ht
        rw [ht] at e
        simp only [bind, Except.bind] at e
        split at e
        · rw [← Except.ok.inj e]; exact hDt
        · cases hs : h.dtSweep t.1.st with
          | error x => rw [hs] at e; cases e
          | ok s =>
            have hDs := hk.dtSweep _ hDt _ hs
            rw [hs] at e
            simp only at e
            cases hcl : h.dtClose s with
            | error x => rw [hcl] at e; cases e
            | ok b =>
              rw [hcl] at e
              simp only at e
              split at e
              · rw [← Except.ok.inj e]; exact hDs
              · exact dtSubLoop_keep hk fuel _ hDs _ e
    · rw [← Except.ok.inj e]; exact hD

theorem ppSubLoop_keep {c : PPCfg} {h : PPHooks σ} {clock : ℕ → ℝ} {I D Q : σ → Prop} (hk : HooksKeep h I D Q) (init : ℕ) :
    ∀ (fuel : ℕ) (r : PPRun σ), init ≤ r.iter → (r.iter = init → I r.st) → (r.iter ≠ init → Q r.st) →
    IfOk (ppSubLoop c h clock init fuel r) fun r' => I r'.st
  | 0, _, _, _, _ => fun _ e => by cases e
  | fuel + 1, r, h0, hI, hQ => by
    have hI' : I r.st := by
      by_cases e : r.iter = init
      · exact hI e
      · exact hk.QI _ (hQ e)
    intro r' e
    unfold ppSubLoop at e
    split at e
    · cases hfar : (if c.bench = true then (.ok false : Except Fault Bool) else h.ppFar r.st) with
      | error x => rw [hfar] at e; cases e
      | ok far =>
        rw [hfar] at e
        simp only [bind, Except.bind] at e
        split at e
        · rw [← Except.ok.inj e]; exact hI'
        · cases he : ppEnter h init r with
          | error x => rw [he] at e; cases e
          | ok r1 =>
            rw [he] at e
            simp only at e
            have hr1 : Q r1.st ∧ r1.iter = r.iter := by
              unfold ppEnter at he
              by_cases ei : r.iter = init
              · rw [if_pos ei] at he
                cases hb : h.ppBegin r.st with
                | error x => rw [hb] at he; cases he
                | ok s =>
                  rw [hb] at he
                  rw [← Except.ok.inj he]
                  exact ⟨hk.ppBegin _ (hI ei) _ hb, rfl⟩
              · rw [if_neg ei] at he
                rw [← Except.ok.inj he]
                exact ⟨hQ ei, rfl⟩
            cases ht : ppTest c h clock true (ppChecked c init r.iter) r1 with
            | error x => rw [ht] at e; cases e
            | ok t =>
              rw [ht] at e
              simp only at e
              have hQt := ppTest_keep hk.checkQ hk.acceptQ hr1.1 ht
              have hti := (ppTest_inv ht).1
              split at e
              · rw [← Except.ok.inj e, benchInc_st]; exact hk.QI _ hQt
              · cases hs : h.ppSweep t.1.st with
                | error x => rw [hs] at e; cases e
                | ok s =>
                  rw [hs] at e
                  simp only at e
                  refine ppSubLoop_keep hk init fuel _ ?_ (fun h => ?_) (fun _ => hk.ppSweep _ hQt _ hs) _ e
                  · simp only [hti, hr1.2]; omega
                  · simp only [hti, hr1.2] at h; omega
    · rw [← Except.ok.inj e, benchInc_st]; exact hI'

theorem ppSubLoop_guard {c : PPCfg} {h : PPHooks σ} {clock : ℕ → ℝ} {I D Q : σ → Prop} (hk : HooksKeep h I D Q)
    (hf : FarOk h I Q) (hb : c.bench = false) {P : σ → Prop} (hP : ∀ s, Q s → h.ppFar s = .ok false → P s) (init : ℕ) :
    ∀ (fuel : ℕ) (r : PPRun σ), init ≤ r.iter → (r.iter = init → I r.st) → (r.iter ≠ init → Q r.st) →
    ppSubLoop c (h.guardSweep P) clock init fuel r = ppSubLoop c h clock init fuel r
  | 0, _, _, _, _ => rfl
  | fuel + 1, r, h0, hI, hQ => by
    unfold ppSubLoop
    by_cases hi : (r.iter : ℤ) ≤ c.maxiter
    · rw [if_pos hi, if_pos hi]
      simp only [hb, Bool.false_eq_true, if_false]
      have hff : (h.guardSweep P).ppFar r.st = h.ppFar r.st := rfl
      rw [hff]
      cases hfar : h.ppFar r.st with
      | error x => rfl
      | ok far =>
        simp only [bind, Except.bind]
        split
        · rfl
        · next hret =>
          have hffalse : h.ppFar r.st = .ok false := by
            rw [hfar]
            cases far
            · rfl
            · simp at hret
          have he : ppEnter (h.guardSweep P) init r = ppEnter h init r := rfl
          rw [he]
          cases he' : ppEnter h init r with
          | error x => rfl
          | ok r1 =>
            simp only
            have hr1 : Q r1.st ∧ r1.iter = r.iter ∧ h.ppFar r1.st = .ok false := by
              unfold ppEnter at he'
              by_cases ei : r.iter = init
              · rw [if_pos ei] at he'
                cases hb : h.ppBegin r.st with
                | error x => rw [hb] at he'; cases he'
                | ok s =>
                  rw [hb] at he'
                  rw [← Except.ok.inj he']
                  exact ⟨hk.ppBegin _ (hI ei) _ hb, rfl, hf.ppBegin _ (hI ei) _ hb⟩
              · rw [if_neg ei] at he'
                rw [← Except.ok.inj he']
                exact ⟨hQ ei, rfl, hffalse⟩
            obtain ⟨e2, e3, e4⟩ := hr1
            have ht : ppTest c (h.guardSweep P) clock true (ppChecked c init r.iter) r1 =
              ppTest c h clock true (ppChecked c init r.iter) r1 := rfl
            rw [ht]
            cases ht' : ppTest c h clock true (ppChecked c init r.iter) r1 with
            | error x => rfl
            | ok t =>
              simp only
              obtain ⟨t1, t2⟩ := ppTest_inv ht'
              split
              · rfl
              · next hs =>
                have hQt : Q t.1.st ∧ h.ppFar t.1.st = .ok false := by
                  rcases t2 with ⟨_, h3⟩ | ⟨_, q, q1, q2, ⟨h2, _⟩ | ⟨_, h3, _⟩⟩
                  · rw [h3]; exact ⟨e2, e4⟩
                  · exact absurd h2 hs
                  · have hq := hk.checkQ _ e2 _ q1
                    exact ⟨hk.acceptQ _ hq _ h3, hf.accept _ hq (hf.check _ e2 e4 _ q1) _ h3⟩
                have hg : (h.guardSweep P).ppSweep t.1.st = h.ppSweep t.1.st := if_pos (hP _ hQt.1 hQt.2)
                rw [hg]
                cases hsw : h.ppSweep t.1.st with
                | error x => rfl
                | ok s =>
                  simp only
                  refine ppSubLoop_guard hk hf hb hP init fuel _ ?_ (fun h => ?_) (fun _ => hk.ppSweep _ hQt.1 _ hsw)
                  · simp only [t1, e3]; omega
                  · simp only [t1, e3] at h; omega
    · rw [if_neg hi, if_neg hi]

theorem ppDriverLoop_guard {c : PPCfg} {h : PPHooks σ} {clock : ℕ → ℝ} {I D Q : σ → Prop} (hk : HooksKeep h I D Q)
    (hf : FarOk h I Q) (hb : c.bench = false) {P : σ → Prop} (hP : ∀ s, Q s → h.ppFar s = .ok false → P s) {sub : ℕ} :
    ∀ (fuel : ℕ) (r : PPRun σ), I r.st →
    ppDriverLoop c (h.guardSweep P) clock sub fuel r = ppDriverLoop c h clock sub fuel r
  | 0, _, _ => rfl
  | fuel + 1, r, hI => by
    unfold ppDriverLoop
    by_cases hgo : c.tol < r.grad ∧ (r.iter : ℤ) ≤ c.maxiter
    · rw [if_pos hgo, if_pos hgo]
      simp only [dtSub_guard, hb, Bool.false_eq_true, if_false]
      cases hd : dtSub c h clock sub r with
      | error x => rfl
      | ok r1 =>
        simp only [bind, Except.bind]
        have hI1 : I r1.st := by
          unfold dtSub at hd
          cases hb : h.dtBegin r.st with
          | error x => rw [hb] at hd; cases hd
          | ok s =>
            rw [hb] at hd
            exact hk.DI _ (dtSubLoop_keep hk sub _ (hk.dtBegin _ hI _ hb) _ hd)
        rw [ppSubLoop_guard hk hf hb hP r1.iter sub r1 le_rfl (fun _ => hI1) (fun h => absurd rfl h)]
        cases hp : ppSubLoop c h clock r1.iter sub r1 with
        | error x => rfl
        | ok r2 =>
          simp only
          exact ppDriverLoop_guard hk hf hb hP fuel _
            (hk.endRound _ (ppSubLoop_keep hk r1.iter sub r1 le_rfl (fun _ => hI1) (fun h => absurd rfl h) _ hp))
    · rw [if_neg hgo, if_neg hgo]

/-- The driver does the same with guarded sweeps: no sweep is ever made outside `P`. -/
theorem ppDriver_guard {c : PPCfg} {h : PPHooks σ} {clock : ℕ → ℝ} {I D Q : σ → Prop} (hk : HooksKeep h I D Q)
    (hf : FarOk h I Q) (hb : c.bench = false) {P : σ → Prop} (hP : ∀ s, Q s → h.ppFar s = .ok false → P s) {fuel : ℕ}
    {st : σ} (hI : I st) :
    ppDriver c (h.guardSweep P) clock fuel st = ppDriver c h clock fuel st := by
  unfold ppDriver
  rw [ppDriverLoop_guard hk hf hb hP fuel _ hI]

end Model
