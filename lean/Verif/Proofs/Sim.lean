import Verif.Model.PPDriver
import Verif.Model.LegacyLoop

/-! # Two executions of a driver on related data

If the computations of two drivers preserve a relation between their data and measure the same values, the drivers do the same. -/

namespace Model

section Alike

variable {α β γ δ : Type}

/-- Both computations succeed with related results, or both fail in the same way. -/
def Alike (r : α → β → Prop) : Except Fault α → Except Fault β → Prop
  | .ok a, .ok b => r a b
  | .error e, .error e' => e' = e
  | _, _ => False

theorem Alike.ok {r : α → β → Prop} {a : α} {b : β} (h : r a b) : Alike r (.ok a) (.ok b) := h

theorem Alike.bind {r : α → β → Prop} {s : γ → δ → Prop} {x : Except Fault α} {y : Except Fault β} {f : α → Except Fault γ}
    {g : β → Except Fault δ} (h : Alike r x y) (hf : ∀ a b, r a b → Alike s (f a) (g b)) : Alike s (x >>= f) (y >>= g) := by
  cases x <;> cases y
  · exact h
  · exact h.elim
  · exact h.elim
  · exact hf _ _ h

theorem Alike.mono {r s : α → β → Prop} (hrs : ∀ a b, r a b → s a b) {x : Except Fault α} {y : Except Fault β} (h : Alike r x y) :
    Alike s x y := by
  cases x <;> cases y
  · exact h
  · exact h.elim
  · exact h.elim
  · exact hrs _ _ h

theorem Alike.foldlM {ι : Type} {r : α → β → Prop} {f : α → ι → Except Fault α} {g : β → ι → Except Fault β} (l : List ι)
    (h : ∀ i ∈ l, ∀ a b, r a b → Alike r (f a i) (g b i)) {a : α} {b : β} (hab : r a b) : Alike r (l.foldlM f a) (l.foldlM g b) := by
  induction l generalizing a b with
  | nil => exact hab
  | cons i l ih =>
    rw [List.foldlM_cons, List.foldlM_cons]
    exact (h i (by simp) a b hab).bind fun a b hab => ih (fun i hi => h i (by simp [hi])) hab

/-- A computation that succeeds, with a related one. -/
theorem Alike.of_ok {r : α → β → Prop} {x : Except Fault α} {y : Except Fault β} (h : Alike r x y) {a : α} (hx : x = .ok a) :
    ∃ b, y = .ok b ∧ r a b := by
  subst hx
  cases y
  · exact h.elim
  · exact ⟨_, rfl, h⟩

end Alike

variable {σ τ : Type}

/-! ## The loops of `alsCP`, `alsCP_DT`, `alsTucker`, `alsTucker_DT` -/

/-- The computations of two drivers preserve `Rel` and measure the same values. -/
structure LLSim (Rel : σ → τ → Prop) (h : LLHooks σ) (h' : LLHooks τ) : Prop where
  checked : ∀ i, h'.checked i ↔ h.checked i
  check : ∀ s t, Rel s t → Alike (fun p q => Rel p.1 q.1 ∧ q.2 = p.2) (h.check s) (h'.check t)
  accept : ∀ s t, Rel s t → Alike Rel (h.accept s) (h'.accept t)
  sweep : ∀ s t, Rel s t → Alike Rel (h.sweep s) (h'.sweep t)

/-- What two related executions have in common. -/
def LLSame (Rel : σ → τ → Prop) (r : LLEnd σ) (r' : LLEnd τ) : Prop :=
  Rel r.st r'.st ∧ r'.iter = r.iter ∧ r'.rows = r.rows ∧ r'.broke = r.broke ∧ r'.ret = r.ret

theorem llLoop_sim {Rel : σ → τ → Prop} {h : LLHooks σ} {h' : LLHooks τ} (H : LLSim Rel h h') (a : LLArgs) (clock : ℕ → ℝ) :
    ∀ (fuel iter : ℕ) (s : σ) (t : τ) (rows : List (ℕ × ℝ × ℝ)), Rel s t →
      Alike (LLSame Rel) (llLoop a h clock fuel iter s rows) (llLoop a h' clock fuel iter t rows) := by
  intro fuel
  induction fuel with
  | zero => intro iter s t rows _; rfl
  | succ fuel ih =>
    intro iter s t rows hst
    unfold llLoop
    by_cases h1 : (iter : ℤ) ≤ a.maxiter
    · rw [if_pos h1, if_pos h1]
      by_cases h2 : a.resprint = 0
      · rw [if_pos h2, if_pos h2]; rfl
      rw [if_neg h2, if_neg h2]
      by_cases h3 : h.checked iter
      · rw [if_pos h3, if_pos ((H.checked iter).2 h3)]
        refine (H.check s t hst).bind ?_
        rintro ⟨s1, c⟩ ⟨t1, c'⟩ ⟨h4, h5⟩
        simp only at h4 h5
        subst h5
        simp only
        by_cases h6 : c'.1 < a.tol ∨ a.timelimit < clock iter
        · rw [if_pos h6, if_pos h6]
          exact ⟨h4, rfl, rfl, rfl, rfl⟩
        · rw [if_neg h6, if_neg h6]
          refine (H.accept s1 t1 h4).bind fun s2 t2 h7 => ?_
          exact (H.sweep s2 t2 h7).bind fun s3 t3 h8 => ih _ _ _ _ h8
      · rw [if_neg h3, if_neg (fun h => h3 ((H.checked iter).1 h))]
        exact (H.sweep s t hst).bind fun s3 t3 h8 => ih _ _ _ _ h8
    · rw [if_neg h1, if_neg h1]
      exact ⟨hst, rfl, rfl, rfl, rfl⟩

/-! ## The pairwise perturbation drivers -/

/-- The computations of two PP drivers preserve the relations `I` between phases, `D` in a dimension tree phase and `Q` in a PP
phase, and measure the same values. -/
structure PPSim (I D Q : σ → τ → Prop) (h : PPHooks σ) (h' : PPHooks τ) : Prop where
  DI : ∀ s t, D s t → I s t
  QI : ∀ s t, Q s t → I s t
  dtBegin : ∀ s t, I s t → Alike D (h.dtBegin s) (h'.dtBegin t)
  dtSweep : ∀ s t, D s t → Alike D (h.dtSweep s) (h'.dtSweep t)
  dtClose : ∀ s t, D s t → Alike (fun a b => b = a) (h.dtClose s) (h'.dtClose t)
  ppFar : ∀ s t, I s t → Alike (fun a b => b = a) (h.ppFar s) (h'.ppFar t)
  ppBegin : ∀ s t, I s t → Alike Q (h.ppBegin s) (h'.ppBegin t)
  ppSweep : ∀ s t, Q s t → Alike Q (h.ppSweep s) (h'.ppSweep t)
  checkD : ∀ s t, D s t → Alike (fun p q => D p.1 q.1 ∧ q.2 = p.2) (h.check s) (h'.check t)
  checkQ : ∀ s t, Q s t → Alike (fun p q => Q p.1 q.1 ∧ q.2 = p.2) (h.check s) (h'.check t)
  acceptD : ∀ s t, D s t → Alike D (h.accept s) (h'.accept t)
  acceptQ : ∀ s t, Q s t → Alike Q (h.accept s) (h'.accept t)
  endRound : ∀ s t, I s t → I (h.endRound s) (h'.endRound t)

/-- The variables of two related executions. -/
def PPSame (X : σ → τ → Prop) (r : PPRun σ) (r' : PPRun τ) : Prop :=
  X r.st r'.st ∧ r'.iter = r.iter ∧ r'.grad = r.grad ∧ r'.tests = r.tests ∧ r'.trace = r.trace

theorem ppTest_sim {X : σ → τ → Prop} {h : PPHooks σ} {h' : PPHooks τ}
    (hc : ∀ s t, X s t → Alike (fun p q => X p.1 q.1 ∧ q.2 = p.2) (h.check s) (h'.check t))
    (ha : ∀ s t, X s t → Alike X (h.accept s) (h'.accept t)) (c : PPCfg) (clock : ℕ → ℝ) (pp : Bool) (checked : Prop) {r : PPRun σ}
    {r' : PPRun τ} (hr : PPSame X r r') :
    Alike (fun p q => PPSame X p.1 q.1 ∧ q.2 = p.2 ∧ p.1.iter = r.iter) (ppTest c h clock pp checked r)
      (ppTest c h' clock pp checked r') := by
  obtain ⟨r1, r2, r3, r4, r5⟩ := hr
  unfold ppTest
  by_cases h1 : c.resprint = 0
  · rw [if_pos h1, if_pos h1]; rfl
  rw [if_neg h1, if_neg h1]
  by_cases h2 : checked
  · rw [if_pos h2, if_pos h2]
    refine (hc _ _ r1).bind ?_
    rintro ⟨s1, q⟩ ⟨t1, q'⟩ ⟨h3, h4⟩
    simp only at h3 h4
    subst h4
    simp only [r2, r3, r4, r5]
    split_ifs
    · exact ⟨⟨h3, rfl, rfl, rfl, rfl⟩, rfl, rfl⟩
    · exact (ha _ _ h3).bind fun s2 t2 h4 => ⟨⟨h4, rfl, rfl, rfl, rfl⟩, rfl, rfl⟩
  · rw [if_neg h2, if_neg h2]
    exact ⟨⟨r1, r2, r3, r4, r5⟩, rfl, rfl⟩

theorem dtSubLoop_sim {I D Q : σ → τ → Prop} {h : PPHooks σ} {h' : PPHooks τ} (H : PPSim I D Q h h') (c : PPCfg) (clock : ℕ → ℝ) :
    ∀ (fuel : ℕ) (r : PPRun σ) (r' : PPRun τ), PPSame D r r' →
      Alike (PPSame D) (dtSubLoop c h clock fuel r) (dtSubLoop c h' clock fuel r') := by
  intro fuel
  induction fuel with
  | zero => intro r r' _; rfl
  | succ fuel ih =>
    intro r r' hr
    have hi := hr.2.1
    unfold dtSubLoop
    rw [hi]
    by_cases h1 : (r.iter : ℤ) ≤ c.maxiter
    · rw [if_pos h1, if_pos h1]
      refine (ppTest_sim H.checkD H.acceptD c clock false (dtChecked c r.iter) hr).bind ?_
      rintro ⟨t, b⟩ ⟨t', b'⟩ ⟨h3, h4, -⟩
      simp only at h3 h4
      subst h4
      simp only
      by_cases hb : b' = true
      · rw [if_pos hb, if_pos hb]; exact h3
      rw [if_neg hb, if_neg hb]
      obtain ⟨k1, k2, k3, k4, k5⟩ := h3
      refine (H.dtSweep _ _ k1).bind fun s1 t1 h5 => ?_
      refine (H.dtClose _ _ h5).bind fun x y h6 => ?_
      subst h6
      simp only [k2, k3, k4, k5]
      by_cases hy : y = true
      · rw [if_pos hy, if_pos hy]; exact ⟨h5, rfl, rfl, rfl, rfl⟩
      · rw [if_neg hy, if_neg hy]
        exact ih _ _ ⟨h5, rfl, rfl, rfl, rfl⟩
    · rw [if_neg h1, if_neg h1]; exact hr

theorem ppSubLoop_sim {I D Q : σ → τ → Prop} {h : PPHooks σ} {h' : PPHooks τ} (H : PPSim I D Q h h') (c : PPCfg) (clock : ℕ → ℝ)
    (init : ℕ) : ∀ (fuel : ℕ) (r : PPRun σ) (r' : PPRun τ), PPSame (fun s t => (r.iter = init → I s t) ∧ (r.iter ≠ init → Q s t)) r r' →
      init ≤ r.iter → Alike (PPSame I) (ppSubLoop c h clock init fuel r) (ppSubLoop c h' clock init fuel r') := by
  intro fuel
  induction fuel with
  | zero => intro r r' _ _; rfl
  | succ fuel ih =>
    intro r r' hr hle
    have hrI : PPSame I r r' := by
      refine ⟨?_, hr.2⟩
      by_cases e : r.iter = init
      · exact hr.1.1 e
      · exact H.QI _ _ (hr.1.2 e)
    have hinc : ∀ {p : PPRun σ} {q : PPRun τ}, PPSame I p q → PPSame I (benchInc c p) (benchInc c q) := by
      rintro p q ⟨p1, p2, p3, p4, p5⟩
      unfold benchInc
      split_ifs
      · exact ⟨p1, by rw [p2], p3, p4, p5⟩
      · exact ⟨p1, p2, p3, p4, p5⟩
    have hi := hr.2.1
    unfold ppSubLoop
    rw [hi]
    by_cases h1 : (r.iter : ℤ) ≤ c.maxiter
    · rw [if_pos h1, if_pos h1]
      refine Alike.bind (r := fun a b => b = a) ?_ fun far far' hf => ?_
      · split_ifs
        · rfl
        · exact H.ppFar _ _ hrI.1
      subst hf
      by_cases h2 : (far' || (c.tucker == false && r.iter != init && (r.iter - init) % 15 == 0)) = true
      · rw [if_pos h2, if_pos h2]; exact hrI
      rw [if_neg h2, if_neg h2]
      refine Alike.bind (r := fun p q => PPSame Q p q ∧ p.iter = r.iter) ?_ fun p q hpq => ?_
      · unfold ppEnter
        rw [hi]
        by_cases e : r.iter = init
        · rw [if_pos e, if_pos e]
          refine (H.ppBegin _ _ (hr.1.1 e)).bind fun s1 t1 h3 => ?_
          obtain ⟨-, k2, k3, k4, k5⟩ := hr
          exact ⟨⟨h3, by first | rfl | exact k2, k3, k4, by rw [k5]⟩, rfl⟩
        · rw [if_neg e, if_neg e]
          exact ⟨⟨hr.1.2 e, hr.2⟩, rfl⟩
      · have hpi := hpq.2
        refine (ppTest_sim H.checkQ H.acceptQ c clock true (ppChecked c init r.iter) hpq.1).bind ?_
        rintro ⟨t, b⟩ ⟨t', b'⟩ ⟨h3, h4, hti⟩
        simp only at h3 h4 hti
        subst h4
        simp only
        by_cases hb : b' = true
        · rw [if_pos hb, if_pos hb]
          exact hinc ⟨H.QI _ _ h3.1, h3.2⟩
        rw [if_neg hb, if_neg hb]
        obtain ⟨k1, k2, k3, k4, k5⟩ := h3
        refine (H.ppSweep _ _ k1).bind fun s1 t1 h5 => ?_
        have hpi' : t.iter = r.iter := hti.trans hpi
        refine ih _ _ ⟨⟨fun e => ?_, fun _ => h5⟩, by simp only [k2], k3, k4, by simp only [k5]⟩ (by simp only; omega)
        simp only at e
        omega
    · rw [if_neg h1, if_neg h1]
      exact hinc hrI

theorem ppDriverLoop_sim {I D Q : σ → τ → Prop} {h : PPHooks σ} {h' : PPHooks τ} (H : PPSim I D Q h h') (c : PPCfg)
    (clock : ℕ → ℝ) (sub : ℕ) : ∀ (fuel : ℕ) (r : PPRun σ) (r' : PPRun τ), PPSame I r r' →
      Alike (PPSame I) (ppDriverLoop c h clock sub fuel r) (ppDriverLoop c h' clock sub fuel r') := by
  intro fuel
  induction fuel with
  | zero => intro r r' _; rfl
  | succ fuel ih =>
    intro r r' hr
    unfold ppDriverLoop
    rw [hr.2.1, hr.2.2.1]
    by_cases h1 : c.tol < r.grad ∧ (r.iter : ℤ) ≤ c.maxiter
    · rw [if_pos h1, if_pos h1]
      refine Alike.bind (r := PPSame I) ?_ fun p q hpq => ?_
      · split_ifs
        · exact hr
        · unfold dtSub
          refine (H.dtBegin _ _ hr.1).bind fun s1 t1 h2 => ?_
          obtain ⟨-, k2, k3, k4, k5⟩ := hr
          refine (dtSubLoop_sim H c clock sub { r with st := s1, trace := r.trace ++ [.dtStart] } { r' with st := t1, trace := r'.trace ++ [.dtStart] } ⟨h2, k2, k3, k4, by rw [k5]⟩).mono fun a b hab => ⟨H.DI _ _ hab.1, hab.2⟩
      · rw [hpq.2.1]
        refine (ppSubLoop_sim H c clock p.iter sub p q ⟨⟨fun _ => hpq.1, fun h => absurd rfl h⟩, hpq.2⟩ le_rfl).bind
          fun u v huv => ?_
        obtain ⟨k1, k2, k3, k4, k5⟩ := huv
        exact ih _ _ ⟨H.endRound _ _ k1, k2, k3, k4, k5⟩
    · rw [if_neg h1, if_neg h1]; exact hr

theorem ppDriver_sim {I D Q : σ → τ → Prop} {h : PPHooks σ} {h' : PPHooks τ} (H : PPSim I D Q h h') (c : PPCfg)
    (clock : ℕ → ℝ) (fuel : ℕ) {s : σ} {t : τ} (hst : I s t) :
    Alike (fun p q => PPSame I p.1 q.1 ∧ q.2 = p.2) (ppDriver c h clock fuel s) (ppDriver c h' clock fuel t) := by
  unfold ppDriver
  refine (ppDriverLoop_sim H c clock fuel fuel _ _ ⟨hst, rfl, rfl, rfl, rfl⟩).bind fun a b hab => ?_
  refine ⟨hab, ?_⟩
  simp only [hab.2.1]

end Model
