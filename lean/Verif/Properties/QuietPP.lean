import Verif.Properties.PPDriver
import Verif.Properties.PartDriver
import Verif.Properties.LegacyLoop
import Verif.Properties.Bench
import Verif.Properties.TuckTol

/-! # C91: a restart tolerance that is not positive switches pairwise perturbation off -/

namespace Model

open Properties

variable {σ τ : Type}

/-- The lines of the log among the events: iteration, gradient norm, `[pp_update]`, residual. -/
def linesOf {M : Type} : List (PPEv M) → List (ℕ × M × Bool × M)
  | [] => []
  | .row i g pp d :: l => (i, g, pp, d) :: linesOf l
  | _ :: l => linesOf l

theorem linesOf_append {M : Type} : ∀ (a b : List (PPEv M)), linesOf (a ++ b) = linesOf a ++ linesOf b
  | [], b => rfl
  | .row i g pp d :: l, b => by simp [linesOf, linesOf_append l b]
  | .dtStart :: l, b => by simp [linesOf, linesOf_append l b]
  | .dtSweep :: l, b => by simp [linesOf, linesOf_append l b]
  | .ppStart :: l, b => by simp [linesOf, linesOf_append l b]
  | .ppSweep :: l, b => by simp [linesOf, linesOf_append l b]

/-- The dimension tree phase of `h` never closes and does what the driver of `l` does. -/
structure QuietSim (h : PPHooks σ) (l : LLHooks τ) (pr st : σ → τ) (I D : σ → Prop) : Prop where
  dtBegin : ∀ s, I s → ∃ s', h.dtBegin s = .ok s' ∧ D s' ∧ pr s' = st s
  sweep : ∀ s, D s → ∃ s', h.dtSweep s = .ok s' ∧ D s' ∧ l.sweep (pr s) = .ok (pr s') ∧ h.dtClose s' = .ok false
  check : ∀ s, D s → ∃ s' g d, h.check s = .ok (s', g, d) ∧ D s' ∧ l.check (pr s) = .ok (pr s', g, d)
  accept : ∀ s, D s → ∃ s', h.accept s = .ok s' ∧ D s' ∧ l.accept (pr s) = .ok (pr s')
  far : ∀ s, D s → ∃ b, h.ppFar s = .ok b
  enter : ∀ s, D s → ∀ s1 g d, h.check s = .ok (s1, g, d) → ∃ s2 s3, h.ppBegin s1 = .ok s2 ∧ h.check s2 = .ok (s3, g, d) ∧ pr s3 = pr s1
  endRound : ∀ s, pr (h.endRound s) = pr s

/-- How the two loops end. -/
structure QuietEnd (c : PPCfg) (h : PPHooks σ) (pr : σ → τ) (P : σ → Prop) (r0 r : PPRun σ) (rows : List (ℕ × ℝ × ℝ)) (e : LLEnd τ) : Prop where
  dt : P r.st
  iter : r.iter = e.iter
  st : pr r.st = e.st
  ret : e.ret = decide (¬ (e.iter : ℤ) = c.maxiter + 1)
  sweeps : ppSweeps r.trace = ppSweeps r0.trace
  rows : ∃ new, e.rows = rows ++ new ∧ linesOf r.trace = linesOf r0.trace ++ new.map fun x => (x.1, x.2.1, false, x.2.2)
  stop : c.maxiter < (e.iter : ℤ) ∧ e.broke = false ∨
    e.broke = true ∧ r.grad < c.tol ∧ (e.iter : ℤ) ≤ c.maxiter ∧ ∃ s0 d, P s0 ∧ h.check s0 = .ok (r.st, r.grad, d)

theorem dt_quiet {c : PPCfg} {h : PPHooks σ} {l : LLHooks τ} {pr st : σ → τ} {I D : σ → Prop} (H : QuietSim h l pr st I D)
    (hres : c.resprint ≠ 0) {clock clock' : ℕ → ℝ} (hc : ∀ t, clock t ≤ c.timelimit) {tl : ℝ} (hc' : ∀ t, clock' t ≤ tl)
    (hk : ∀ i, l.checked i ↔ dtChecked c i) : ∀ (fuel fuel' : ℕ) (r : PPRun σ) (rows : List (ℕ × ℝ × ℝ)), D r.st →
      (c.maxiter + 1 - r.iter).toNat < fuel → (c.maxiter + 1 - r.iter).toNat < fuel' →
      ∃ r' e, dtSubLoop c h clock fuel r = .ok r' ∧
        llLoop ⟨c.tol, tl, c.maxiter, c.resprint⟩ l clock' fuel' r.iter (pr r.st) rows = .ok e ∧ QuietEnd c h pr D r r' rows e
  | 0, _, _, _, _, hf, _ => absurd hf (Nat.not_lt_zero _)
  | _ + 1, 0, _, _, _, _, hf => absurd hf (Nat.not_lt_zero _)
  | fuel + 1, fuel' + 1, r, rows, hD, hf, hf' => by
    rw [dtSubLoop, llLoop]
    by_cases hi : (r.iter : ℤ) ≤ c.maxiter
    swap
    · rw [if_neg hi]
      simp only [hi, if_false]
      exact ⟨_, _, rfl, rfl, hD, rfl, rfl, rfl, rfl, ⟨[], by simp, by simp⟩, .inl ⟨not_le.1 hi, rfl⟩⟩
    have hit : (c.maxiter + 1 - (r.iter + 1 : ℕ)).toNat < fuel ∧ (c.maxiter + 1 - (r.iter + 1 : ℕ)).toNat < fuel' := by omega
    rw [if_pos hi]
    simp only [hi, if_true, if_neg hres]
    by_cases hck : dtChecked c r.iter
    · obtain ⟨s1, g, d, a1, a2, a3⟩ := H.check _ hD
      have hck' := (hk _).2 hck
      simp only [hck', if_true]
      by_cases hg : g < c.tol
      · refine ⟨⟨r.iter, g, r.tests + 1, s1, r.trace ++ [.row r.iter g false d]⟩,
          ⟨r.iter, pr s1, rows ++ [(r.iter, g, d)], true, decide (¬ (r.iter : ℤ) = c.maxiter + 1)⟩, ?_, ?_, ?_⟩
        rotate_left
        · simp only [a3, bind, Except.bind, hg, true_or, if_true, pure, Except.pure]
        · refine ⟨a2, rfl, rfl, rfl, ?_, ⟨[(r.iter, g, d)], rfl, ?_⟩, .inr ⟨rfl, hg, hi, _, _, hD, a1⟩⟩
          · rw [ppSweeps_append]; rfl
          · rw [linesOf_append]; rfl
        · unfold ppTest
          simp only [if_neg hres, hck, if_true, a1, bind, Except.bind, hg, true_or, pure, Except.pure]
      · obtain ⟨s2, b1, b2, b3⟩ := H.accept _ a2
        obtain ⟨s3, e1, e2, e3, e4⟩ := H.sweep _ b2
        obtain ⟨r', e, i1, i2, i3⟩ := dt_quiet H hres hc hc' hk fuel fuel'
          ⟨r.iter + 1, g, r.tests + 1, s3, (r.trace ++ [.row r.iter g false d]) ++ [.dtSweep]⟩ (rows ++ [(r.iter, g, d)]) e2 hit.1 hit.2
        refine ⟨r', e, ?_, ?_, ?_⟩
        · have ht : ppTest c h clock false (dtChecked c r.iter) r =
              .ok (⟨r.iter, g, r.tests + 1, s2, r.trace ++ [.row r.iter g false d]⟩, false) := by
            unfold ppTest
            have hn : ¬ (g < c.tol ∨ c.timelimit < clock r.tests ∨ (c.tucker = true ∧ false = true ∧ (r.iter : ℤ) = c.maxiter)) := by
              rintro (h1 | h1 | h1)
              · exact hg h1
              · exact absurd h1 (not_lt.2 (hc _))
              · exact absurd h1.2.1 Bool.false_ne_true
            simp only [if_neg hres, hck, if_true, a1, bind, Except.bind, if_neg hn, b1, pure, Except.pure]
          rw [ht]
          simp only [bind, Except.bind, e1, e4, Bool.false_eq_true, if_false]
          exact i1
        · have hn : ¬ (g < c.tol ∨ tl < clock' r.iter) := by
            rintro (h1 | h1)
            · exact hg h1
            · exact absurd h1 (not_lt.2 (hc' _))
          simp only [a3, bind, Except.bind, if_neg hn, b3, e3]
          exact i2
        · obtain ⟨new, n1, n2⟩ := i3.rows
          refine ⟨i3.dt, i3.iter, i3.st, i3.ret, ?_, ⟨(r.iter, g, d) :: new, by rw [n1]; simp, ?_⟩, i3.stop⟩
          · rw [i3.sweeps, ppSweeps_append, ppSweeps_append]; rfl
          · rw [n2, linesOf_append, linesOf_append]; simp [linesOf]
    · have hck' : ¬ l.checked r.iter := fun x => hck ((hk r.iter).1 x)
      simp only [hck', if_false]
      obtain ⟨s3, e1, e2, e3, e4⟩ := H.sweep _ hD
      obtain ⟨r', e, i1, i2, i3⟩ := dt_quiet H hres hc hc' hk fuel fuel'
        ⟨r.iter + 1, r.grad, r.tests, s3, r.trace ++ [.dtSweep]⟩ rows e2 hit.1 hit.2
      refine ⟨r', e, ?_, ?_, ?_⟩
      · have ht : ppTest c h clock false (dtChecked c r.iter) r = .ok (r, false) := by
          unfold ppTest
          simp only [if_neg hres, hck, if_false]
        rw [ht]
        simp only [bind, Except.bind, e1, e4, Bool.false_eq_true, if_false]
        exact i1
      · simp only [bind, Except.bind, e3]
        exact i2
      · obtain ⟨new, n1, n2⟩ := i3.rows
        refine ⟨i3.dt, i3.iter, i3.st, i3.ret, ?_, ⟨new, n1, ?_⟩, i3.stop⟩
        · rw [i3.sweeps, ppSweeps_append]; rfl
        · rw [n2, linesOf_append]; simp [linesOf]

/-- The whole driver. -/
theorem pp_quiet {c : PPCfg} {h : PPHooks σ} {l : LLHooks τ} {pr st : σ → τ} {I D : σ → Prop} (H : QuietSim h l pr st I D)
    (hb : c.bench = false) (hm : 0 ≤ c.maxiter) (ht10 : c.tol < 10)
    (hres : c.resprint ≠ 0) {clock clock' : ℕ → ℝ} (hc : ∀ t, clock t ≤ c.timelimit) {tl : ℝ} (hc' : ∀ t, clock' t ≤ tl)
    (hk : ∀ i, l.checked i ↔ dtChecked c i) {fuel fuel' : ℕ} (hf : (c.maxiter + 1).toNat < fuel) (hf' : (c.maxiter + 1).toNat < fuel')
    {s : σ} (hI : I s) :
    ∃ r e, ppDriver c h clock fuel s = .ok (r, e.ret) ∧
        llLoop ⟨c.tol, tl, c.maxiter, c.resprint⟩ l clock' fuel' 0 (st s) [] = .ok e ∧
        r.iter = e.iter ∧ pr r.st = e.st ∧ ppSweeps r.trace = 0 ∧
        (linesOf r.trace = e.rows.map (fun x => (x.1, x.2.1, false, x.2.2)) ∨
          ∃ g d, g < c.tol ∧ linesOf r.trace = e.rows.map (fun x => (x.1, x.2.1, false, x.2.2)) ++ [(e.iter, g, true, d)]) := by
  obtain ⟨fuel, rfl⟩ : ∃ n, fuel = n + 2 := ⟨fuel - 2, by omega⟩
  obtain ⟨s1, a1, a2, a3⟩ := H.dtBegin _ hI
  obtain ⟨r, e, b1, b2, b3⟩ := dt_quiet H hres hc hc' hk (fuel + 2) fuel' ⟨0, 10, 0, s1, [.dtStart]⟩ [] a2 (by simp only; omega) (by simp only; omega)
  simp only [a3] at b2
  obtain ⟨new, n1, n2⟩ := b3.rows
  rw [List.nil_append] at n1
  simp only [linesOf, List.nil_append] at n2
  have hdt : dtSub c h clock (fuel + 2) ⟨0, 10, 0, s, []⟩ = .ok r := by
    unfold dtSub
    simp only [a1, bind, Except.bind, List.nil_append]
    exact b1
  have hret : e.ret = decide (¬ (r.iter : ℤ) = c.maxiter + 1) := by rw [b3.ret, b3.iter]
  have hdrv : ∀ r1 : PPRun σ, ppSubLoop c h clock r.iter (fuel + 2) r = .ok r1 → (r1.grad < c.tol ∨ c.maxiter < (r1.iter : ℤ)) →
      ppDriver c h clock (fuel + 2) s = .ok ({ r1 with st := h.endRound r1.st }, decide (¬ (r1.iter : ℤ) = c.maxiter + 1)) := by
    intro r1 h1 h2
    have hstop : ¬ (c.tol < r1.grad ∧ (r1.iter : ℤ) ≤ c.maxiter) := by
      rintro ⟨x, y⟩
      rcases h2 with z | z
      · exact absurd z (not_lt.2 x.le)
      · exact absurd z (not_lt.2 y)
    have hgo : c.tol < (10 : ℝ) ∧ ((0 : ℕ) : ℤ) ≤ c.maxiter := ⟨ht10, by exact_mod_cast hm⟩
    have e2 : ppDriverLoop c h clock (fuel + 2) (fuel + 1) { r1 with st := h.endRound r1.st } = .ok { r1 with st := h.endRound r1.st } := by
      rw [ppDriverLoop, if_neg hstop]
    unfold ppDriver
    rw [show fuel + 2 = (fuel + 1) + 1 from rfl, ppDriverLoop, if_pos hgo]
    simp only [hb, Bool.false_eq_true, if_false, bind, Except.bind]
    rw [show fuel + 1 + 1 = fuel + 2 from rfl, hdt]
    simp only
    rw [h1]
    simp only
    rw [e2]
    rfl
  rcases b3.stop with ⟨q1, q2⟩ | ⟨q1, q2, q3, s0, d, q4, q5⟩
  · have hi : ¬ (r.iter : ℤ) ≤ c.maxiter := by rw [b3.iter]; exact not_le.2 q1
    have hp : ppSubLoop c h clock r.iter (fuel + 2) r = .ok r := by
      rw [ppSubLoop]
      simp only [hi, if_false, benchInc, hb, Bool.false_eq_true]
    refine ⟨{ r with st := h.endRound r.st }, e, ?_, b2, b3.iter, ?_, b3.sweeps, .inl (by rw [n1]; exact n2)⟩
    · rw [hret]
      exact hdrv _ hp (.inr (not_le.1 hi))
    · simp only [H.endRound]; exact b3.st
  · have hi : (r.iter : ℤ) ≤ c.maxiter := by rw [b3.iter]; exact q3
    obtain ⟨b, f1⟩ := H.far _ b3.dt
    obtain ⟨s2, s3, g1, g2, g3⟩ := H.enter _ q4 _ _ _ q5
    cases b with
    | true =>
      have hp : ppSubLoop c h clock r.iter (fuel + 2) r = .ok r := by
        rw [ppSubLoop]
        simp only [hi, if_true, hb, Bool.false_eq_true, if_false, f1, bind, Except.bind, Bool.true_or, pure, Except.pure]
      refine ⟨{ r with st := h.endRound r.st }, e, ?_, b2, b3.iter, ?_, b3.sweeps, .inl (by rw [n1]; exact n2)⟩
      · rw [hret]
        exact hdrv _ hp (.inl q2)
      · simp only [H.endRound]; exact b3.st
    | false =>
      have hp : ppSubLoop c h clock r.iter (fuel + 2) r =
          .ok ⟨r.iter, r.grad, r.tests + 1, s3, (r.trace ++ [.ppStart]) ++ [.row r.iter r.grad true d]⟩ := by
        rw [ppSubLoop]
        simp only [hi, if_true, hb, Bool.false_eq_true, if_false, f1, bind, Except.bind, bne_self_eq_false, Bool.and_false,
          Bool.false_and, Bool.or_false, ppEnter, g1, pure, Except.pure, ppTest, if_neg hres, ppChecked, or_true, g2, q2, true_or, benchInc]
      refine ⟨⟨r.iter, r.grad, r.tests + 1, h.endRound s3, (r.trace ++ [.ppStart]) ++ [.row r.iter r.grad true d]⟩, e, ?_, b2, b3.iter, ?_, ?_, .inr ⟨r.grad, d, q2, ?_⟩⟩
      · rw [hret]
        exact hdrv _ hp (.inl q2)
      · simp only [H.endRound]; rw [g3]; exact b3.st
      · simp only
        rw [ppSweeps_append, ppSweeps_append, b3.sweeps]; rfl
      · simp only
        rw [linesOf_append, linesOf_append, n2, n1, b3.iter]
        simp [linesOf]

variable {N : ℕ} {dims : Fin N → ℕ} {R : ℕ} {V : Tensor ℝ}

theorem zeros_same {W W' : List (Tensor ℝ)} (h : Shaped dims R V W) (h' : Shaped dims R V W') : W.map zerosLike = W'.map zerosLike := by
  refine List.ext_getElem (by simp [h.count, h'.count]) fun i h1 h2 => ?_
  simp only [List.length_map] at h1 h2
  have hi : i < N := by have := h.count; omega
  have e1 := h.lensW ⟨i, hi⟩ _ (List.getElem?_eq_getElem h1)
  have e2 := h'.lensW ⟨i, hi⟩ _ (List.getElem?_eq_getElem h2)
  simp only [List.getElem_map, zerosLike, e1, e2]

theorem close_false (h1 : 1 ≤ N) {same : Bool} {lam ratio tolInit : ℝ} (ht : tolInit ≤ 0) {k : Kern ℝ} {s : CPPPState} (h : CPD dims R V s) :
    (cpPPHooks same N R lam ratio tolInit k V).dtClose s = .ok false := by
  simp only [cpPPHooks, ratioTests_ok h.i.W h.i.dW, bind, Except.bind, pure, Except.pure, Except.ok.injEq]
  rw [List.all_eq_false]
  refine ⟨_, List.mem_map.2 ⟨0, List.mem_range.2 h1, rfl⟩, ?_⟩
  simp only [id_eq, quotLt, decide_eq_true_eq, not_and, not_lt]
  exact fun _ => ht.trans (div_nonneg (norm2_nonneg _) (norm2_nonneg _))

theorem cp_quiet (h4 : 4 ≤ N) (h5 : N ≠ 5) (h9 : N ≤ 9) (same : Bool) (lam ratio : ℝ) {tolInit : ℝ} (ht : tolInit ≤ 0) {k : Kern ℝ}
    (hk : KernOk k) {W : List (Tensor ℝ)} (hW : Shaped dims R V W) (a : LLArgs) :
    QuietSim (cpPPHooks same N R lam ratio tolInit k V) (cpDTHooks N R lam (svdSolver k) V (W.map zerosLike) a)
      (fun s => (⟨s.W, s.G⟩ : Fac ℝ)) (fun s => (⟨s.W, s.G⟩ : Fac ℝ)) (CPI dims R V) (CPD dims R V) where
  dtBegin s h := ⟨_, rfl, ⟨⟨h.W, h.G, h.dW⟩, zeros_shape h.W⟩, rfl⟩
  sweep s h := by
    obtain ⟨f, f1, f2, f3⟩ := legacySweep_shape h4 h5 (by omega) (zeros_shape h.i.W) (f := ⟨s.W, s.G⟩) h.i.W h.i.G lam
      (svdSolver k)
    obtain ⟨d, d1, d2, _⟩ := diffs_shape f2 h.prev
    have hD : CPD dims R V ⟨f.W, f.G, d, f.W, s.Winit, s.ops⟩ := ⟨⟨f2, f3, d2⟩, f2⟩
    refine ⟨⟨f.W, f.G, d, f.W, s.Winit, s.ops⟩, ?_, hD, ?_, close_false (by omega) ht hD⟩
    · simp only [cpPPHooks, f1, d1, bind, Except.bind]
      rfl
    · rw [zeros_same h.i.W hW] at f1
      simp only [cpDTHooks, f1]
  check s h := by
    obtain ⟨g, hg⟩ := gradnorm_ok h.i.G
    have hr := C16_residual (by omega) (by omega) h.i.W
    generalize Real.sqrt _ = d at hr
    refine ⟨s, g, d, ?_, h, ?_⟩
    · simp only [cpPPHooks, hg, hr, bind, Except.bind]
      rfl
    · simp only [cpDTHooks, hg, hr, bind, Except.bind]
      rfl
  accept s h := ⟨s, rfl, h, rfl⟩
  far s h := by
    obtain ⟨b, hb, _⟩ := (cp_hooks h4 h5 h9 same lam ratio tolInit hk).ppFar s h.i
    exact ⟨b, hb⟩
  enter s h s1 g d hs := by
    obtain ⟨g', d', _, e⟩ := cp_check (by omega) (by omega) h.i (same := same) (lam := lam) (ratio := ratio)
      (tolInit := tolInit) (k := k)
    have := Except.ok.inj (e.symm.trans hs)
    simp only [Prod.mk.injEq] at this
    obtain ⟨rfl, rfl, rfl⟩ := this
    obtain ⟨ops, o1, o2⟩ := ppOperators_ok (by omega) h9 same h.i.W
    refine ⟨{ s with Winit := s.W, dW := s.dW.map zerosLike, ops := ops }, { s with Winit := s.W, dW := s.dW.map zerosLike, ops := ops }, ?_, ?_, rfl⟩
    · simp only [cpPPHooks, o1, bind, Except.bind]
      rfl
    · simp only [cpPPHooks, bind, Except.bind, pure, Except.pure] at hs ⊢
      cases hg : gradnorm s.G N with
      | error x => rw [hg] at hs; simp at hs
      | ok x =>
        rw [hg] at hs
        simp only at hs ⊢
        cases hr : residual V s.W N with
        | error y => rw [hr] at hs; simp at hs
        | ok y =>
          rw [hr] at hs
          simp only [Except.ok.injEq, Prod.mk.injEq, true_and] at hs ⊢
          exact hs
  endRound s := rfl

theorem part_quiet (h4 : 4 ≤ N) (h5 : N ≠ 5) (h9 : N ≤ 9) (same : Bool) (lam ratio : ℝ) {tolInit : ℝ} (ht : tolInit ≤ 0) (p : ℝ) {k : Kern ℝ}
    (hk : KernOk k) (srt : List Rel → List ℕ) {W : List (Tensor ℝ)} (hW : Shaped dims R V W) (a : LLArgs) :
    QuietSim (partPPHooks same N R lam ratio tolInit p k srt V) (cpDTHooks N R lam (svdSolver k) V (W.map zerosLike) a)
      (fun s => (⟨s.cp.W, s.cp.G⟩ : Fac ℝ)) (fun s => (⟨s.cp.W, s.cp.G⟩ : Fac ℝ)) (fun s => CPI dims R V s.cp) (fun s => CPD dims R V s.cp) := by
  have H := cp_quiet (V := V) h4 h5 h9 same lam ratio ht hk hW a
  refine ⟨fun s h => ?_, fun s h => ?_, fun s h => ?_, fun s h => ?_, fun s h => H.far _ h, fun s h s1 g d hs => ?_, fun s => H.endRound _⟩
  · obtain ⟨c, c1, c2, c3⟩ := H.dtBegin _ h
    exact ⟨{ s with cp := c }, by simp only [partPPHooks, c1, bind, Except.bind]; rfl, c2, c3⟩
  · obtain ⟨c, c1, c2, c3, c4⟩ := H.sweep _ h
    exact ⟨{ s with cp := c }, by simp only [partPPHooks, c1, bind, Except.bind]; rfl, c2, c3, c4⟩
  · obtain ⟨c, g, d, c1, c2, c3⟩ := H.check _ h
    exact ⟨{ s with cp := c }, g, d, by simp only [partPPHooks, c1, bind, Except.bind]; rfl, c2, c3⟩
  · obtain ⟨c, c1, c2, c3⟩ := H.accept _ h
    exact ⟨{ s with cp := c }, by simp only [partPPHooks, c1, bind, Except.bind]; rfl, c2, c3⟩
  · simp only [partPPHooks, bind, Except.bind, pure, Except.pure] at hs
    cases hq : (cpPPHooks same N R lam ratio tolInit k V).check s.cp with
    | error x => rw [hq] at hs; simp at hs
    | ok q =>
      rw [hq] at hs
      simp only [Except.ok.injEq, Prod.mk.injEq] at hs
      obtain ⟨q1, q2, q3⟩ := q
      simp only [Prod.mk.injEq] at hs
      obtain ⟨rfl, rfl, rfl⟩ := hs
      obtain ⟨c2, c3, e1, e2, e3⟩ := H.enter _ h _ _ _ hq
      refine ⟨⟨c2, (partInit N c2.W c2.G c2.dW).dM, (partInit N c2.W c2.G c2.dW).M, (partInit N c2.W c2.G c2.dW).rel⟩,
        ⟨c3, (partInit N c2.W c2.G c2.dW).dM, (partInit N c2.W c2.G c2.dW).M, (partInit N c2.W c2.G c2.dW).rel⟩, ?_, ?_, e3⟩
      · simp only [partPPHooks, e1, bind, Except.bind]
        rfl
      · simp only [partPPHooks, e2, bind, Except.bind]
        rfl

/-! ### Histories -/

/-- `P` (on the data and the events so far) is kept by everything a driver does. -/
structure KeepsHist (h : PPHooks σ) (P : σ → List PPEv → Prop) : Prop where
  dtBegin : ∀ s s' tr, P s tr → h.dtBegin s = .ok s' → P s' (tr ++ [.dtStart])
  dtSweep : ∀ s s' tr, P s tr → h.dtSweep s = .ok s' → P s' (tr ++ [.dtSweep])
  ppBegin : ∀ s s' tr, P s tr → h.ppBegin s = .ok s' → P s' (tr ++ [.ppStart])
  ppSweep : ∀ s s' tr, P s tr → h.ppSweep s = .ok s' → P s' (tr ++ [.ppSweep])
  check : ∀ s s' g d i b tr, P s tr → h.check s = .ok (s', g, d) → P s' (tr ++ [.row i g b d])
  accept : ∀ s s' tr, P s tr → h.accept s = .ok s' → P s' tr
  endRound : ∀ s tr, P s tr → P (h.endRound s) tr

theorem ppTest_hist {c : PPCfg} {h : PPHooks σ} {P : σ → List PPEv → Prop} (H : KeepsHist h P) {clock : ℕ → ℝ} {pp : Bool}
    {checked : Prop} {r : PPRun σ} {t : PPRun σ × Bool} (e : ppTest c h clock pp checked r = .ok t) (hP : P r.st r.trace) :
    P t.1.st t.1.trace := by
  unfold ppTest at e
  split at e
  · cases e
  · split at e
    · obtain ⟨q, q1, e⟩ := bind_ok e
      have hP1 := H.check _ _ _ _ r.iter pp _ hP (show h.check r.st = .ok (q.1, q.2.1, q.2.2) from q1)
      simp only at e
      split at e
      · rw [← Except.ok.inj e]; exact hP1
      · obtain ⟨s, s1, e⟩ := bind_ok e
        rw [← Except.ok.inj e]; exact H.accept _ _ _ hP1 s1
    · rw [← Except.ok.inj e]; exact hP

theorem dtSubLoop_hist {c : PPCfg} {h : PPHooks σ} {P : σ → List PPEv → Prop} (H : KeepsHist h P) {clock : ℕ → ℝ} :
    ∀ (fuel : ℕ) (r r' : PPRun σ), dtSubLoop c h clock fuel r = .ok r' → P r.st r.trace → P r'.st r'.trace
  | 0, _, _, e, _ => by cases e
  | fuel + 1, r, r', e, hP => by
    rw [dtSubLoop] at e
    split at e
    · obtain ⟨t, t1, e⟩ := bind_ok e
      have hT := ppTest_hist H t1 hP
      split at e
      · rw [← Except.ok.inj e]; exact hT
      · obtain ⟨s, s1, e⟩ := bind_ok e
        have hS := H.dtSweep _ _ _ hT s1
        obtain ⟨b, _, e⟩ := bind_ok e
        split at e
        · rw [← Except.ok.inj e]; exact hS
        · exact dtSubLoop_hist H fuel _ r' e hS
    · rw [← Except.ok.inj e]; exact hP

theorem ppSubLoop_hist {c : PPCfg} {h : PPHooks σ} {P : σ → List PPEv → Prop} (H : KeepsHist h P) {clock : ℕ → ℝ} {init : ℕ} :
    ∀ (fuel : ℕ) (r r' : PPRun σ), ppSubLoop c h clock init fuel r = .ok r' → P r.st r.trace → P r'.st r'.trace
  | 0, _, _, e, _ => by cases e
  | fuel + 1, r, r', e, hP => by
    have hb : ∀ t : PPRun σ, P t.st t.trace → P (benchInc c t).st (benchInc c t).trace := fun t ht => by
      rw [benchInc_st, benchInc_trace]; exact ht
    rw [ppSubLoop] at e
    split at e
    · obtain ⟨far, _, e⟩ := bind_ok e
      split at e
      · rw [← Except.ok.inj e]; exact hP
      · obtain ⟨r1, e1, e⟩ := bind_ok e
        have h1 : P r1.st r1.trace := by
          unfold ppEnter at e1
          split at e1
          · obtain ⟨s, s1, e1⟩ := bind_ok e1
            rw [← Except.ok.inj e1]; exact H.ppBegin _ _ _ hP s1
          · rw [← Except.ok.inj e1]; exact hP
        obtain ⟨t, t1, e⟩ := bind_ok e
        have hT := ppTest_hist H t1 h1
        split at e
        · rw [← Except.ok.inj e]; exact hb _ hT
        · obtain ⟨s, s1, e⟩ := bind_ok e
          exact ppSubLoop_hist H fuel _ r' e (H.ppSweep _ _ _ hT s1)
    · rw [← Except.ok.inj e]; exact hb _ hP

theorem ppDriverLoop_hist {c : PPCfg} {h : PPHooks σ} {P : σ → List PPEv → Prop} (H : KeepsHist h P) {clock : ℕ → ℝ} {sub : ℕ} :
    ∀ (fuel : ℕ) (r r' : PPRun σ), ppDriverLoop c h clock sub fuel r = .ok r' → P r.st r.trace → P r'.st r'.trace
  | 0, _, _, e, _ => by cases e
  | fuel + 1, r, r', e, hP => by
    rw [ppDriverLoop] at e
    split at e
    · obtain ⟨r1, e1, e⟩ := bind_ok e
      have h1 : P r1.st r1.trace := by
        split at e1
        · rw [← Except.ok.inj e1]; exact hP
        · unfold dtSub at e1
          obtain ⟨s, s1, e1⟩ := bind_ok e1
          exact dtSubLoop_hist H _ _ _ e1 (H.dtBegin _ _ _ hP s1)
      obtain ⟨r2, e2, e⟩ := bind_ok e
      exact ppDriverLoop_hist H fuel _ r' e (H.endRound _ _ (ppSubLoop_hist H _ _ _ e2 h1))
    · rw [← Except.ok.inj e]; exact hP

theorem ppDriver_hist {c : PPCfg} {h : PPHooks σ} {P : σ → List PPEv → Prop} (H : KeepsHist h P) {clock : ℕ → ℝ} {fuel : ℕ} {s : σ}
    {r : PPRun σ} {ret : Bool} (e : ppDriver c h clock fuel s = .ok (r, ret)) (hP : P s []) : P r.st r.trace := by
  unfold ppDriver at e
  obtain ⟨r1, e1, e⟩ := bind_ok e
  have := Except.ok.inj e
  simp only [Prod.mk.injEq] at this
  rw [← this.1]
  exact ppDriverLoop_hist H _ _ _ e1 hP

/-- The number of sweeps with the dimension tree in a piece of the history. -/
def dtSweeps (l : List PPEv) : ℕ := l.countP fun e => match e with
  | .dtSweep => true
  | _ => false

theorem dtSweeps_append (a b : List PPEv) : dtSweeps (a ++ b) = dtSweeps a + dtSweeps b := by
  unfold dtSweeps
  exact List.countP_append

/-- As long as no PP sweep was made, the data are those of sweeps of `alsCP_DT`. -/
def AsDT (dims : Fin N → ℕ) (R : ℕ) (lam : ℝ) (k : Kern ℝ) (V : Tensor ℝ) (F : List (Tensor ℝ)) (f : Fac ℝ) (W G : List (Tensor ℝ))
    (tr : List PPEv) : Prop :=
  ppSweeps tr = 0 → Shaped dims R V W ∧ G.length = N ∧
    iterM (legacySweep N R lam (svdSolver k) V F) (dtSweeps tr) f = .ok ⟨W, G⟩

theorem asDT_skip {lam : ℝ} {k : Kern ℝ} {F : List (Tensor ℝ)} {f : Fac ℝ} {W G : List (Tensor ℝ)} {tr : List PPEv} {e : PPEv}
    (h1 : ppSweeps [e] = 0) (h2 : dtSweeps [e] = 0) (h : AsDT dims R lam k V F f W G tr) : AsDT dims R lam k V F f W G (tr ++ [e]) := by
  intro h0
  rw [ppSweeps_append, h1] at h0
  rw [dtSweeps_append, h2]
  exact h h0

theorem cp_asDT (h4 : 4 ≤ N) (h5 : N ≠ 5) (h9 : N ≤ 9) (same : Bool) (lam ratio tolInit : ℝ) (k : Kern ℝ) {W0 : List (Tensor ℝ)}
    (hW : Shaped dims R V W0) (f : Fac ℝ) : KeepsHist (cpPPHooks same N R lam ratio tolInit k V)
      fun s tr => AsDT dims R lam k V (W0.map zerosLike) f s.W s.G tr where
  dtBegin s s' tr h e := by
    rw [← Except.ok.inj e]
    exact asDT_skip rfl rfl h
  dtSweep s s' tr h e h0 := by
    rw [ppSweeps_append] at h0
    obtain ⟨a1, a2, a3⟩ := h (by omega)
    obtain ⟨g, f1, f2, f3⟩ := legacySweep_shape h4 h5 (by omega) (zeros_shape a1) (f := ⟨s.W, s.G⟩) a1 a2 lam (svdSolver k)
    simp only [cpPPHooks, f1] at e
    obtain ⟨q, q1, e⟩ := bind_ok e
    rw [← Except.ok.inj q1] at e
    obtain ⟨d, _, e⟩ := bind_ok e
    rw [← Except.ok.inj e]
    refine ⟨f2, f3, ?_⟩
    rw [dtSweeps_append, show dtSweeps [PPEv.dtSweep] = 1 from rfl, iterM_succ_right', a3]
    simp only [bind, Except.bind]
    rw [zeros_same a1 hW] at f1
    exact f1
  ppBegin s s' tr h e := by
    obtain ⟨ops, _, e⟩ := bind_ok e
    rw [← Except.ok.inj e]
    exact asDT_skip rfl rfl h
  ppSweep s s' tr h e h0 := by
    rw [ppSweeps_append, show ppSweeps [PPEv.ppSweep] = 1 from rfl] at h0
    omega
  check s s' g d i b tr h e := by
    obtain ⟨g', _, e⟩ := bind_ok e
    obtain ⟨d', _, e⟩ := bind_ok e
    have := Except.ok.inj e
    simp only [Prod.mk.injEq] at this
    rw [← this.1]
    exact asDT_skip rfl rfl h
  accept s s' tr h e := by
    rw [← Except.ok.inj e]
    exact h
  endRound s tr h := h

theorem part_asDT (h4 : 4 ≤ N) (h5 : N ≠ 5) (h9 : N ≤ 9) (same : Bool) (lam ratio tolInit p : ℝ) (k : Kern ℝ) (srt : List Rel → List ℕ)
    {W0 : List (Tensor ℝ)} (hW : Shaped dims R V W0) (f : Fac ℝ) : KeepsHist (partPPHooks same N R lam ratio tolInit p k srt V)
      fun s tr => AsDT dims R lam k V (W0.map zerosLike) f s.cp.W s.cp.G tr := by
  have H := cp_asDT (V := V) h4 h5 h9 same lam ratio tolInit k hW f
  refine ⟨fun s s' tr h e => ?_, fun s s' tr h e => ?_, fun s s' tr h e => ?_, fun s s' tr h e => ?_, fun s s' g d i b tr h e => ?_,
    fun s s' tr h e => ?_, fun s tr h => H.endRound _ tr h⟩
  · obtain ⟨c, c1, e⟩ := bind_ok e
    rw [← Except.ok.inj e]
    exact H.dtBegin _ _ _ h c1
  · obtain ⟨c, c1, e⟩ := bind_ok e
    rw [← Except.ok.inj e]
    exact H.dtSweep _ _ _ h c1
  · obtain ⟨c, c1, e⟩ := bind_ok e
    rw [← Except.ok.inj e]
    exact H.ppBegin _ _ _ h c1
  · intro h0
    rw [ppSweeps_append, show ppSweeps [PPEv.ppSweep] = 1 from rfl] at h0
    omega
  · obtain ⟨q, q1, e⟩ := bind_ok e
    have := Except.ok.inj e
    simp only [Prod.mk.injEq] at this
    obtain ⟨t1, t2⟩ := this
    rw [← t1]
    exact H.check _ _ g d i b _ h (by rw [q1, ← t2])
  · obtain ⟨c, c1, e⟩ := bind_ok e
    rw [← Except.ok.inj e]
    exact H.accept _ _ _ h c1

end Model

namespace Properties

open Model

variable {N : ℕ} {dims : Fin N → ℕ} {R : ℕ} {V : Tensor ℝ} {W G : List (Tensor ℝ)} {kn : Kern ℝ}

/-- **C91 (`alsCP_PP` switched off).** Orders 4, 6..9.  A restart tolerance `<= 0`, the other arguments those of a call of `alsCP_DT` (with
zero matrices `F` and the same SVD), and clocks that do not pass the limits: `alsCP_PP` and `alsCP_DT` make the same number of iterations,
leave the same factors and gradients and return the same value; `alsCP_PP` makes no PP sweep, and writes the same lines to the log except for
one more at the end if it enters the PP phase after the gradient test has stopped. -/
theorem C91_off (h4 : 4 ≤ N) (h5 : N ≠ 5) (h9 : N ≤ 9) (same : Bool) (lam ratio : ℝ) {tolInit : ℝ} (ht : tolInit ≤ 0) (hk : KernOk kn)
    (hW : Shaped dims R V W) (hG : G.length = N) (c : PPCfg) (hb : c.bench = false) (hm : 0 ≤ c.maxiter) (ht10 : c.tol < 10)
    (hr : c.resprint ≠ 0) {clock clock' : ℕ → ℝ} (hc : ∀ t, clock t ≤ c.timelimit) {tl : ℝ} (hc' : ∀ t, clock' t ≤ tl)
    {fuel fuel' : ℕ} (hf : (c.maxiter + 1).toNat < fuel) (hf' : (c.maxiter + 1).toNat < fuel') :
    ∃ (r : PPRun CPPPState) (e : LLEnd (Fac ℝ)),
      alsCPPP same N R lam ratio tolInit kn V c clock fuel W G = .ok (r, e.ret) ∧
      alsCPDT N R lam (svdSolver kn) V (W.map zerosLike) ⟨c.tol, tl, c.maxiter, c.resprint⟩ clock' fuel' ⟨W, G⟩ = .ok e ∧
      r.iter = e.iter ∧ r.st.W = e.st.W ∧ r.st.G = e.st.G ∧ ppSweeps r.trace = 0 ∧
      (linesOf r.trace = e.rows.map (fun x => (x.1, x.2.1, false, x.2.2)) ∨
        ∃ g d, g < c.tol ∧ linesOf r.trace = e.rows.map (fun x => (x.1, x.2.1, false, x.2.2)) ++ [(e.iter, g, true, d)]) := by
  obtain ⟨r, e, a1, a2, a3, a4, a5, a6⟩ := pp_quiet (c := { c with tucker := false })
    (cp_quiet h4 h5 h9 same lam ratio ht hk hW ⟨c.tol, tl, c.maxiter, c.resprint⟩) hb hm ht10 hr hc hc'
    (fun i => by simp [cpDTHooks, dtChecked]) hf hf' (cp_start hW hG)
  exact ⟨r, e, a1, a2, a3, congrArg Fac.W a4, congrArg Fac.G a4, a5, a6⟩

/-- **C91 (`alsCP_PP_partupdate` switched off).** -/
theorem C91_part_off (h4 : 4 ≤ N) (h5 : N ≠ 5) (h9 : N ≤ 9) (same : Bool) (lam ratio : ℝ) {tolInit : ℝ} (ht : tolInit ≤ 0) (p : ℝ)
    (hk : KernOk kn) (srt : List Rel → List ℕ)
    (hW : Shaped dims R V W) (hG : G.length = N) (c : PPCfg) (hb : c.bench = false) (hm : 0 ≤ c.maxiter) (ht10 : c.tol < 10)
    (hr : c.resprint ≠ 0) {clock clock' : ℕ → ℝ} (hc : ∀ t, clock t ≤ c.timelimit) {tl : ℝ} (hc' : ∀ t, clock' t ≤ tl)
    {fuel fuel' : ℕ} (hf : (c.maxiter + 1).toNat < fuel) (hf' : (c.maxiter + 1).toNat < fuel') :
    ∃ (r : PPRun PartPPState) (e : LLEnd (Fac ℝ)),
      alsCPPart same N R lam ratio tolInit p kn srt V c clock fuel W G = .ok (r, e.ret) ∧
      alsCPDT N R lam (svdSolver kn) V (W.map zerosLike) ⟨c.tol, tl, c.maxiter, c.resprint⟩ clock' fuel' ⟨W, G⟩ = .ok e ∧
      r.iter = e.iter ∧ r.st.cp.W = e.st.W ∧ r.st.cp.G = e.st.G ∧ ppSweeps r.trace = 0 ∧
      (linesOf r.trace = e.rows.map (fun x => (x.1, x.2.1, false, x.2.2)) ∨
        ∃ g d, g < c.tol ∧ linesOf r.trace = e.rows.map (fun x => (x.1, x.2.1, false, x.2.2)) ++ [(e.iter, g, true, d)]) := by
  obtain ⟨r, e, a1, a2, a3, a4, a5, a6⟩ := pp_quiet (c := { c with tucker := false })
    (part_quiet h4 h5 h9 same lam ratio ht p hk srt hW ⟨c.tol, tl, c.maxiter, c.resprint⟩) hb hm ht10 hr hc hc'
    (fun i => by simp [cpDTHooks, dtChecked]) hf hf' (s := ⟨⟨W, G, W.map zerosLike, [], [], []⟩, [], [], []⟩) (cp_start hW hG)
  exact ⟨r, e, a1, a2, a3, congrArg Fac.W a4, congrArg Fac.G a4, a5, a6⟩

/-- **C91 (until the first PP sweep).** Any tolerances, clock and `bench`: if `alsCP_PP` returns and has made no PP sweep, the factors and
gradients it leaves are those after as many sweeps of `alsCP_DT` as it has made sweeps with the dimension tree: setting up operators, tests
and restarts have no effect on them. -/
theorem C91_until (h4 : 4 ≤ N) (h5 : N ≠ 5) (h9 : N ≤ 9) (same : Bool) (lam ratio tolInit : ℝ)
    (hW : Shaped dims R V W) (hG : G.length = N) (c : PPCfg) (clock : ℕ → ℝ) (fuel : ℕ) {r : PPRun CPPPState} {ret : Bool}
    (h : alsCPPP same N R lam ratio tolInit kn V c clock fuel W G = .ok (r, ret)) (h0 : ppSweeps r.trace = 0) :
    iterM (legacySweep N R lam (svdSolver kn) V (W.map zerosLike)) (dtSweeps r.trace) ⟨W, G⟩ = .ok ⟨r.st.W, r.st.G⟩ :=
  (ppDriver_hist (cp_asDT h4 h5 h9 same lam ratio tolInit kn hW ⟨W, G⟩) h (fun _ => ⟨hW, hG, rfl⟩) h0).2.2

/-- **C91 (until the first PP sweep, partial updates).** -/
theorem C91_part_until (h4 : 4 ≤ N) (h5 : N ≠ 5) (h9 : N ≤ 9) (same : Bool) (lam ratio tolInit p : ℝ) (srt : List Rel → List ℕ)
    (hW : Shaped dims R V W) (hG : G.length = N) (c : PPCfg) (clock : ℕ → ℝ) (fuel : ℕ) {r : PPRun PartPPState} {ret : Bool}
    (h : alsCPPart same N R lam ratio tolInit p kn srt V c clock fuel W G = .ok (r, ret)) (h0 : ppSweeps r.trace = 0) :
    iterM (legacySweep N R lam (svdSolver kn) V (W.map zerosLike)) (dtSweeps r.trace) ⟨W, G⟩ = .ok ⟨r.st.cp.W, r.st.cp.G⟩ :=
  (ppDriver_hist (part_asDT h4 h5 h9 same lam ratio tolInit p kn srt hW ⟨W, G⟩) h (fun _ => ⟨hW, hG, rfl⟩) h0).2.2

/-! ### the hypotheses are met -/

example : ∃ (kn : Kern ℝ) (r : PPRun CPPPState) (e : LLEnd (Fac ℝ)),
    alsCPPP true 4 2 (1 / 2) 1 0 kn exVR ⟨false, 1 / 1000, 60, 100, 10, false⟩ (fun _ => 1) 104 exFacR.W exGR = .ok (r, e.ret) ∧
    alsCPDT 4 2 (1 / 2) (svdSolver kn) exVR (exFacR.W.map zerosLike) ⟨1 / 1000, 60, 100, 10⟩ (fun _ => 2) 102 ⟨exFacR.W, exGR⟩ = .ok e ∧
    r.iter = e.iter ∧ r.st.W = e.st.W ∧
    iterM (legacySweep 4 2 (1 / 2) (svdSolver kn) exVR (exFacR.W.map zerosLike)) (dtSweeps r.trace) ⟨exFacR.W, exGR⟩ = .ok ⟨r.st.W, r.st.G⟩ := by
  obtain ⟨kn, hk⟩ := exists_kernOk
  obtain ⟨r, e, h1, h2, h3, h4, _, h5, _⟩ := C91_off (N := 4) (by norm_num) (by norm_num) (by norm_num) true (1 / 2) 1 le_rfl hk
    exShapedR (G := exGR) rfl ⟨false, 1 / 1000, 60, 100, 10, false⟩ rfl (by norm_num) (by norm_num) (by norm_num) (clock := fun _ => 1)
    (clock' := fun _ => 2) (tl := 60) (fun _ => by norm_num) (fun _ => by norm_num) (fuel := 104) (fuel' := 102) (by norm_num) (by norm_num)
  exact ⟨kn, r, e, h1, h2, h3, h4, C91_until (N := 4) (by norm_num) (by norm_num) (by norm_num) true (1 / 2) 1 0 exShapedR rfl _ _ _ h1 h5⟩

example (srt : List Rel → List ℕ) : ∃ (kn : Kern ℝ) (r : PPRun PartPPState) (e : LLEnd (Fac ℝ)),
    alsCPPart true 4 2 (1 / 2) 1 0 1 kn srt exVR ⟨false, 1 / 1000, 60, 100, 10, false⟩ (fun _ => 1) 104 exFacR.W exGR = .ok (r, e.ret) ∧
    alsCPDT 4 2 (1 / 2) (svdSolver kn) exVR (exFacR.W.map zerosLike) ⟨1 / 1000, 60, 100, 10⟩ (fun _ => 2) 102 ⟨exFacR.W, exGR⟩ = .ok e ∧
    r.st.cp.W = e.st.W ∧
    iterM (legacySweep 4 2 (1 / 2) (svdSolver kn) exVR (exFacR.W.map zerosLike)) (dtSweeps r.trace) ⟨exFacR.W, exGR⟩ =
      .ok ⟨r.st.cp.W, r.st.cp.G⟩ := by
  obtain ⟨kn, hk⟩ := exists_kernOk
  obtain ⟨r, e, h1, h2, _, h4, _, h5, _⟩ := C91_part_off (N := 4) (by norm_num) (by norm_num) (by norm_num) true (1 / 2) 1 le_rfl 1 hk srt
    exShapedR (G := exGR) rfl ⟨false, 1 / 1000, 60, 100, 10, false⟩ rfl (by norm_num) (by norm_num) (by norm_num) (clock := fun _ => 1)
    (clock' := fun _ => 2) (tl := 60) (fun _ => by norm_num) (fun _ => by norm_num) (fuel := 104) (fuel' := 102) (by norm_num) (by norm_num)
  exact ⟨kn, r, e, h1, h2, h4, C91_part_until (N := 4) (by norm_num) (by norm_num) (by norm_num) true (1 / 2) 1 0 1 srt exShapedR rfl _ _ _
    h1 h5⟩

end Properties
