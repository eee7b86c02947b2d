import Verif.Properties.QuietPP
import Verif.Properties.Span
import Verif.Proofs.Sim

/-! # C91 for `alsTucker_PP` -/

namespace Model

open Properties

variable {σ τ : Type}

/-- `llLoop_sim` with a relation that may depend on the iteration. -/
theorem llLoop_simN {Rel : ℕ → σ → τ → Prop} {h : LLHooks σ} {h' : LLHooks τ} {a : LLArgs} (hk : ∀ i, h'.checked i ↔ h.checked i)
    (hc : ∀ n s t, Rel n s t → Alike (fun p q => Rel n p.1 q.1 ∧ q.2 = p.2) (h.check s) (h'.check t))
    (ha : ∀ n s t, Rel n s t → Alike (Rel n) (h.accept s) (h'.accept t))
    (hs : ∀ (n : ℕ) s t, (n : ℤ) ≤ a.maxiter → Rel n s t → Alike (Rel (n + 1)) (h.sweep s) (h'.sweep t)) (clock : ℕ → ℝ) :
    ∀ (fuel iter : ℕ) (s : σ) (t : τ) (rows : List (ℕ × ℝ × ℝ)), Rel iter s t →
      Alike (fun (r : LLEnd σ) (r' : LLEnd τ) => Rel r.iter r.st r'.st ∧ r'.iter = r.iter ∧ r'.rows = r.rows ∧ r'.ret = r.ret)
        (llLoop a h clock fuel iter s rows) (llLoop a h' clock fuel iter t rows) := by
  intro fuel
  induction fuel with
  | zero => intro iter s t rows _; rfl
  | succ fuel ih =>
    intro iter s t rows hst
    unfold llLoop
    by_cases h1 : (iter : ℤ) ≤ a.maxiter
    · rw [if_pos h1, if_pos h1]
      by_cases h2 : a.resprint = 0
      · rw [if_pos h2, if_pos h2]; rfl
      rw [if_neg h2, if_neg h2]
      by_cases h3 : h.checked iter
      · rw [if_pos h3, if_pos ((hk iter).2 h3)]
        refine (hc iter s t hst).bind ?_
        rintro ⟨s1, c⟩ ⟨t1, c'⟩ ⟨h4, h5⟩
        simp only at h4 h5
        subst h5
        simp only
        by_cases h6 : c'.1 < a.tol ∨ a.timelimit < clock iter
        · rw [if_pos h6, if_pos h6]
          exact ⟨h4, rfl, rfl, rfl⟩
        · rw [if_neg h6, if_neg h6]
          refine (ha iter s1 t1 h4).bind fun s2 t2 h7 => ?_
          exact (hs iter s2 t2 h1 h7).bind fun s3 t3 h8 => ih _ _ _ _ h8
      · rw [if_neg h3, if_neg (fun h => h3 ((hk iter).1 h))]
        exact (hs iter s t h1 hst).bind fun s3 t3 h8 => ih _ _ _ _ h8
    · rw [if_neg h1, if_neg h1]
      exact ⟨hst, rfl, rfl, rfl⟩

variable {N : ℕ} {dims rk : Fin N → ℕ} {V : Tensor ℝ}

/-- Only the shape of the tensor `Y` passed to `TTMc` could matter, and it does not. -/
theorem ttmc_start {W : List (Tensor ℝ)} (hV : V.lens ≠ []) (Y Y' : Tensor ℝ) : ttmc Y V W (-1) = ttmc Y' V W (-1) := by
  unfold ttmc
  obtain ⟨n, hn⟩ : ∃ n, V.lens.length = n + 1 := ⟨V.lens.length - 1, by have := List.length_pos_iff.2 hV; omega⟩
  rw [hn, List.range_succ_eq_map, List.foldlM_cons, List.foldlM_cons]
  rfl

theorem tuckCheck_start {W : List (Tensor ℝ)} (hV : V.lens ≠ []) (Y Y' P : Tensor ℝ) : tuckCheck V Y P W = tuckCheck V Y' P W := by
  unfold tuckCheck
  rw [ttmc_start hV Y Y']

/-- `alsTucker_DT` with the sweeps of `alsTucker_DT_sub`, which align signs with the factors of the sweep before. -/
noncomputable def tuckSubHooks (k : Kern ℝ) (V : Tensor ℝ) (a : LLArgs) : LLHooks (TuckState × List (Tensor ℝ)) where
  checked i := (tuckDTHooks k V a).checked i
  check s := do
    let r ← tuckCheck V s.1.core s.1.corePrev s.1.W
    pure (({ s.1 with core := r.1 }, s.2), r.2.1, r.2.2)
  accept s := do
    let t ← keepCore s.1
    pure (t, s.2)
  sweep s := do
    let r ← tuckSweepDTsub k V s.1.core.lens s.2 s.1.W
    pure (⟨r.1, r.2, s.1.corePrev⟩, r.1)

theorem tuck_quiet (h4 : 4 ≤ N) (h5 : N ≠ 5) (h9 : N ≤ 9) (hr : ∀ j, rk j ≤ dims j) {k : Kern ℝ} (hk : SvdShape k) (hl : SvdLeading k)
    (a : LLArgs) :
    QuietSim (tuckPPHooks N k V) (tuckSubHooks k V a) (fun s => (⟨s.W, s.core, s.corePrev⟩, s.Wprev))
      (fun s => (⟨s.W, s.core, s.corePrev⟩, s.W.map zerosLike)) (fun s => TPI dims rk V False 0 s ∧ s.tolInit ≤ 0)
      (fun s => TPD dims rk V False 0 s ∧ s.tolInit ≤ 0) where
  dtBegin s h := ⟨_, rfl, ⟨⟨⟨h.1.W, h.1.dW, h.1.core, h.1.prev, h.1.ortho, h.1.small⟩, tzeros_shape h.1.W⟩, h.2⟩, rfl⟩
  sweep s h := by
    obtain ⟨W', C, d, b1, b2, b3, b4, b5, b6, _⟩ := tp_dtSweep h4 h5 (by omega) hr hk hl h.1
    refine ⟨_, b2, ⟨⟨⟨b3, b6, b5.1, h.1.i.prev, False.elim, h.1.i.small⟩, b3⟩, h.2⟩, ?_, ?_⟩
    · simp only [tuckSubHooks, h.1.i.core, b1, bind, Except.bind]
      rfl
    · simp only [tuckPPHooks, tratioTests_ok b3 b6, bind, Except.bind, pure, Except.pure, Except.ok.injEq]
      rw [List.all_eq_false]
      refine ⟨_, (List.mem_ofFn' _ _).2 ⟨⟨0, by omega⟩, rfl⟩, ?_⟩
      simp only [id_eq, quotLt, decide_eq_true_eq, not_and, not_lt]
      exact fun _ => h.2.trans (div_nonneg (Real.sqrt_nonneg _) (Real.sqrt_nonneg _))
  check s h := by
    obtain ⟨C, c1, c2, c3⟩ := C38_check (by omega) (by omega) h.1.i.W s.core s.corePrev
    refine ⟨{ s with core := C }, |Real.sqrt (Spec.coreNormSq dims rk (arr V N) (mats s.W)) - norm2 s.corePrev|,
      Real.sqrt (Spec.tuckErrSq dims rk (arr V N) (mats s.W)), ?_, ⟨⟨⟨h.1.i.W, h.1.i.dW, c2, h.1.i.prev, h.1.i.ortho, h.1.i.small⟩, h.1.prevW⟩, h.2⟩, ?_⟩
    · simp only [tuckPPHooks, c1, bind, Except.bind]
      rfl
    · simp only [tuckSubHooks, c1, bind, Except.bind]
      rfl
  accept s h := by
    obtain ⟨s', a1, a2, a3, a4, _⟩ := keepCore_ok (by omega) (dims := dims) (rk := rk) (V := V) (s := ⟨s.W, s.core, s.corePrev⟩)
      ⟨h.1.i.W, h.1.i.core, h.1.i.prev⟩
    refine ⟨{ s with corePrev := s'.corePrev }, ?_, ⟨⟨⟨h.1.i.W, h.1.i.dW, h.1.i.core, a2.prev, h.1.i.ortho, h.1.i.small⟩, h.1.prevW⟩, h.2⟩, ?_⟩
    · simp only [tuckPPHooks, a1, bind, Except.bind]
      rfl
    · simp only [tuckSubHooks, a1, bind, Except.bind, pure, Except.pure]
      simp only at a3 a4
      rw [← a3, ← a4]
  far s h := by
    obtain ⟨b, hb, _⟩ := (tp_hooks h4 h5 h9 hr hk hl False 0).ppFar s h.1.i
    exact ⟨b, hb⟩
  enter s h s1 g d hs := by
    have hV : V.lens ≠ [] := by
      rw [h.1.i.W.lensV]
      intro e
      have := congrArg List.length e
      simp at this
      omega
    obtain ⟨C, c1, c2, c3⟩ := C38_check (by omega) (by omega) h.1.i.W s.core s.corePrev
    simp only [tuckPPHooks, c1, bind, Except.bind, pure, Except.pure, Except.ok.injEq, Prod.mk.injEq] at hs
    obtain ⟨rfl, rfl, rfl⟩ := hs
    obtain ⟨ops, _, o2, _⟩ := tp_ppBegin (by omega) h9 (k := k) (o := False) (m := 0) (dims := dims) (rk := rk) (V := V)
      (s := { s with core := C }) ⟨h.1.i.W, h.1.i.dW, c2, h.1.i.prev, h.1.i.ortho, h.1.i.small⟩
    refine ⟨_, { s with core := C, Winit := s.W, dW := s.W.map zerosLike, ops := ops }, o2, ?_, rfl⟩
    rw [tuckCheck_start hV _ C] at c1
    simp only [tuckPPHooks, c1, bind, Except.bind]
    rfl
  endRound s := by
    simp only [tuckPPHooks]
    split <;> rfl

/-- The states of `alsTucker_DT` and of the dimension tree phase of `alsTucker_PP` after the same number of sweeps. -/
structure SameSpan (dims rk : Fin N → ℕ) (V : Tensor ℝ) (P : Fin N → ℕ → ℕ → ℝ) (s : TuckState) (t : TuckState × List (Tensor ℝ)) : Prop where
  l : TuckInv dims rk V s
  r : TuckInv dims rk V t.1
  p : TuckShaped dims rk V t.2
  ls : SpanResult dims rk V s.W P
  rs : SpanResult dims rk V t.1.W P
  core : norm2 t.1.core = norm2 s.core
  prev : norm2 t.1.corePrev = norm2 s.corePrev

theorem span_same (h4 : 4 ≤ N) (h5 : N ≠ 5) (h9 : N ≤ 9) (hr : ∀ j, rk j ≤ dims j) {k k' : Kern ℝ} (hk : SvdShape k) (hl : SvdLeading k)
    (hk' : SvdShape k') (hl' : SvdLeading k') {P : ℕ → Fin N → ℕ → ℕ → ℝ} {a : LLArgs}
    (hP : ∀ n ≤ a.maxiter.toNat, Spec.SpanSweep dims rk (arr V N) (P n) (P (n + 1))) (clock : ℕ → ℝ) (fuel : ℕ) {s : TuckState}
    {t : TuckState × List (Tensor ℝ)} (h : SameSpan dims rk V (P 0) s t) :
    Alike (fun (r : LLEnd TuckState) (r' : LLEnd (TuckState × List (Tensor ℝ))) => SameSpan dims rk V (P r.iter) r.st r'.st ∧
        r'.iter = r.iter ∧ r'.rows = r.rows ∧ r'.ret = r.ret)
      (llLoop a (tuckDTHooks k V a) clock fuel 0 s []) (llLoop a (tuckSubHooks k' V a) clock fuel 0 t []) := by
  refine llLoop_simN (Rel := fun n => SameSpan dims rk V (P n)) (fun _ => Iff.rfl) ?_ ?_ ?_ clock fuel 0 s t [] h
  · rintro n s t h
    obtain ⟨C, c1, c2, c3⟩ := C38_check (by omega) (by omega) h.l.W s.core s.corePrev
    obtain ⟨D, d1, d2, d3⟩ := C38_check (by omega) (by omega) h.r.W t.1.core t.1.corePrev
    simp only [tuckDTHooks, tuckSubHooks, c1, d1, bind, Except.bind, pure, Except.pure]
    refine ⟨⟨⟨h.l.W, c2, h.l.prev⟩, ⟨h.r.W, d2, h.r.prev⟩, h.p, h.ls, h.rs, ?_, h.prev⟩, ?_⟩
    · simp only
      rw [IsCore.norm ⟨c2, c3⟩, IsCore.norm ⟨d2, d3⟩, h.ls.core, h.rs.core]
    · simp only
      rw [h.prev, h.ls.core, h.rs.core, h.ls.err, h.rs.err]
  · rintro n s t h
    obtain ⟨s', a1, a2, a3, a4, a5⟩ := keepCore_ok (by omega) h.l
    obtain ⟨t', b1, b2, b3, b4, b5⟩ := keepCore_ok (by omega) h.r
    simp only [tuckDTHooks, tuckSubHooks, a1, b1, bind, Except.bind, pure, Except.pure]
    refine ⟨a2, b2, h.p, by rw [a3]; exact h.ls, by simp only; rw [b3]; exact h.rs, by simp only; rw [a4, b4]; exact h.core, ?_⟩
    simp only
    rw [a5, b5]; exact h.core
  · rintro n s t hn h
    have e' : klens dims rk ∅ = rk := by funext j; simp [klens]
    obtain ⟨W', C, a1, a2, a3, _, ⟨a4, a5⟩⟩ := tuckSweepDT_ok h4 h5 (by omega) hr h.l.W hk
    obtain ⟨Y', D, b1, b2, b3, _, ⟨b4, b5⟩, _⟩ := tuckSweepDTsub_ok h4 h5 (by omega) hr h.p h.r.W hk' hl'
    rw [e'] at a4 a5 b4 b5
    simp only [tuckDTHooks, tuckSubHooks, h.l.core, h.r.core, a1, b1, bind, Except.bind, pure, Except.pure]
    have p := hP n (by omega)
    have q1 : SpanResult dims rk V W' (P (n + 1)) := .of ((a3.best hl hr le_rfl h.l.W).span hr p h.ls.spans)
    have q2 : SpanResult dims rk V Y' (P (n + 1)) := .of (b3.span hr p h.rs.spans)
    refine ⟨⟨a2, a4, h.l.prev⟩, ⟨b2, b4, h.r.prev⟩, b2, q1, q2, ?_, h.prev⟩
    simp only
    rw [IsCore.norm ⟨a4, a5⟩, IsCore.norm ⟨b4, b5⟩, q1.core, q2.core]

end Model

namespace Properties

open Model

variable {N : ℕ} {dims rk : Fin N → ℕ} {V : Tensor ℝ} {W : List (Tensor ℝ)}

/-- **C91 (`alsTucker_PP` switched off).** Orders 4, 6..9.  Let `P 0, P 1, …` be the HOOI iterates as subspaces (each leading eigenvalue larger
than the first one left out).  A restart tolerance `<= 0`, the other arguments those of a call of `alsTucker_DT`, and clocks that do not pass the
limits: `alsTucker_PP` and `alsTucker_DT` make the same number of iterations, leave bases of the same subspaces (hence the same reconstruction and
error) and cores of the same norm, and return the same value, whatever SVDs they use; `alsTucker_PP` makes no PP sweep, and writes the same lines
to the log except for one more at the end if it enters the PP phase after the test has stopped. -/
theorem C91_tucker_off (h4 : 4 ≤ N) (h5 : N ≠ 5) (h9 : N ≤ 9) (hr : ∀ j, rk j ≤ dims j) (hS : TuckShaped dims rk V W) {core : Tensor ℝ}
    (hcore : core.lens = List.ofFn rk) {k k' : Kern ℝ} (hk : SvdShape k) (hl : SvdLeading k) (hk' : SvdShape k') (hl' : SvdLeading k')
    {P : ℕ → Fin N → ℕ → ℕ → ℝ} (h0 : Spec.Spans dims rk (mats W) (P 0)) {tolInit : ℝ} (ht : tolInit ≤ 0) (c : PPCfg) (hb : c.bench = false)
    (hm : 0 ≤ c.maxiter) (hP : ∀ n ≤ c.maxiter.toNat, Spec.SpanSweep dims rk (arr V N) (P n) (P (n + 1))) (ht10 : c.tol < 10)
    (hres : c.resprint ≠ 0) {clock clock' : ℕ → ℝ} (hc : ∀ t, clock t ≤ c.timelimit) {tl : ℝ} (hc' : ∀ t, clock' t ≤ tl)
    {fuel fuel' : ℕ} (hf : (c.maxiter + 1).toNat < fuel) (hf' : (c.maxiter + 1).toNat < fuel') :
    ∃ (r : PPRun TuckPPState) (e : LLEnd TuckState),
      alsTuckerPP N k V tolInit c clock fuel core W = .ok (r, e.ret) ∧
      alsTuckerDT k' V ⟨c.tol, tl, c.maxiter, c.resprint⟩ clock' fuel' core W = .ok e ∧
      r.iter = e.iter ∧ SpanResult dims rk V r.st.W (P e.iter) ∧ SpanResult dims rk V e.st.W (P e.iter) ∧
      norm2 r.st.core = norm2 e.st.core ∧ ppSweeps r.trace = 0 ∧
      (linesOf r.trace = e.rows.map (fun x => (x.1, x.2.1, false, x.2.2)) ∨
        ∃ g d, g < c.tol ∧ linesOf r.trace = e.rows.map (fun x => (x.1, x.2.1, false, x.2.2)) ++ [(e.iter, g, true, d)]) := by
  obtain ⟨r, e, a1, a2, a3, a4, a5, a6⟩ := pp_quiet (c := { c with tucker := true })
    (tuck_quiet h4 h5 h9 hr hk hl ⟨c.tol, tl, c.maxiter, c.resprint⟩) hb hm ht10 hres hc hc'
    (fun i => by simp [tuckSubHooks, tuckDTHooks, dtChecked]) hf hf' (s := ⟨W, W.map zerosLike, [], [], [], core, core, tolInit⟩)
    ⟨⟨hS, tzeros_shape hS, hcore, hcore, False.elim, by simp only [pow_zero, mul_one]; linarith⟩, ht⟩
  have hA := span_same (V := V) h4 h5 h9 hr hk' hl' hk hl (P := P) (a := ⟨c.tol, tl, c.maxiter, c.resprint⟩) hP clock' fuel'
    (s := ⟨W, core, core⟩) (t := (⟨W, core, core⟩, W.map zerosLike))
    ⟨⟨hS, hcore, hcore⟩, ⟨hS, hcore, hcore⟩, tzeros_shape hS, .of h0, .of h0, rfl, rfl⟩
  simp only at a2
  rw [a2] at hA
  obtain ⟨e', -, e1, -⟩ := C48_tucker_dt h4 h5 (by omega) hr hS hcore hk' (a := ⟨c.tol, tl, c.maxiter, c.resprint⟩) hm hres clock' hf'
  have e1' := e1
  unfold alsTuckerDT at e1'
  rw [e1'] at hA
  obtain ⟨b1, b2, b3, b4⟩ := hA
  have w := congrArg (fun x => x.1.W) a4
  have w' := congrArg (fun x => x.1.core) a4
  simp only at w w'
  refine ⟨r, e', by rw [← b4]; exact a1, e1, by rw [a3, b2], by rw [w]; exact b1.rs, b1.ls, by rw [w']; exact b1.core, a5, ?_⟩
  rw [← b3, ← b2]
  exact a6

/-! ### the hypotheses are met: the corner tensor of C76 -/

example : ∃ (k : Kern ℝ) (r : PPRun TuckPPState) (e : LLEnd TuckState), SvdLeading k ∧
    alsTuckerPP 4 k exCornV 0 ⟨true, 1 / 1000, 60, 7, 10, false⟩ (fun _ => 0) 9 ⟨[1, 1, 1, 1], fun _ => 0⟩ exCornW = .ok (r, e.ret) ∧
    alsTuckerDT (negSvd k) exCornV ⟨1 / 1000, 60, 7, 10⟩ (fun _ => 0) 9 ⟨[1, 1, 1, 1], fun _ => 0⟩ exCornW = .ok e ∧ r.iter = e.iter := by
  obtain ⟨k, hl, hk⟩ := exists_svdLeading
  obtain ⟨r, e, a, b, c, -⟩ := C91_tucker_off (N := 4) (by norm_num) (by norm_num) (by norm_num) (fun _ => by norm_num) exCornShaped
    (core := ⟨[1, 1, 1, 1], fun _ => 0⟩) (by simp [List.ofFn_succ]) hk hl (negSvd_shape hk) (negSvd_leading hl) (P := fun _ => exCornP)
    exCornSpans le_rfl ⟨true, 1 / 1000, 60, 7, 10, false⟩ rfl (by norm_num) (fun _ _ => exCornSweep) (by norm_num) (by norm_num)
    (clock := fun _ => 0) (clock' := fun _ => 0) (tl := 60) (fun _ => by norm_num) (fun _ => by norm_num) (fuel := 9) (fuel' := 9)
    (by norm_num) (by norm_num)
  exact ⟨k, r, e, hl, a, b, c⟩

end Properties
