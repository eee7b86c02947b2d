import Verif.Proofs.LogFile
import Verif.Proofs.Ieee
import Verif.Properties.AlsLoop
import Verif.Properties.BenchTuck
import Verif.Properties.Ieee
import Verif.Properties.SpmdLegacy
import Verif.Properties.Again

/-! # C86: the log file -/

namespace Properties

open Model

/-- What a call without `bench` does to the stream on rank 0: an open file is extended by `l` and closed; a closed one is left alone. -/
def Extended {M : Type} (w w' : Stream M) (l : List (LogLine M)) : Prop :=
  w'.isOpen = false ∧ w'.lines = if w.isOpen then w.lines ++ l else w.lines

section ALS

variable {kind : OptKind} {N R : ℕ} {lam : ℝ} {solve : Spec.Solver ℝ} {q : ℕ} {lr : Spec.LowRank ℝ} {V : Tensor ℝ} {t : Cmp ℝ}
  {ms rp : ℤ} {fuel : ℕ} {s : OptState ℝ × Fac ℝ} {r : AlsEnd (OptState ℝ × Fac ℝ)}

theorem cpdAlsL_ok (e : LogEnv ℝ) (w : Stream ℝ) (h : cpdAlsC kind N R lam solve q lr V t ms rp fuel s = .ok r) :
    cpdAlsL e kind N R lam solve q lr V t ms rp fuel s w = .ok (r, endLog e ((putHeading e false w).puts
      (r.rows.flatMap fun x => testLines e x.iter x.sweeps x.gradnorm x.diffV))) := by
  obtain ⟨y, h1, h2, h3⟩ := sim_ok (alsLoopL_sim e t ms rp (optStep N R lam solve q lr V) (stepSweeps N kind) (cpdCheck N V)
    (putHeading e false w) fuel 0 0 s []) h
  rw [List.flatMap_nil, puts_nil] at h1
  unfold cpdAlsL
  rw [h1]
  simp only [bind, Except.bind, pure, Except.pure]
  rw [h3, h2]

/-- **C86 (`CPD::als`).** For all arguments (any IEEE `tol`, `timelimit`), optimizers, problems and clocks: a call of `als` on rank 0
with an open file and `bench == false` adds the heading and one line per test (`C49_log_rows` says which) — dimension, sweeps, gradient
norm, tolerance, `0`, residual, time — with an empty line after every positive multiple of 100 iterations, and closes the file.  If the
stream is closed (a second call with the same stream) the file does not change, although the computation is the same. -/
theorem C86_als {e : LogEnv ℝ} (h0 : e.rank0 = true) (hb : e.bench = false) (w : Stream ℝ)
    (h : cpdAlsC kind N R lam solve q lr V t ms rp fuel s = .ok r) :
    ∃ w', cpdAlsL e kind N R lam solve q lr V t ms rp fuel s w = .ok (r, w') ∧
      Extended w w' (.heading false :: Spec.logText AlsRow.iter
        (fun x => .row e.dim x.sweeps x.gradnorm e.tol false x.diffV (e.dtime x.iter)) .blank r.rows) := by
  refine ⟨_, cpdAlsL_ok e w h, ?_⟩
  have ht : (r.rows.flatMap fun x => testLines e x.iter x.sweeps x.gradnorm x.diffV) = Spec.logText AlsRow.iter
        (fun x => .row e.dim x.sweeps x.gradnorm e.tol false x.diffV (e.dtime x.iter)) .blank r.rows := by
    unfold Spec.logText testLines
    simp only [hb, Bool.false_eq_true, if_false, rowLines_spec h0]
  unfold endLog putHeading Extended
  rw [ht, if_neg (by rw [hb]; simp), if_pos ⟨hb, h0⟩, put_eq, puts_puts]
  refine ⟨rfl, ?_⟩
  obtain ⟨b, l⟩ := w
  cases b <;> rfl

/-- **C86 (`CPD::als`, other ranks).** The other ranks write nothing; they close their stream. -/
theorem C86_als_other_ranks {e : LogEnv ℝ} (h0 : e.rank0 = false) (w : Stream ℝ)
    (h : cpdAlsC kind N R lam solve q lr V t ms rp fuel s = .ok r) :
    ∃ w', cpdAlsL e kind N R lam solve q lr V t ms rp fuel s w = .ok (r, w') ∧ w'.lines = w.lines ∧
      w'.isOpen = (e.bench && w.isOpen) := by
  refine ⟨_, cpdAlsL_ok e w h, ?_⟩
  have ht : (r.rows.flatMap fun x => testLines e x.iter x.sweeps x.gradnorm x.diffV) = [] := by
    rw [List.flatMap_eq_nil_iff]
    intro x _
    unfold testLines rowLines
    simp [h0]
  unfold endLog putHeading
  rw [ht, puts_nil, if_neg (show ¬ (e.bench = false ∧ e.rank0 = true) by rw [h0]; simp)]
  cases hb : e.bench <;> simp [Model.Stream.close]

/-- **C86 (`CPD::als`, benchmark).** With `bench == true` there is no heading and no row: one `[DTtime]` line for every test except the
first, and the stream stays open. -/
theorem C86_als_bench {e : LogEnv ℝ} (h0 : e.rank0 = true) (hb : e.bench = true) {w : Stream ℝ} (hw : w.isOpen = true)
    (h : cpdAlsC kind N R lam solve q lr V t ms rp fuel s = .ok r) :
    cpdAlsL e kind N R lam solve q lr V t ms rp fuel s w = .ok (r, ⟨true, w.lines ++
      ((r.rows.filter fun x => decide (x.iter ≠ 0)).map fun x => .dtTime (e.dtime x.iter))⟩) := by
  rw [cpdAlsL_ok e w h]
  have ht : (r.rows.flatMap fun x => testLines e x.iter x.sweeps x.gradnorm x.diffV) =
      (r.rows.filter fun x => decide (x.iter ≠ 0)).map fun x => .dtTime (e.dtime x.iter) := by
    induction r.rows with
    | nil => rfl
    | cons x l ih =>
      rw [List.flatMap_cons, ih]
      unfold testLines
      by_cases hx : x.iter = 0
      · simp [hx, hb]
      · simp [hx, hb, h0]
  unfold endLog putHeading Model.Stream.puts
  rw [ht, if_pos hb, if_neg (show ¬ (e.bench = false ∧ e.rank0 = true) by rw [hb]; simp), if_pos hw]
  rw [hw]

/-- **C86 (`CPD::als` called twice).** Only the first of two calls with the same stream is logged; the second does what it would do with any
other stream. -/
theorem C86_als_twice {e e2 : LogEnv ℝ} (h0 : e.rank0 = true) (hb : e.bench = false) (w : Stream ℝ)
    (h : cpdAlsC kind N R lam solve q lr V t ms rp fuel s = .ok r) {t2 : Cmp ℝ} {ms2 rp2 : ℤ} {fuel2 : ℕ}
    {r2 : AlsEnd (OptState ℝ × Fac ℝ)} (h2 : cpdAlsC kind N R lam solve q lr V t2 ms2 rp2 fuel2 r.st = .ok r2) :
    ∃ w', cpdAlsL e kind N R lam solve q lr V t ms rp fuel s w = .ok (r, w') ∧
      cpdAlsL e2 kind N R lam solve q lr V t2 ms2 rp2 fuel2 r.st w' = .ok (r2, w') := by
  obtain ⟨w', h3, h4, -⟩ := C86_als h0 hb w h
  refine ⟨w', h3, ?_⟩
  rw [cpdAlsL_ok e2 w' h2]
  obtain ⟨b, l⟩ := w'
  simp only at h4
  subst h4
  congr 2
  unfold endLog putHeading Model.Stream.put Model.Stream.puts Model.Stream.close
  by_cases hc : e2.bench = false ∧ e2.rank0 = true
  · simp [hc.1]
  · rw [if_neg hc]; simp

end ALS

section Legacy

variable {σ : Type} {t : Cmp ℝ} {mi rp : ℤ} {fuel : ℕ}

/-- The lines of the tests of a loop without pairwise perturbation. -/
def llText (e : LogEnv ℝ) (rows : List (ℕ × ℝ × ℝ)) : List (LogLine ℝ) :=
  Spec.logText Prod.fst (fun x => .row e.dim x.1 x.2.1 e.tol false x.2.2 (e.dtime x.1)) .blank rows

theorem llText_eq {e : LogEnv ℝ} (h0 : e.rank0 = true) (hb : e.bench = false) (rows : List (ℕ × ℝ × ℝ)) :
    (rows.flatMap fun x => testLines e x.1 x.1 x.2.1 x.2.2) = llText e rows := by
  unfold llText Spec.logText testLines
  simp only [hb, Bool.false_eq_true, if_false, rowLines_spec h0]

theorem llTextT_eq {e : LogEnv ℝ} (h0 : e.rank0 = true) (hb : e.bench = false) (rows : List (ℕ × ℝ × ℝ)) :
    (rows.flatMap fun x => testLinesT e x.1 x.1 x.2.1 x.2.2) = llText e rows := by
  unfold llText Spec.logText testLinesT
  simp only [hb, Bool.false_eq_true, if_false, rowLines_spec h0]

variable {N R : ℕ} {lam : ℝ} {solve : Spec.Solver ℝ} {V : Tensor ℝ} {F : List (Tensor ℝ)} {f : Fac ℝ} {r : LLEnd (Fac ℝ)}

theorem alsCPDTL_ok (e : LogEnv ℝ) (w : Stream ℝ) (h : alsCPDTC N R lam solve V F t mi rp fuel f = .ok r) :
    alsCPDTL e N R lam solve V F t mi rp fuel f w = .ok (r, endLog e ((putHeading e false w).puts
      (r.rows.flatMap fun x => testLines e x.1 x.1 x.2.1 x.2.2))) := by
  obtain ⟨y, h1, h2, h3⟩ := sim_ok (llLoopL_sim (putTest e) (testLines e) (fun i s m d w => putTest_eq e i s m d w) t mi rp
    (cpDTHooks N R lam solve V F ⟨0, 0, mi, rp⟩) (putHeading e false w) fuel 0 f []) h
  rw [List.flatMap_nil, puts_nil] at h1
  unfold alsCPDTL
  rw [h1]
  simp only [bind, Except.bind, pure, Except.pure]
  rw [h3, h2]

/-- **C86 (`alsCP_DT`).** As `C86_als` (which tests are made: `C48`); the second column is the iteration. -/
theorem C86_cp_dt {e : LogEnv ℝ} (h0 : e.rank0 = true) (hb : e.bench = false) (w : Stream ℝ)
    (h : alsCPDTC N R lam solve V F t mi rp fuel f = .ok r) :
    ∃ w', alsCPDTL e N R lam solve V F t mi rp fuel f w = .ok (r, w') ∧ Extended w w' (.heading false :: llText e r.rows) := by
  refine ⟨_, alsCPDTL_ok e w h, ?_⟩
  unfold endLog putHeading Extended
  rw [llText_eq h0 hb, if_neg (by rw [hb]; simp), if_pos ⟨hb, h0⟩, put_eq, puts_puts]
  refine ⟨rfl, ?_⟩
  obtain ⟨b, l⟩ := w
  cases b <;> rfl

variable {k : Kern ℝ} {core : Tensor ℝ} {W : List (Tensor ℝ)} {rt : LLEnd TuckState}

theorem alsTuckerDTL_ok (e : LogEnv ℝ) (w : Stream ℝ) (h : alsTuckerDTC k V t mi rp fuel core W = .ok rt) :
    alsTuckerDTL e k V t mi rp fuel core W w = .ok (rt, endLog e ((putHeadingT e w).puts
      (rt.rows.flatMap fun x => testLinesT e x.1 x.1 x.2.1 x.2.2))) := by
  obtain ⟨y, h1, h2, h3⟩ := sim_ok (llLoopL_sim (putTestT e) (testLinesT e) (fun i s m d w => putTestT_eq e i s m d w) t mi rp
    (tuckDTHooks k V ⟨0, 0, mi, rp⟩) (putHeadingT e w) fuel 0 ⟨W, core, core⟩ []) h
  rw [List.flatMap_nil, puts_nil] at h1
  unfold alsTuckerDTL
  rw [h1]
  simp only [bind, Except.bind, pure, Except.pure]
  rw [h3, h2]

/-- **C86 (`alsTucker_DT`).** As `C86_cp_dt`. -/
theorem C86_tucker_dt {e : LogEnv ℝ} (h0 : e.rank0 = true) (hb : e.bench = false) (w : Stream ℝ)
    (h : alsTuckerDTC k V t mi rp fuel core W = .ok rt) :
    ∃ w', alsTuckerDTL e k V t mi rp fuel core W w = .ok (rt, w') ∧ Extended w w' (.heading true :: llText e rt.rows) := by
  refine ⟨_, alsTuckerDTL_ok e w h, ?_⟩
  unfold endLog putHeadingT Extended
  rw [llTextT_eq h0 hb, if_neg (by rw [hb]; simp), if_neg (by rw [hb]; simp), put_eq, puts_puts]
  refine ⟨rfl, ?_⟩
  obtain ⟨b, l⟩ := w
  cases b <;> rfl

/-- **C86 (`alsTucker_DT`, other ranks: violated).** Unlike all other drivers, `alsTucker_DT` writes the heading on *every* rank. -/
theorem C86_tucker_dt_other_ranks {e : LogEnv ℝ} (h0 : e.rank0 = false) (hb : e.bench = false) (w : Stream ℝ)
    (h : alsTuckerDTC k V t mi rp fuel core W = .ok rt) :
    ∃ w', alsTuckerDTL e k V t mi rp fuel core W w = .ok (rt, w') ∧ Extended w w' [.heading true] := by
  refine ⟨_, alsTuckerDTL_ok e w h, ?_⟩
  have ht : (rt.rows.flatMap fun x => testLinesT e x.1 x.1 x.2.1 x.2.2) = [] := by
    rw [List.flatMap_eq_nil_iff]
    intro x _
    unfold testLinesT rowLines
    simp [h0]
  unfold endLog putHeadingT Extended
  rw [ht, puts_nil, if_neg (by rw [hb]; simp), if_neg (by rw [hb]; simp), put_eq]
  refine ⟨rfl, ?_⟩
  obtain ⟨b, l⟩ := w
  cases b <;> rfl

end Legacy

/-! ## Several ranks, one file -/

theorem flush_take {L : Type} {T : List L} {m p : ℕ} (hm : m ≤ T.length) (hp : p ≤ m) {c : List L} {n : ℕ}
    (hc : c = (T.drop p).take n) : Spec.writeAt (T.take m) p c = T.take (max m (p + c.length)) := by
  have hlen : c.length = min n (T.length - p) := by rw [hc]; simp
  have hc' : c = (T.drop p).take c.length := by rw [hlen, hc]; simp
  unfold Spec.writeAt
  rw [List.take_take, min_eq_left hp]
  have hpc : p + c.length ≤ T.length := by omega
  have e1 : T.take p ++ c = T.take (p + c.length) := by
    conv_lhs => rw [hc']
    rw [List.take_add]
  rw [e1]
  by_cases h : m ≤ p + c.length
  · rw [max_eq_right h, List.drop_eq_nil_of_le (by simp; omega), List.append_nil]
  · have h := not_le.1 h
    rw [max_eq_left h.le]
    conv_rhs => rw [show m = (p + c.length) + (m - (p + c.length)) by omega, List.take_add]
    rw [List.drop_take]

/-- **C86 (a shared file).** All ranks open the same file and write to it, each at its own offset, in any order and in pieces of any
size.  If what every rank writes begins what rank 0 writes, the file is at any time a beginning of the text of rank 0, and it is that
text when all have written everything: the additional headings of `alsTucker_DT` do no harm.  (All ranks have opened, i.e. truncated,
the file before the first piece is written.) -/
theorem C86_shared_file {L : Type} (texts : ℕ → List L) (hp : ∀ q, texts q <+: texts 0) (sched : List (ℕ × ℕ)) :
    (Spec.flushAll texts sched).1 <+: texts 0 ∧
      (((Spec.flushAll texts sched).2 0).pos = (texts 0).length → (Spec.flushAll texts sched).1 = texts 0) := by
  have key : ∃ m ≤ (texts 0).length, (Spec.flushAll texts sched).1 = (texts 0).take m ∧
      ∀ q, ((Spec.flushAll texts sched).2 q).text = texts q ∧ ((Spec.flushAll texts sched).2 q).pos ≤ m ∧
        ((Spec.flushAll texts sched).2 q).pos ≤ (texts q).length := by
    induction sched using List.reverseRecOn with
    | nil => exact ⟨0, Nat.zero_le _, by simp [Spec.flushAll], fun q => ⟨rfl, le_rfl, Nat.zero_le _⟩⟩
    | append_singleton l x ih =>
      obtain ⟨m, hm, h1, h2⟩ := ih
      have hfa : Spec.flushAll texts (l ++ [x]) = Spec.flush (Spec.flushAll texts l) x.1 x.2 := by
        unfold Spec.flushAll
        rw [List.foldl_append]
        rfl
      rw [hfa]
      generalize Spec.flushAll texts l = st at h1 h2
      obtain ⟨r, n⟩ := x
      obtain ⟨t1, t2, t3⟩ := h2 r
      set p := (st.2 r).pos with hpdef
      let c := ((texts r).drop p).take n
      have hcl : p + c.length ≤ (texts r).length := by simp only [c, List.length_take, List.length_drop]; omega
      obtain ⟨z, hz⟩ := hp r
      have hc : c = ((texts 0).drop p).take c.length := by
        rw [← hz, List.drop_append_of_le_length t3, List.take_append_of_le_length (by
          simp only [List.length_drop]; omega)]
        refine List.take_eq_take_iff.2 ?_
        simp only [c, List.length_take, List.length_drop]
        omega
      have h0 : (texts r).length ≤ (texts 0).length := (hp r).length_le
      refine ⟨max m (p + c.length), by omega, ?_, fun q => ?_⟩
      · simp only [Spec.flush, t1, ← hpdef]
        rw [h1]
        exact flush_take hm t2 hc
      · simp only [Spec.flush, t1, ← hpdef]
        by_cases hq : q = r
        · rw [if_pos hq, hq]
          exact ⟨rfl, le_max_right _ _, hcl⟩
        · rw [if_neg hq]
          obtain ⟨a, b, d⟩ := h2 q
          exact ⟨a, b.trans (le_max_left _ _), d⟩
  obtain ⟨m, hm, h1, h2⟩ := key
  refine ⟨by rw [h1]; exact List.take_prefix _ _, fun h => ?_⟩
  have := (h2 0).2.1
  rw [h1, show m = (texts 0).length by omega, List.take_length]

/-! ## The pairwise perturbation drivers -/

section PP

variable {σ : Type} {t : Cmp ℝ} {ten : ℝ} {c : PPCtl} {h : PPHooks σ} {fuel : ℕ} {st : σ} {r : PPRun σ} {ret : Bool}

theorem ppDriverL_ok (e : LogEnv ℝ) (w : Stream ℝ) (hr : ppDriverC t ten c h fuel st = .ok (r, ret)) :
    ppDriverL e t ten c h fuel st w = .ok ((r, ret), endLog { e with bench := c.bench }
      ((putHeading { e with bench := c.bench } c.tucker w).puts (replay { e with bench := c.bench } c.maxiter r.trace).2.2)) := by
  unfold ppDriverC at hr
  unfold ppDriverL
  set e' : LogEnv ℝ := { e with bench := c.bench } with he'
  simp only [bind, Except.bind, pure, Except.pure] at hr ⊢
  cases h0 : ppDriverLoopC t c h fuel fuel ⟨0, ten, 0, st, []⟩ with
  | error er => rw [h0] at hr; cases hr
  | ok r1 =>
    rw [h0] at hr
    obtain ⟨rfl, rfl⟩ := Prod.mk.inj (Except.ok.inj hr)
    obtain ⟨y, h1, h2, h3⟩ := sim_ok (ppDriverLoopL_sim (e := e') (w0 := putHeading e' c.tucker w) fuel fuel
      (x := (⟨0, ten, 0, st, []⟩, putHeading e' c.tucker w)) ⟨rfl, by rw [show (replay e' c.maxiter ([] : List (PPEv ℝ))).2.2 = [] from rfl,
        puts_nil]⟩) h0
    rw [← he'] at *
    rw [h1]
    simp only
    rw [h3.out, h2]

/-- **C86 (the PP drivers).** `alsCP_PP`, `alsCP_PP_partupdate`, `alsTucker_PP` without `bench`, on rank 0 with an open file: the heading,
then one line per test of either phase, in the order of the tests, the fifth column telling the phases apart, with the time of that test
and an empty line after iterations that are positive multiples of 100; then the file is closed.  A closed stream stays as it is. -/
theorem C86_pp {e : LogEnv ℝ} (h0 : e.rank0 = true) (hb : c.bench = false) (w : Stream ℝ)
    (hr : ppDriverC t ten c h fuel st = .ok (r, ret)) :
    ∃ w', ppDriverL e t ten c h fuel st w = .ok ((r, ret), w') ∧
      Extended w w' (.heading c.tucker :: Spec.logText (fun x => x.1.1)
        (fun x => .row e.dim x.1.1 x.1.2.1 e.tol x.1.2.2.1 x.1.2.2.2 (e.dtime x.2)) .blank (rowsOf r.trace).zipIdx) := by
  refine ⟨_, ppDriverL_ok e w hr, ?_⟩
  have := replay_rows (e := { e with bench := c.bench }) h0 hb c.maxiter r.trace
  unfold endLog putHeading Extended
  rw [this, if_neg (show ¬ c.bench = true by rw [hb]; simp), if_pos ⟨hb, h0⟩, put_eq, puts_puts]
  refine ⟨rfl, ?_⟩
  obtain ⟨b, l⟩ := w
  cases b <;> rfl

/-- **C86 (the PP drivers, other ranks).** The other ranks write nothing. -/
theorem C86_pp_other_ranks {e : LogEnv ℝ} (h0 : e.rank0 = false) (w : Stream ℝ)
    (hr : ppDriverC t ten c h fuel st = .ok (r, ret)) :
    ∃ w', ppDriverL e t ten c h fuel st w = .ok ((r, ret), w') ∧ w'.lines = w.lines ∧ w'.isOpen = (c.bench && w.isOpen) := by
  refine ⟨_, ppDriverL_ok e w hr, ?_⟩
  have := replay_others (e := { e with bench := c.bench }) h0 c.maxiter r.trace
  unfold endLog putHeading
  rw [this, puts_nil, if_neg (show ¬ (c.bench = false ∧ e.rank0 = true) by rw [h0]; simp)]
  cases hb : c.bench <;> simp [Model.Stream.close]

/-- What a benchmark run with the tests `tr` writes: nothing without a test at iteration `maxiter`; otherwise the time of that test plus
the time of the test before it, if there is one since the operators were built, and the time of that test. -/
def BenchText (time : ℕ → ℝ) (maxiter : ℤ) (tr : List PPEv) (l : List (LogLine ℝ)) : Prop :=
  ((∀ x ∈ rowsOf tr, (x.1 : ℤ) ≠ maxiter) ∧ l = []) ∨
    ∃ (tr1 : List PPEv) (it : ℕ) (g d : ℝ) (tr2 : List PPEv), tr = tr1 ++ .row it g true d :: tr2 ∧ (it : ℤ) = maxiter ∧ (∀ x ∈ rowsOf tr1, (x.1 : ℤ) < maxiter) ∧ rowsOf tr2 = [] ∧
      l = [.ppFirst ((if phaseTests tr1 = 0 then 0 else time ((rowsOf tr1).length - 1)) + time (rowsOf tr1).length),
        .ppSecond (time (rowsOf tr1).length)]

theorem benchText {e : LogEnv ℝ} (h0 : e.rank0 = true) (hb : c.bench = true) (hr : ppDriverC t ten c h fuel st = .ok (r, ret)) :
    BenchText e.dtime c.maxiter r.trace (replay { e with bench := c.bench } c.maxiter r.trace).2.2 := by
  have hT : TestsUpTo c.maxiter r.trace r.iter := by
    unfold ppDriverC at hr
    simp only [bind, Except.bind, pure, Except.pure] at hr
    cases h0 : ppDriverLoopC t c h fuel fuel ⟨0, ten, 0, st, []⟩ with
    | error er => rw [h0] at hr; cases hr
    | ok r1 =>
      rw [h0] at hr
      obtain ⟨rfl, rfl⟩ := Prod.mk.inj (Except.ok.inj hr)
      exact ppDriverLoopC_tests hb fuel fuel (r := ⟨0, ten, 0, st, []⟩) ⟨List.Pairwise.nil, fun x hx => by cases hx⟩ h0
  by_cases hx : ∀ x ∈ rowsOf r.trace, (x.1 : ℤ) ≠ c.maxiter
  · left
    refine ⟨hx, ?_⟩
    rw [replay_before (e := { e with bench := c.bench }) h0 hb r.trace fun x hx' => ⟨hx x hx', (hT.2 x hx').2.2⟩]
  · right
    push Not at hx
    obtain ⟨x, x1, x2⟩ := hx
    obtain ⟨v, v1, v2⟩ := List.mem_filterMap.1 x1
    cases v with
    | row it g pp d =>
      have hxe : (it, g, pp, d) = x := by simpa [rowOf] using v2
      subst hxe
      obtain ⟨tr1, tr2, htr⟩ := List.append_of_mem v1
      have hpp : pp = true := (hT.2 _ x1).2.2
      subst hpp
      have hrows : rowsOf r.trace = rowsOf tr1 ++ (it, g, true, d) :: rowsOf tr2 := by
        rw [htr]
        unfold rowsOf
        rw [List.filterMap_append, List.filterMap_cons]
        rfl
      have hP := hT.1
      rw [hrows, List.pairwise_append] at hP
      obtain ⟨-, p2, p3⟩ := hP
      have h1 : ∀ x ∈ rowsOf tr1, (x.1 : ℤ) < c.maxiter := by
        intro y hy
        have := p3 y hy _ (List.mem_cons_self ..)
        simp only at this x2
        omega
      have h2 : rowsOf tr2 = [] := by
        rw [List.eq_nil_iff_forall_not_mem]
        intro y hy
        have a := (List.pairwise_cons.1 p2).1 y hy
        have b := (hT.2 y (by rw [hrows]; simp [hy])).2.1
        simp only at a x2
        omega
      refine ⟨tr1, it, g, d, tr2, htr, x2, h1, h2, ?_⟩
      rw [htr]
      exact replay_bench (e := { e with bench := c.bench }) h0 hb (fun y hy => ⟨by have := h1 y hy; omega,
        (hT.2 y (by rw [hrows]; simp [hy])).2.2⟩) x2 h2
    | _ => simp [rowOf] at v2

/-- **C86 (the PP drivers, benchmark).** With `bench == true` a call adds at most the two lines `[PPfirst]` and `[PPsecond]`, once, as
`BenchText` says, and leaves the stream open. -/
theorem C86_pp_bench {e : LogEnv ℝ} (h0 : e.rank0 = true) (hb : c.bench = true) {w : Stream ℝ} (hw : w.isOpen = true)
    (hr : ppDriverC t ten c h fuel st = .ok (r, ret)) :
    ∃ l, ppDriverL e t ten c h fuel st w = .ok ((r, ret), ⟨true, w.lines ++ l⟩) ∧ BenchText e.dtime c.maxiter r.trace l := by
  refine ⟨_, ?_, benchText h0 hb hr⟩
  rw [ppDriverL_ok e w hr]
  unfold endLog putHeading Model.Stream.puts
  rw [if_pos (show c.bench = true from hb), if_neg (show ¬ (c.bench = false ∧ e.rank0 = true) by rw [hb]; simp), if_pos hw, hw]

end PP

/-! ## pp_bench.cxx -/

theorem sim_map {α β γ : Type} {a : Except Fault α} {b : Except Fault β} {f : β → α} {P : β → Prop} {g : β → γ} {f' : γ → α} {Q : γ → Prop}
    (h : Sim a b f P) (hf : ∀ y, f' (g y) = f y) (hQ : ∀ y, P y → Q (g y)) : Sim a (b >>= fun y => pure (g y)) f' Q := by
  rcases h with ⟨e, rfl, rfl⟩ | ⟨y, rfl, rfl, hp⟩
  · exact .inl ⟨e, rfl, rfl⟩
  · exact .inr ⟨g y, rfl, by rw [hf], hQ y hp⟩

theorem sim_repeat {α : Type} {f : α → ℕ → Except Fault α} {body : ℕ → α × Stream ℝ → Except Fault (α × Stream ℝ)}
    {P : ℕ → α × Stream ℝ → Prop} (hs : ∀ i s w, P i (s, w) → Sim (f s i) (body i (s, w)) Prod.fst (P (i + 1))) {s : α} {w : Stream ℝ}
    (h0 : P 0 (s, w)) : ∀ n, Sim ((List.range n).foldlM f s) (repeatL n body (s, w)) Prod.fst (P n) := by
  intro n
  induction n with
  | zero => exact sim_pure _ rfl h0
  | succ n ih =>
    unfold repeatL at ih ⊢
    rw [List.range_succ, List.foldlM_append, List.foldlM_append]
    refine sim_bind ih fun y hy => ?_
    rw [List.foldlM_cons, List.foldlM_cons]
    obtain ⟨y1, y2⟩ := y
    rcases hs n y1 y2 hy with ⟨e, h1, h2⟩ | ⟨z, h1, h2, h3⟩
    · rw [h1, h2]; exact .inl ⟨e, rfl, rfl⟩
    · rw [h1, h2]; exact .inr ⟨z, rfl, rfl, h3⟩

/-- The lines of repetition `i` of the dimension tree benchmark: the time of the test at iteration 1, if there is one. -/
def dtBenchText (time : ℕ → ℕ → ℝ) (iters : List ℕ) : List (LogLine ℝ) :=
  iters.zipIdx.flatMap fun x => if x.1 = 0 then [] else [.dtTime (time x.2 1)]

theorem dtBenchText_snoc (time : ℕ → ℕ → ℝ) (l : List ℕ) (j : ℕ) :
    dtBenchText time (l ++ [j]) = dtBenchText time l ++ if j = 0 then [] else [.dtTime (time l.length 1)] := by
  unfold dtBenchText
  rw [List.zipIdx_append, List.flatMap_append]
  simp

theorem cp_bench_lines {e : LogEnv ℝ} (h0 : e.rank0 = true) (hb : e.bench = true) {N R : ℕ} {lam : ℝ} {solve : Spec.Solver ℝ}
    {V : Tensor ℝ} {F : List (Tensor ℝ)} {t : Cmp ℝ} {rp : ℤ} {fuel : ℕ} {f : Fac ℝ} {r : LLEnd (Fac ℝ)}
    (h : alsCPDTC N R lam solve V F t 1 rp fuel f = .ok r) :
    (r.rows.flatMap fun x => testLines e x.1 x.1 x.2.1 x.2.2) = if r.iter = 0 then [] else [.dtTime (e.dtime 1)] := by
  classical
  have e1 : (r.rows.flatMap fun x => testLines e x.1 x.1 x.2.1 x.2.2) =
      (r.rows.map Prod.fst).flatMap fun i => if i = 0 then [] else [.dtTime (e.dtime i)] := by
    rw [List.flatMap_map]
    congr 1
    funext x
    unfold testLines
    rw [if_pos hb]
    by_cases hx : x.1 = 0
    · rw [if_pos hx, if_neg (by simp [hx])]
    · rw [if_neg hx, if_pos ⟨h0, hx⟩]
  obtain ⟨a1, a2, a3⟩ := llLoopC_rows _ h rfl
  obtain ⟨b1, -⟩ := llLoopC_exit _ h (by norm_num)
  have c0 : (cpDTHooks N R lam solve V F ⟨0, 0, 1, rp⟩).checked 0 := by left; simp
  have c1 : (cpDTHooks N R lam solve V F ⟨0, 0, 1, rp⟩).checked 1 := by right; simp
  have hr1 : (List.range 1).filter (fun j => decide ((cpDTHooks N R lam solve V F ⟨0, 0, 1, rp⟩).checked j)) = [0] := by
    rw [List.range_succ, List.range_zero]; simp [c0]
  have hr2 : (List.range 2).filter (fun j => decide ((cpDTHooks N R lam solve V F ⟨0, 0, 1, rp⟩).checked j)) = [0, 1] := by
    rw [List.range_succ, List.range_succ, List.range_zero]; simp [c0, c1]
  rw [e1, a1]
  by_cases hbr : r.broke = true
  · rw [if_pos hbr]
    have := (a3 hbr).1
    rcases (show r.iter = 0 ∨ r.iter = 1 by omega) with hi | hi
    · rw [hi, hr1]; rfl
    · rw [hi, hr2]; rfl
  · rw [if_neg hbr]
    have := a2 (by simpa using hbr)
    have hi : r.iter = 2 := by omega
    rw [hi, hr2]; rfl

theorem tuck_bench_lines {e : LogEnv ℝ} (h0 : e.rank0 = true) (hb : e.bench = true) {V : Tensor ℝ} {k : Kern ℝ} {t : Cmp ℝ} {rp : ℤ}
    {fuel : ℕ} {core : Tensor ℝ} {W : List (Tensor ℝ)} {r : LLEnd TuckState} (h : alsTuckerDTC k V t 1 rp fuel core W = .ok r) :
    (r.rows.flatMap fun x => testLinesT e x.1 x.1 x.2.1 x.2.2) = [.dtTime (e.dtime 1)] ∧ r.iter ≠ 0 := by
  classical
  have e1 : (r.rows.flatMap fun x => testLinesT e x.1 x.1 x.2.1 x.2.2) =
      (r.rows.map Prod.fst).map fun i => .dtTime (e.dtime i) := by
    rw [List.map_eq_flatMap, List.flatMap_map]
    congr 1
    funext x
    unfold testLinesT
    rw [if_pos hb, if_pos h0]
  obtain ⟨a1, a2, a3⟩ := llLoopC_rows _ h rfl
  obtain ⟨b1, -⟩ := llLoopC_exit _ h (by norm_num)
  have c0 : ¬ (tuckDTHooks k V ⟨0, 0, 1, rp⟩).checked 0 := by
    intro hc
    rcases hc with hc | hc | hc <;> simp at hc
  have c1 : (tuckDTHooks k V ⟨0, 0, 1, rp⟩).checked 1 := by right; left; rfl
  have hr2 : (List.range 2).filter (fun j => decide ((tuckDTHooks k V ⟨0, 0, 1, rp⟩).checked j)) = [1] := by
    rw [List.range_succ, List.range_succ, List.range_zero]; simp [c0, c1]
  rw [e1, a1]
  by_cases hbr : r.broke = true
  · rw [if_pos hbr]
    have := a3 hbr
    rcases (show r.iter = 0 ∨ r.iter = 1 by omega) with hi | hi
    · rw [hi] at this; exact absurd this.2 c0
    · rw [hi, hr2]; exact ⟨rfl, by omega⟩
  · rw [if_neg hbr]
    have := a2 (by simpa using hbr)
    have hi : r.iter = 2 := by omega
    rw [hi, hr2]; exact ⟨rfl, by omega⟩

/-- The file of pp_bench.cxx: heading, the lines `D` of the first benchmark, an empty line, the pieces `P` of the repetitions of the second,
an empty line. -/
def benchFile (D : List (LogLine ℝ)) (P : List (List (LogLine ℝ))) : List (LogLine ℝ) :=
  .timetype :: D ++ .blank :: P.flatten ++ [.blank]

/-- The pieces of the repetitions of the second benchmark. -/
def PPPieces (time : ℕ → ℕ → ℝ) (traces : List (List PPEv)) (P : List (List (LogLine ℝ))) : Prop :=
  P.length = traces.length ∧ ∀ i (h : i < traces.length) (h' : i < P.length), BenchText (time i) 1 traces[i] P[i]

theorem PPPieces.snoc {time : ℕ → ℕ → ℝ} {traces : List (List PPEv)} {P : List (List (LogLine ℝ))} (h : PPPieces time traces P)
    {tr : List PPEv} {l : List (LogLine ℝ)} (hl : BenchText (time traces.length) 1 tr l) : PPPieces time (traces ++ [tr]) (P ++ [l]) := by
  refine ⟨by simp [h.1], fun i h1 h2 => ?_⟩
  by_cases hi : i < traces.length
  · rw [List.getElem_append_left hi, List.getElem_append_left (by rw [h.1]; exact hi)]
    exact h.2 i hi _
  · have : i = traces.length := by simp only [List.length_append, List.length_singleton] at h1; omega
    subst this
    rw [List.getElem_append_right le_rfl, List.getElem_append_right (by rw [h.1])]
    simp only [h.1, Nat.sub_self, List.getElem_singleton]
    exact hl

section Main

variable {E : MainEnv} {clkD clkP timeD timeP : ℕ → ℕ → ℝ} {fuel : ℕ} {o : Opts} {V : Tensor ℝ}

theorem putMain_eq (l : LogLine ℝ) (w : Stream ℝ) : putMain true l w = w.puts [l] := rfl

theorem alsCPDTL_sim (e : LogEnv ℝ) (w : Stream ℝ) {N R : ℕ} {lam : ℝ} {solve : Spec.Solver ℝ} {F : List (Tensor ℝ)} {t : Cmp ℝ} {mi rp : ℤ}
    {f : Fac ℝ} : Sim (alsCPDTC N R lam solve V F t mi rp fuel f) (alsCPDTL e N R lam solve V F t mi rp fuel f w) Prod.fst
      (fun y => alsCPDTC N R lam solve V F t mi rp fuel f = .ok y.1 ∧
        y.2 = endLog e ((putHeading e false w).puts (y.1.rows.flatMap fun x => testLines e x.1 x.1 x.2.1 x.2.2))) := by
  cases h : alsCPDTC N R lam solve V F t mi rp fuel f with
  | error er =>
    rcases llLoopL_sim (putTest e) (testLines e) (fun i s m d w => putTest_eq e i s m d w) t mi rp
      (cpDTHooks N R lam solve V F ⟨0, 0, mi, rp⟩) (putHeading e false w) fuel 0 f [] with ⟨e', h1, h2⟩ | ⟨y, h1, h2, h3⟩
    · left
      rw [List.flatMap_nil, puts_nil] at h2
      have : er = e' := by
        have h' := h
        unfold alsCPDTC at h'
        rw [h1] at h'
        injection h' with h'
        exact h'.symm
      subst this
      refine ⟨er, rfl, ?_⟩
      unfold alsCPDTL
      rw [h2]; rfl
    · have h' := h
      unfold alsCPDTC at h'
      rw [h2] at h'
      cases h'
  | ok r => exact .inr ⟨_, alsCPDTL_ok e w h, rfl, rfl, rfl⟩

theorem alsTuckerDTL_sim (e : LogEnv ℝ) (w : Stream ℝ) {k : Kern ℝ} {t : Cmp ℝ} {mi rp : ℤ} {core : Tensor ℝ} {W : List (Tensor ℝ)} :
    Sim (alsTuckerDTC k V t mi rp fuel core W) (alsTuckerDTL e k V t mi rp fuel core W w) Prod.fst
      (fun y => alsTuckerDTC k V t mi rp fuel core W = .ok y.1 ∧
        y.2 = endLog e ((putHeadingT e w).puts (y.1.rows.flatMap fun x => testLinesT e x.1 x.1 x.2.1 x.2.2))) := by
  cases h : alsTuckerDTC k V t mi rp fuel core W with
  | error er =>
    rcases llLoopL_sim (putTestT e) (testLinesT e) (fun i s m d w => putTestT_eq e i s m d w) t mi rp
      (tuckDTHooks k V ⟨0, 0, mi, rp⟩) (putHeadingT e w) fuel 0 ⟨W, core, core⟩ [] with ⟨e', h1, h2⟩ | ⟨y, h1, h2, h3⟩
    · left
      rw [List.flatMap_nil, puts_nil] at h2
      have : er = e' := by
        have h' := h
        unfold alsTuckerDTC at h'
        rw [h1] at h'
        injection h' with h'
        exact h'.symm
      subst this
      refine ⟨er, rfl, ?_⟩
      unfold alsTuckerDTL
      rw [h2]; rfl
    · have h' := h
      unfold alsTuckerDTC at h'
      rw [h2] at h'
      cases h'
  | ok r => exact .inr ⟨_, alsTuckerDTL_ok e w h, rfl, rfl, rfl⟩

theorem ppDriverL_sim {σ : Type} (e : LogEnv ℝ) (w : Stream ℝ) {t : Cmp ℝ} {ten : ℝ} {c : PPCtl} {h : PPHooks σ} {st : σ}
    (hb : c.bench = true) (h0 : e.rank0 = true) :
    Sim (ppDriverC t ten c h fuel st) (ppDriverL e t ten c h fuel st w) Prod.fst
      (fun y => ∃ l, y.2 = w.puts l ∧ BenchText e.dtime c.maxiter y.1.1.trace l) := by
  cases hr : ppDriverC t ten c h fuel st with
  | error er =>
    left
    refine ⟨er, rfl, ?_⟩
    unfold ppDriverC at hr
    unfold ppDriverL
    simp only [bind, Except.bind, pure, Except.pure] at hr ⊢
    rcases ppDriverLoopL_sim (e := { e with bench := c.bench }) (t := t) (h := h) (w0 := putHeading { e with bench := c.bench } c.tucker w) fuel fuel
      (x := (⟨0, ten, 0, st, []⟩, putHeading { e with bench := c.bench } c.tucker w)) ⟨rfl, by
        rw [show (replay { e with bench := c.bench } c.maxiter ([] : List (PPEv ℝ))).2.2 = [] from rfl, puts_nil]⟩
      with ⟨e', h1, h2⟩ | ⟨y, h1, h2, h3⟩
    · simp only at h1
      rw [h1] at hr
      injection hr with hr
      rw [h2, hr]
    · simp only at h2
      rw [h2] at hr
      cases hr
  | ok r =>
    obtain ⟨r, ret⟩ := r
    refine .inr ⟨_, ppDriverL_ok e w hr, rfl, _, ?_, benchText h0 hb hr⟩
    unfold endLog putHeading
    rw [if_pos (show c.bench = true from hb), if_neg (show ¬ (c.bench = false ∧ e.rank0 = true) by rw [hb]; simp)]

/-- **C86 (pp_bench.cxx, `-model CP`).** For all options, tensors, clocks and times: when the benchmark ends, the file of rank 0 holds the
heading, one `[DTtime]` line for every repetition that got beyond its first test, an empty line, for every repetition of `alsCP_PP` nothing
or the pair `[PPfirst]`, `[PPsecond]`, and an empty line. -/
theorem C86_bench_cp (hC : o.model[0]? = some 'C') {d : List (LLEnd (Fac ℝ))} {p : List (PPRun CPPPState × Bool)}
    (h : benchDrive E clkD clkP fuel o V = .ok (.cp d p)) (w : Stream ℝ) :
    ∃ P, benchDriveL true timeD timeP E clkD clkP fuel o V w =
        .ok (.cp d p, w.puts (benchFile (dtBenchText timeD (d.map LLEnd.iter)) P)) ∧
      PPPieces timeP (p.map fun x => x.1.trace) P := by
  have key : Sim (benchDrive E clkD clkP fuel o V) (benchDriveL true timeD timeP E clkD clkP fuel o V w) Prod.fst (fun y => ∃ d p P,
      y.1 = .cp d p ∧ y.2 = w.puts (benchFile (dtBenchText timeD (d.map LLEnd.iter)) P) ∧
        PPPieces timeP (p.map fun x => x.1.trace) P) := by
    unfold benchDrive benchDriveL
    simp only
    rw [if_pos hC, if_pos hC]
    refine sim_bind (f := Prod.fst) (P := fun y => y.2 = w.puts (.timetype :: dtBenchText timeD (y.1.2.2.map LLEnd.iter))) ?_ fun y hy => ?_
    · unfold benchCPDT
      have := sim_repeat (P := fun i y => y.1.2.2.length = i ∧
          y.2 = w.puts (.timetype :: dtBenchText timeD (y.1.2.2.map LLEnd.iter)))
        (f := fun (s : List (Tensor ℝ) × List (Tensor ℝ) × List (LLEnd (Fac ℝ))) (i : ℕ) => do
          let r ← alsCPDTC V.lens.length o.R.toNat o.lambda.toReal E.solve V (fillMats V.lens o.R.toNat fun _ _ _ => 0)
            (mixCmp (o.tol.mul (norm2 V)) o.timelimit (clkD i)) 1 o.resprint fuel ⟨s.1, s.2.1⟩
          let D ← copyMats V.lens.length r.st.W (fillMats V.lens o.R.toNat E.w0)
          pure (D, r.st.G, s.2.2 ++ [r]))
        (body := fun i s => do
          let r ← alsCPDTL ⟨true, true, 0, 0, timeD i⟩ V.lens.length o.R.toNat o.lambda.toReal E.solve V
            (fillMats V.lens o.R.toNat fun _ _ _ => 0) (mixCmp (o.tol.mul (norm2 V)) o.timelimit (clkD i)) 1 o.resprint fuel
            ⟨s.1.1, s.1.2.1⟩ s.2
          let D ← copyMats V.lens.length r.1.st.W (fillMats V.lens o.R.toNat E.w0)
          pure ((D, r.1.st.G, s.1.2.2 ++ [r.1]), r.2))
        (s := (fillMats V.lens o.R.toNat E.w0, fillMats V.lens o.R.toNat E.g0, [])) (w := putMain true .timetype w) (by
          rintro i s w1 ⟨hi, hw1⟩
          simp only at hi hw1
          subst hw1
          refine sim_bind (alsCPDTL_sim _ _) fun y hy => sim_same fun D _ => sim_pure _ rfl ⟨by simp [hi], ?_⟩
          obtain ⟨y1, y2⟩ := hy
          simp only
          rw [y2, cp_bench_lines rfl rfl y1]
          unfold endLog putHeading
          simp only [if_true, Bool.true_eq_false, false_and, if_false]
          rw [puts_puts, List.map_append, List.map_cons, List.map_nil, dtBenchText_snoc, List.length_map, hi]
          rfl) ⟨rfl, rfl⟩ o.maxiter.toNat
      rcases this with h | ⟨y, y1, y2, y3⟩
      · exact .inl h
      · exact .inr ⟨y, y1, y2, y3.2⟩
    · refine sim_bind (f := Prod.fst) (P := fun z => ∃ P, PPPieces timeP (z.1.2.2.map fun x => x.1.trace) P ∧
        z.2 = w.puts (.timetype :: dtBenchText timeD (y.1.2.2.map LLEnd.iter) ++ .blank :: P.flatten)) ?_ fun z hz => ?_
      · unfold benchCPPP
        have := sim_repeat (P := fun i z => z.1.2.2.length = i ∧ ∃ P, PPPieces timeP (z.1.2.2.map fun x => x.1.trace) P ∧
            z.2 = w.puts (.timetype :: dtBenchText timeD (y.1.2.2.map LLEnd.iter) ++ .blank :: P.flatten))
          (f := fun (s : List (Tensor ℝ) × List (Tensor ℝ) × List (PPRun CPPPState × Bool)) (i : ℕ) => do
            let r ← alsCPPPC E.same V.lens.length o.R.toNat o.lambda.toReal o.magni.toReal o.ppResTol.toReal E.kern V
              (mixCmp (o.tol.mul (norm2 V)) o.timelimit (clkP i)) ⟨false, 1, o.resprint, true⟩ fuel s.1 s.2.1
            let D ← copyMats V.lens.length r.1.st.W (fillMats V.lens o.R.toNat E.w0)
            pure (D, r.1.st.G, s.2.2 ++ [r]))
          (body := fun i s => do
            let r ← ppDriverL ⟨true, true, 0, 0, timeP i⟩ (mixCmp (o.tol.mul (norm2 V)) o.timelimit (clkP i)) 10
              ⟨false, 1, o.resprint, true⟩
              (cpPPHooks E.same V.lens.length o.R.toNat o.lambda.toReal o.magni.toReal o.ppResTol.toReal E.kern V) fuel
              ⟨s.1.1, s.1.2.1, s.1.1.map zerosLike, [], [], []⟩ s.2
            let D ← copyMats V.lens.length r.1.1.st.W (fillMats V.lens o.R.toNat E.w0)
            pure ((D, r.1.1.st.G, s.1.2.2 ++ [r.1]), r.2))
          (s := (fillMats V.lens o.R.toNat E.w0, y.1.2.1, [])) (w := putMain true .blank y.2) (by
            rintro i s w1 ⟨hi, P, hP, hw1⟩
            simp only at hi hP hw1
            subst hw1
            unfold alsCPPPC
            refine sim_bind (ppDriverL_sim _ _ rfl rfl) fun z hz => sim_same fun D _ => sim_pure _ rfl ⟨by simp [hi], ?_⟩
            obtain ⟨l, l1, l2⟩ := hz
            refine ⟨P ++ [l], ?_, ?_⟩
            · simp only [List.map_append, List.map_cons, List.map_nil]
              refine hP.snoc ?_
              rw [List.length_map, hi]
              exact l2
            · simp only [l1, puts_puts, List.flatten_append, List.flatten_cons, List.flatten_nil, List.append_nil, List.append_assoc,
                List.cons_append])
          ⟨rfl, [], ⟨rfl, fun i h => absurd h (by simp)⟩, by rw [putMain_eq, hy, puts_puts]; rfl⟩ o.maxiter.toNat
        rcases this with h | ⟨y, y1, y2, y3⟩
        · exact .inl h
        · exact .inr ⟨y, y1, y2, y3.2⟩
      · obtain ⟨P, hP, hz⟩ := hz
        refine sim_pure _ rfl ⟨_, _, P, rfl, ?_, hP⟩
        simp only
        rw [putMain_eq, hz, puts_puts]
        rfl
  obtain ⟨y, y1, y2, d', p', P, y3, y4, y5⟩ := sim_ok key h
  obtain ⟨a, b⟩ := y
  simp only at y2 y3 y4
  rw [y2] at y3
  injection y3 with y6 y7
  subst y6 y7
  subst y2
  exact ⟨P, by rw [y1, y4], y5⟩

/-- **C86 (pp_bench.cxx, `-model Tucker`).** As `C86_bench_cp`; here every repetition of `alsTucker_DT` writes its line. -/
theorem C86_bench_tucker (hT : o.model[0]? = some 'T') {d : List (LLEnd TuckState)} {p : List (PPRun TuckPPState × Bool)}
    (h : benchDrive E clkD clkP fuel o V = .ok (.tucker d p)) (w : Stream ℝ) :
    ∃ P, benchDriveL true timeD timeP E clkD clkP fuel o V w =
        .ok (.tucker d p, w.puts (benchFile (dtBenchText timeD (d.map LLEnd.iter)) P)) ∧
      PPPieces timeP (p.map fun x => x.1.trace) P ∧ ∀ x ∈ d, x.iter ≠ 0 := by
  have hC : ¬ o.model[0]? = some 'C' := by rw [hT]; simp
  have key : Sim (benchDrive E clkD clkP fuel o V) (benchDriveL true timeD timeP E clkD clkP fuel o V w) Prod.fst (fun y => ∃ d p P,
      y.1 = .tucker d p ∧ y.2 = w.puts (benchFile (dtBenchText timeD (d.map LLEnd.iter)) P) ∧
        PPPieces timeP (p.map fun x => x.1.trace) P ∧ ∀ x ∈ d, x.iter ≠ 0) := by
    unfold benchDrive benchDriveL
    simp only
    rw [if_neg hC, if_neg hC, if_pos hT, if_pos hT]
    refine sim_same fun core _ => ?_
    refine sim_bind (f := Prod.fst) (P := fun y => (∀ x ∈ y.1.2.2, x.iter ≠ 0) ∧
      y.2 = w.puts (.timetype :: dtBenchText timeD (y.1.2.2.map LLEnd.iter))) ?_ fun y hy => ?_
    · unfold benchTuckDT
      have := sim_repeat (P := fun i y => y.1.2.2.length = i ∧ (∀ x ∈ y.1.2.2, x.iter ≠ 0) ∧
          y.2 = w.puts (.timetype :: dtBenchText timeD (y.1.2.2.map LLEnd.iter)))
        (f := fun (s : List (Tensor ℝ) × Tensor ℝ × List (LLEnd TuckState)) (i : ℕ) => do
          let D ← copyMats V.lens.length s.1 (fillMats V.lens o.R.toNat E.w0)
          let r ← alsTuckerDTC E.kern V (mixCmp (o.tol.mul (norm2 V)) o.timelimit (clkD i)) 1 o.resprint fuel s.2.1 D
          pure (r.st.W, r.st.core, s.2.2 ++ [r]))
        (body := fun i s => do
          let D ← copyMats V.lens.length s.1.1 (fillMats V.lens o.R.toNat E.w0)
          let r ← alsTuckerDTL ⟨true, true, 0, 0, timeD i⟩ E.kern V (mixCmp (o.tol.mul (norm2 V)) o.timelimit (clkD i)) 1 o.resprint fuel
            s.1.2.1 D s.2
          pure ((r.1.st.W, r.1.st.core, s.1.2.2 ++ [r.1]), r.2))
        (s := (fillMats V.lens o.R.toNat E.w0, core, [])) (w := putMain true .timetype w) (by
          rintro i s w1 ⟨hi, hn, hw1⟩
          simp only at hi hn hw1
          subst hw1
          refine sim_same fun D _ => sim_bind (alsTuckerDTL_sim _ _) fun y hy => ?_
          obtain ⟨y1, y2⟩ := hy
          obtain ⟨z1, z2⟩ := tuck_bench_lines (e := ⟨true, true, 0, 0, timeD i⟩) rfl rfl y1
          refine sim_pure _ rfl ⟨by simp [hi], ?_, ?_⟩
          · intro x hx
            simp only [List.mem_append, List.mem_singleton] at hx
            rcases hx with hx | rfl
            · exact hn x hx
            · exact z2
          simp only
          rw [y2, z1]
          unfold endLog putHeadingT
          simp only [if_true]
          rw [puts_puts, List.map_append, List.map_cons, List.map_nil, dtBenchText_snoc, List.length_map, hi, if_neg z2]
          rfl) ⟨rfl, by intro x hx; simp at hx, rfl⟩ o.maxiter.toNat
      rcases this with h | ⟨y, y1, y2, y3⟩
      · exact .inl h
      · exact .inr ⟨y, y1, y2, y3.2⟩
    · refine sim_bind (f := Prod.fst) (P := fun z => ∃ P, PPPieces timeP (z.1.2.2.map fun x => x.1.trace) P ∧
        z.2 = w.puts (.timetype :: dtBenchText timeD (y.1.2.2.map LLEnd.iter) ++ .blank :: P.flatten)) ?_ fun z hz => ?_
      · unfold benchTuckPP
        have := sim_repeat (P := fun i z => z.1.2.2.length = i ∧ ∃ P, PPPieces timeP (z.1.2.2.map fun x => x.1.trace) P ∧
            z.2 = w.puts (.timetype :: dtBenchText timeD (y.1.2.2.map LLEnd.iter) ++ .blank :: P.flatten))
          (f := fun (s : List (Tensor ℝ) × Tensor ℝ × List (PPRun TuckPPState × Bool)) (i : ℕ) => do
            let D ← copyMats V.lens.length s.1 (fillMats V.lens o.R.toNat E.w0)
            let r ← alsTuckerPPC V.lens.length E.kern V o.ppResTol.toReal
              (mixCmp (o.tol.mul (norm2 V)) o.timelimit (clkP i)) ⟨false, 1, o.resprint, true⟩ fuel s.2.1 D
            pure (r.1.st.W, r.1.st.core, s.2.2 ++ [r]))
          (body := fun i s => do
            let D ← copyMats V.lens.length s.1.1 (fillMats V.lens o.R.toNat E.w0)
            let r ← ppDriverL ⟨true, true, 0, 0, timeP i⟩ (mixCmp (o.tol.mul (norm2 V)) o.timelimit (clkP i)) 10
              ⟨true, 1, o.resprint, true⟩ (tuckPPHooks V.lens.length E.kern V) fuel
              ⟨D, D.map zerosLike, [], [], [], s.1.2.1, s.1.2.1, o.ppResTol.toReal⟩ s.2
            pure ((r.1.1.st.W, r.1.1.st.core, s.1.2.2 ++ [r.1]), r.2))
          (s := (fillMats V.lens o.R.toNat E.w0, y.1.2.1, [])) (w := putMain true .blank y.2) (by
            rintro i s w1 ⟨hi, P, hP, hw1⟩
            simp only at hi hP hw1
            subst hw1
            unfold alsTuckerPPC
            refine sim_same fun D _ => sim_bind (ppDriverL_sim _ _ rfl rfl) fun z hz => sim_pure _ rfl ⟨by simp [hi], ?_⟩
            obtain ⟨l, l1, l2⟩ := hz
            refine ⟨P ++ [l], ?_, ?_⟩
            · simp only [List.map_append, List.map_cons, List.map_nil]
              refine hP.snoc ?_
              rw [List.length_map, hi]
              exact l2
            · simp only [l1, puts_puts, List.flatten_append, List.flatten_cons, List.flatten_nil, List.append_nil, List.append_assoc,
                List.cons_append])
          ⟨rfl, [], ⟨rfl, fun i h => absurd h (by simp)⟩, by rw [putMain_eq, hy.2, puts_puts]; rfl⟩ o.maxiter.toNat
        rcases this with h | ⟨y, y1, y2, y3⟩
        · exact .inl h
        · exact .inr ⟨y, y1, y2, y3.2⟩
      · obtain ⟨P, hP, hz⟩ := hz
        refine sim_pure _ rfl ⟨_, _, P, rfl, ?_, hP, hy.1⟩
        simp only
        rw [putMain_eq, hz, puts_puts]
        rfl
  obtain ⟨y, y1, y2, d', p', P, y3, y4, y5, y8⟩ := sim_ok key h
  obtain ⟨a, b⟩ := y
  simp only at y2 y3 y4
  rw [y2] at y3
  injection y3 with y6 y7
  subst y6 y7
  subst y2
  exact ⟨P, by rw [y1, y4], y5, y8⟩

end Main

/-! ## Concrete cases -/

/-- A log of the unit 1 second per test. -/
def exLog : LogEnv ℝ := ⟨true, false, 4, 1, fun i => i⟩

/-- A CPD session on a 2 x 3 x 1 x 4 tensor, with an open file that already has a line. -/
example : ∃ s r w', cpdAlsL exLog .dt 4 2 3 (fun _ _ M _ => M) 1 exLRR exVR (realCmp exArgs.tol exArgs.timelimit fun k => k) exArgs.maxsweep
      exArgs.resprint (stepLimit 4 exArgs.maxsweep .dt + 1) s ⟨true, [.blank]⟩ = .ok (r, w') ∧
    w'.lines = .blank :: .heading false :: Spec.logText AlsRow.iter
        (fun x => .row 4 x.sweeps x.gradnorm 1 false x.diffV x.iter) .blank r.rows := by
  obtain ⟨o0, s, r, -, -, h, -⟩ := C18_als_terminates (kind := .dt) exFitsDT exShapedR rfl 3 (fun _ _ M _ => M) 1 exLRR (a := exArgs)
    (by simp [exArgs]) (fun k => k) 5 (Nat.lt_succ_self _)
  rw [← cpdAlsC_real] at h
  obtain ⟨w', h1, -, h2⟩ := C86_als (e := exLog) rfl rfl ⟨true, [.blank]⟩ h
  exact ⟨s, r, w', h1, h2⟩

/-- A run of the PP driver with one test. -/
example : ∃ r w', ppDriverL exLog (realCmp 1 60 fun _ => 0) 10 ⟨false, 0, 1, false⟩ exPPHooks 3 () ⟨true, []⟩ = .ok ((r, false), w') ∧
    w' = ⟨false, [.heading false, .row 4 0 5 1 false 0 0]⟩ := by
  have h := exPP_run
  rw [← ppDriverC_real] at h
  obtain ⟨w', h1, h2, h3⟩ := C86_pp (e := exLog) rfl rfl ⟨true, []⟩ h
  refine ⟨_, w', h1, ?_⟩
  obtain ⟨b, l⟩ := w'
  simp only at h2
  subst h2
  congr 1
  simp only [if_true, List.nil_append] at h3
  rw [h3, show rowsOf [PPEv.dtStart, PPEv.row 0 (5 : ℝ) false 0, PPEv.dtSweep] = [(0, 5, false, 0)] from rfl]
  simp [Spec.logText, exLog, PPCfg.ctl]

/-- Three ranks: rank 1 has written its heading again after rank 0 has written three lines. -/
example : (Spec.flushAll (fun q => if q = 0 then ['h', 'a', 'b', 'c'] else ['h']) [(0, 3), (1, 5), (0, 1), (2, 1)]).1 = ['h', 'a', 'b', 'c'] :=
  (C86_shared_file (fun q => if q = 0 then ['h', 'a', 'b', 'c'] else ['h']) (by
    intro q
    by_cases hq : q = 0
    · simp [hq]
    · simp only [if_neg hq, if_true]
      exact ⟨['a', 'b', 'c'], rfl⟩) [(0, 3), (1, 5), (0, 1), (2, 1)]).2 (by decide)

/-- `pp_bench`: the file of the run with the default options. -/
example (atof : CStr → F64) (clkD clkP timeD timeP : ℕ → ℕ → ℝ) : ∃ E o V d p P, benchOpts atof ["pp_bench".toList] = .ok o ∧
    benchDriveL true timeD timeP E clkD clkP 4 o V ⟨true, []⟩ = .ok (.cp d p, ⟨true, benchFile (dtBenchText timeD (d.map LLEnd.iter)) P⟩) ∧
    d.length = 5000 ∧ P.length = 5000 := by
  obtain ⟨k, hk⟩ := exists_kernOk
  obtain ⟨o, ho, hF0, h1, h2, h3, h4, h5, h6, h7, h8, h9⟩ := benchOpts_default atof (argv := ["pp_bench".toList]) (by decide)
  have hF : o.Finite := ⟨hF0, by rw [h8]; exact dblOpt_none _ _ _ _ (by decide), by rw [h9]; exact dblOpt_none _ _ _ _ (by decide)⟩
  have h6' : o.tensor = "p".toList := by rw [h6]; decide
  obtain ⟨i1, i2⟩ := exEnv_input (k := k) (srt := fun _ => []) h6' h1 h3
  have hbk : BenchKind o := by
    unfold BenchKind
    rw [h6']
    decide
  have hC : o.model.head? = some 'C' := by rw [h7]; decide
  obtain ⟨V, v, -, -, Gd, Gp, d, p, F, f1, f2, ops, t1, t2, e, B⟩ := C63_cp ho hF (by rw [h5]; norm_num) i1 hbk i2 (by norm_num) (by norm_num)
    (by norm_num) hC hk clkD clkP (fuel := 4) (by norm_num)
  have e' : benchDrive (exEnv k fun _ => []) clkD clkP 4 o V =
      .ok (.cp ((List.range o.maxiter.toNat).map d) ((List.range o.maxiter.toNat).map p)) := by
    unfold benchMain at e
    rw [v] at e
    simp only [bind, Except.bind, pure, Except.pure] at e
    split at e
    · cases e
    · rename_i out hout
      have := Prod.mk.inj (Except.ok.inj e)
      rw [hout, this.2]
  have hC' : o.model[0]? = some 'C' := by rw [← List.head?_eq_getElem?]; exact hC
  obtain ⟨P, a, b⟩ := C86_bench_cp (timeD := timeD) (timeP := timeP) hC' e' ⟨true, []⟩
  refine ⟨_, o, V, _, _, P, ho, a, ?_, ?_⟩
  · simp [h2]
  · rw [b.1]; simp [h2]

end Properties
