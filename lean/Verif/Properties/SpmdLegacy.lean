import Verif.Proofs.SpmdRows
import Verif.Properties.PPDriver
import Verif.Properties.LegacyLoop

/-! # C64: the legacy drivers on several MPI ranks -/

namespace Properties

open Model

variable {σ : Type} {P : ℕ}

/-- The comparisons of the ranks' clocks with the limit. -/
noncomputable def ranksLate (timelimit : ℝ) (clock : Fin P → ℕ → ℝ) : Fin P → ℕ → Bool := fun p => lateOf timelimit (clock p)

theorem lateOf_eq {l : ℝ} {a b : ℕ → ℝ} {t : ℕ} : lateOf l a t = lateOf l b t ↔ (l < a t ↔ l < b t) := by
  unfold lateOf
  rw [decide_eq_decide]

theorem map_ok {α β : Type} {x : Except Fault α} {a : α} (f : α → β) (h : x = .ok a) : x.map f = .ok (f a) := by
  rw [h]
  rfl

/-- The `t`-th line of the log of a PP driver does not end the loop by itself: the measured quantity is not below `tol` (and, in
`alsTucker_PP`, it is not the line of iteration `maxiter` in the PP phase).  Then, and only then, the clock decides. -/
def ClockDecides (c : PPCfg) (trace : List PPEv) (t : ℕ) : Prop :=
  ∃ i g pp, (ppRows trace)[t]? = some (i, g, pp) ∧ ¬ (g < c.tol ∨ (c.tucker = true ∧ pp = true ∧ (i : ℤ) = c.maxiter))

theorem clockDecides_iff {c : PPCfg} {trace : List PPEv} {t : ℕ} :
    ClockDecides c trace t ↔ ∃ x, (ppRows trace)[t]? = some x ∧ ¬ Decides c x := by
  constructor
  · rintro ⟨i, g, pp, h1, h2⟩
    exact ⟨(i, g, pp), h1, h2⟩
  · rintro ⟨⟨i, g, pp⟩, h1, h2⟩
    exact ⟨i, g, pp, h1, h2⟩

/-- The outcome of a run on `P ≥ 1` ranks is determined by the data and the clocks. -/
theorem C64_deterministic {α : Type} [NeZero P] {exec : Exec σ} {clk : Fin P → ℕ → Bool} {progs : Fin P → Prog α} {s : σ}
    {o o' : Outcome P σ α} (h : Spmd exec clk progs s o) (h' : Spmd exec clk progs s o') : o = o' := h.unique h'

/-- If the time tests that decide agree on all ranks, a PP driver does on `P` ranks what it does on one: every rank ends with the
same iteration number, log and returned value, and the data are those of the run on one rank. -/
theorem C64_pp_agree (c : PPCfg) (h : PPHooks σ) (clock : Fin P → ℕ → ℝ) (q : Fin P) (fuel : ℕ) (s : σ)
    {r : PPRun σ} {ret : Bool} (hr : ppDriver c h (clock q) fuel s = .ok (r, ret))
    (ha : ∀ t, ClockDecides c r.trace t → ∀ p, c.timelimit < clock p t ↔ c.timelimit < clock q t) :
    Spmd (ppExec h) (ranksLate c.timelimit clock) (fun _ => ppProg c fuel) s (.finished r.st fun _ => (r.loc, ret)) := by
  have h1 := ppProg_run (c := c) (h := h) (clock := clock q) fuel s
  rw [map_ok _ hr] at h1
  refine spmd_agree (clk := ranksLate c.timelimit clock) q (ppProg c fuel) s _ h1 fun t ht p => lateOf_eq.2 (ha t ?_ p)
  exact clockDecides_iff.2 ((ppProg_critical h1 t).1 ht)

/-- If in one of the time tests that decide two ranks disagree, the ranks call different collective operations.  `ref` is the
sequence of clock values of any run on one rank that the ranks follow up to test `t`. -/
theorem C64_pp_mismatch (c : PPCfg) (hp : c.resprint ≠ 0) (h : PPHooks σ) (clock : Fin P → ℕ → ℝ) (ref : ℕ → ℝ) (fuel : ℕ) (s : σ)
    {r : PPRun σ} {ret : Bool} (hr : ppDriver c h ref fuel s = .ok (r, ret)) {t : ℕ} (ht : ClockDecides c r.trace t)
    (hb : ∀ u < t, ClockDecides c r.trace u → ∀ p, c.timelimit < clock p u ↔ c.timelimit < ref u)
    {p q : Fin P} (hpq : ¬ (c.timelimit < clock p t ↔ c.timelimit < clock q t)) :
    Spmd (ppExec h) (ranksLate c.timelimit clock) (fun _ => ppProg c fuel) s .mismatch := by
  have h1 := ppProg_run (c := c) (h := h) (clock := ref) fuel s
  rw [map_ok _ hr] at h1
  exact spmd_split_at (clk := ranksLate c.timelimit clock) (lateOf c.timelimit ref) (t := t) (p := p) (q := q)
    (fun e => hpq (lateOf_eq.1 e)) _ s _ h1 (ppProg_sens hp fuel s _ h1) ((ppProg_critical h1 t).2 (clockDecides_iff.1 ht))
    (ppProg_pairwise h1) fun u hu hut p => lateOf_eq.2 (hb u hut (clockDecides_iff.2 ((ppProg_critical h1 u).1 hu)) p)

/-- If every rank is late in every time test, all ranks do together what one rank does, also if it fails: in particular the endless
loop of C31. -/
theorem C64_pp_all_late (c : PPCfg) (h : PPHooks σ) (clock : Fin P → ℕ → ℝ) (q : Fin P) (fuel : ℕ) (s : σ) {f : Fault}
    (hr : ppDriver c h (clock q) fuel s = .error f) (hl : ∀ p t, c.timelimit < clock p t) :
    Spmd (ppExec h) (ranksLate c.timelimit clock) (fun _ => ppProg c fuel) s (.fault f) := by
  have h1 := ppProg_run (c := c) (h := h) (clock := clock q) fuel s
  rw [hr] at h1
  refine spmd_agree_error (clk := ranksLate c.timelimit clock) q _ s _ h1 fun t _ p => lateOf_eq.2 ?_
  exact ⟨fun _ => hl q t, fun _ => hl p t⟩

/-- The same for `alsCP`, `alsCP_DT`, `alsTucker`, `alsTucker_DT`. -/
theorem C64_ll_agree (a : LLArgs) (h : LLHooks σ) (clock : Fin P → ℕ → ℝ) (q : Fin P) (fuel : ℕ) (s : σ) {e : LLEnd σ}
    (hr : llLoop a h (clock q) fuel 0 s [] = .ok e)
    (ha : ∀ x ∈ e.rows, a.tol ≤ x.2.1 → ∀ p, a.timelimit < clock p x.1 ↔ a.timelimit < clock q x.1) :
    Spmd (llExec h) (ranksLate a.timelimit clock) (fun _ => llProg a h.checked fuel 0 []) s
      (.finished e.st fun _ => (e.iter, e.rows, e.broke, e.ret)) := by
  have h1 := llProg_run a h (clock q) fuel 0 s []
  rw [map_ok _ hr] at h1
  refine spmd_agree (clk := ranksLate a.timelimit clock) q _ s _ h1 fun t ht p => lateOf_eq.2 ?_
  obtain ⟨new, n1, n2⟩ := llProg_critical a h.checked fuel 0 [] s _ h1
  obtain ⟨x, x1, x2, x3⟩ := (n2 t).1 ht
  subst x2
  have n1 : e.rows = [] ++ new := n1
  exact ha x (by rw [n1]; exact x1) (not_lt.1 x3) p

/-- See `C64_pp_mismatch`. -/
theorem C64_ll_mismatch (a : LLArgs) (h : LLHooks σ) (clock : Fin P → ℕ → ℝ) (q : Fin P) (fuel : ℕ) (s : σ) {e : LLEnd σ}
    (hr : llLoop a h (clock q) fuel 0 s [] = .ok e)
    (ha : ∃ x ∈ e.rows, a.tol ≤ x.2.1 ∧ ∃ p, ¬ (a.timelimit < clock p x.1 ↔ a.timelimit < clock q x.1)) :
    Spmd (llExec h) (ranksLate a.timelimit clock) (fun _ => llProg a h.checked fuel 0 []) s .mismatch := by
  have h1 := llProg_run a h (clock q) fuel 0 s []
  rw [map_ok _ hr] at h1
  obtain ⟨x, x1, x2, p, hp⟩ := ha
  obtain ⟨new, n1, n2⟩ := llProg_critical a h.checked fuel 0 [] s _ h1
  have n1 : e.rows = [] ++ new := n1
  refine spmd_disagree (clk := ranksLate a.timelimit clock) q _ s _ h1 (llProg_sens a _ _ fuel 0 [] s) ⟨x.1, (n2 x.1).2 ⟨x, ?_, rfl, not_lt.2 x2⟩, p, ?_⟩
  · rw [n1] at x1; exact x1
  · exact fun e => hp (lateOf_eq.1 e)

/-- In `bench` mode only rank 0 sets its clock back before the first time test.  On at least two ranks with identical clocks: if the
time since the start of the driver exceeds the limit while the time since the reset does not, the ranks call different collective
operations, although every rank read the same times. -/
theorem C64_bench_rank0 (c : PPCfg) (hb : c.bench = true) (hp : c.resprint ≠ 0) (hm : 1 ≤ c.maxiter) (ht : c.tol < 10)
    (h : PPHooks σ) (hP : 2 ≤ P) (clock : Fin P → ℕ → ℝ) (start b e r x : ℝ)
    (hc : ∀ p, clock p 0 = firstElapsed (decide (p.val = 0)) start b e r x)
    (h0 : x - r ≤ c.timelimit) (h1 : c.timelimit < x - (start + (e - b))) (fuel : ℕ) (s s1 s2 : σ) (g d : ℝ)
    (e1 : h.ppBegin s = .ok s1) (e2 : h.check s1 = .ok (s2, g, d)) (hg : ¬ g < c.tol) :
    Spmd (ppExec h) (ranksLate c.timelimit clock) (fun _ => ppProg c (fuel + 2)) s .mismatch := by
  have l0 : ∀ p : Fin P, ranksLate c.timelimit clock p 0 = decide (p.val ≠ 0) := by
    intro p
    unfold ranksLate lateOf
    rw [decide_eq_decide, hc p, firstElapsed]
    by_cases hp0 : p.val = 0
    · simp [hp0, h0]
    · simp [hp0, h1]
  have hd : ¬ Decides c (0, g, true) := by
    rintro (h' | ⟨_, _, h'⟩)
    · exact hg h'
    · simp only [Nat.cast_zero] at h'
      omega
  have hd' : ¬ (g < c.tol ∨ (c.tucker = true ∧ True ∧ ((0 : ℕ) : ℤ) = c.maxiter)) := by
    simpa [Decides] using hd
  set A := ppProg c (fuel + 2) with hA
  have hcheck : ppChecked c 0 0 := Or.inr rfl
  unfold ppProg ppLoopProg at hA
  rw [if_pos ⟨ht, by push_cast; omega⟩, if_pos hb] at hA
  simp only [Prog.andThen] at hA
  unfold ppSubProg at hA
  rw [if_pos (show ((0 : ℕ) : ℤ) ≤ c.maxiter by push_cast; omega), if_pos hb] at hA
  simp only [Prog.andThen, Bool.false_or, bne_self_eq_false, Bool.and_false, Bool.false_and, Bool.false_eq_true, if_false,
    if_true] at hA
  rw [hA, andThen_assoc, andThen_assoc]
  refine .call (op := .ppBegin) (fun _ => rfl) (s' := s1) (v := ()) (by simp only [ppExec, e1]; rfl) ?_
  rw [ppTestProg, if_neg hp, if_pos hcheck]
  simp only [Prog.andThen]
  refine .call (op := .check) (fun _ => rfl) (s' := s2) (v := (g, d)) (by simp only [ppExec, e2]; rfl) ?_
  dsimp only
  rw [if_neg hd']
  simp only [Prog.andThen]
  refine .late (fun _ => rfl) ?_
  refine .mismatch ⟨0, by omega⟩ ⟨1, by omega⟩ ?_ ?_
  · simp only [l0, ne_eq, not_true_eq_false, decide_false, Bool.false_eq_true, if_false, one_ne_zero, not_false_eq_true,
      decide_true, if_true, Prog.andThen]
    exact ⟨.ppSweep, rfl, (ppLoop_away hp).1⟩
  · rintro ⟨op, k, hk⟩
    have k0 := hk ⟨0, by omega⟩
    have k1 := hk ⟨1, by omega⟩
    simp only [l0, ne_eq, not_true_eq_false, decide_false, Bool.false_eq_true, if_false, one_ne_zero, not_false_eq_true,
      decide_true, if_true, Prog.andThen] at k0 k1
    injection k0 with k0 _
    subst k0
    cases k1

section CP

open Spec

variable {N R : ℕ} {dims : Fin N → ℕ} {V : Tensor ℝ} {W G : List (Tensor ℝ)} {kn : Kern ℝ}

/-- `alsCP_PP` on `P` ranks.  There is a run on one rank without time limit; if no rank is late in a time test that decides, all
ranks do the same as that run; if at the first such test in which a rank is late another one is not, the ranks call different
collective operations. -/
theorem C64_cp_pp (h4 : 4 ≤ N) (h5 : N ≠ 5) (h9 : N ≤ 9) (same : Bool) (lam ratio tolInit : ℝ) (hk : KernOk kn)
    (hW : Shaped dims R V W) (hG : G.length = N) (c : PPCfg) (hc : c.tucker = false) (hm : 0 ≤ c.maxiter) (hr : c.resprint ≠ 0)
    (fuel : ℕ) (hf : c.maxiter + 3 < fuel) (clock : Fin P → ℕ → ℝ) :
    ∃ r ret, alsCPPP same N R lam ratio tolInit kn V c (fun _ => c.timelimit) fuel W G = .ok (r, ret) ∧
      ((∀ t p, ClockDecides c r.trace t → clock p t ≤ c.timelimit) → 
        Spmd (ppExec (cpPPHooks same N R lam ratio tolInit kn V)) (ranksLate c.timelimit clock) (fun _ => ppProg c fuel)
          ⟨W, G, W.map zerosLike, [], [], []⟩ (.finished r.st fun _ => (r.loc, ret))) ∧
      ∀ t p q, ClockDecides c r.trace t → (∀ u < t, ∀ p, ClockDecides c r.trace u → clock p u ≤ c.timelimit) →
        c.timelimit < clock p t → clock q t ≤ c.timelimit →
        Spmd (ppExec (cpPPHooks same N R lam ratio tolInit kn V)) (ranksLate c.timelimit clock) (fun _ => ppProg c fuel)
          ⟨W, G, W.map zerosLike, [], [], []⟩ .mismatch := by
  obtain ⟨r, ret, h, _⟩ := C30_terminates h4 h5 h9 same lam ratio tolInit hk hW hG c hm hr (fun _ => c.timelimit)
    (fun _ => le_rfl) fuel hf
  have hcc : { c with tucker := false } = c := by rw [← hc]
  refine ⟨r, ret, h, fun ha => ?_, fun t p q ht hb hp hq => ?_⟩ <;> unfold alsCPPP at h <;> rw [hcc] at h
  · have h1 := ppProg_run (c := c) (h := cpPPHooks same N R lam ratio tolInit kn V) (clock := fun _ => c.timelimit) fuel
      ⟨W, G, W.map zerosLike, [], [], []⟩
    rw [map_ok _ h] at h1
    exact spmd_follow (clk := ranksLate c.timelimit clock) _ _ _ _ h1 fun t ht p => lateOf_eq.2
      ⟨fun hl => absurd hl (not_lt.2 (ha t p (clockDecides_iff.2 ((ppProg_critical h1 t).1 ht)))), fun hl => absurd hl (lt_irrefl _)⟩
  · exact C64_pp_mismatch c hr _ clock _ fuel _ h ht
      (fun u hu hd p => ⟨fun hl => absurd hl (not_lt.2 (hb u hu p hd)), fun hl => absurd hl (lt_irrefl _)⟩) (p := p) (q := q)
      (fun e => absurd (e.1 hp) (not_lt.2 hq))

end CP

/-! Non-vacuity. -/

open Finset in
theorem exGR_norm : 1 ≤ √(∑ j : Fin 4, ∑ x ∈ range ((![2, 3, 1, 4] : Fin 4 → ℕ) j), ∑ r ∈ range 2, mats (N := 4) exGR j x r ^ 2) := by
  rw [Real.one_le_sqrt]
  have h0 : ∀ j : Fin 4, 0 ≤ ∑ x ∈ range ((![2, 3, 1, 4] : Fin 4 → ℕ) j), ∑ r ∈ range 2, mats (N := 4) exGR j x r ^ 2 :=
    fun j => sum_nonneg fun _ _ => sum_nonneg fun _ _ => sq_nonneg _
  have h2 := single_le_sum (fun j _ => h0 j) (mem_univ (2 : Fin 4))
  refine le_trans ?_ h2
  have : mats (N := 4) exGR 2 = fun _ _ => (1 : ℝ) := rfl
  rw [this]
  simp

/-- The endless loop of C31 on three ranks. -/
example (kn : Kern ℝ) (fuel : ℕ) : Spmd (P := 3) (ppExec (cpPPHooks true 4 2 (1 / 2) 1 (1 / 10) kn exVR))
    (ranksLate 0 fun _ _ => 1) (fun _ => ppProg ⟨false, 1 / 1000, 0, 100, 10, false⟩ fuel)
    ⟨exFacR.W, exGR, exFacR.W.map zerosLike, [], [], []⟩ (.fault .diverge) := by
  refine C64_pp_all_late ⟨false, 1 / 1000, 0, 100, 10, false⟩ _ (fun _ _ => 1) 0 fuel _ ?_ (fun _ _ => by norm_num)
  have hg := C16_gradnorm (N := 4) (dims := ![2, 3, 1, 4]) (R := 2) (G := exGR) (by
    intro j; fin_cases j <;> exact ⟨_, rfl, rfl⟩)
  exact C31_livelock (N := 4) (by norm_num) (by norm_num) true _ _ _ exShapedR rfl ⟨false, 1 / 1000, 0, 100, 10, false⟩ rfl
    (by norm_num) (by norm_num) (by norm_num) _ hg (lt_of_lt_of_le (by norm_num) exGR_norm) (fun _ => 1) (fun _ => by norm_num) fuel

/-- `alsCP_PP` in `bench` mode on two ranks: the operators take 100 seconds, the limit is 60. -/
example (kn : Kern ℝ) (clock : Fin 2 → ℕ → ℝ) (hc : ∀ p : Fin 2, clock p 0 = firstElapsed (decide (p.val = 0)) 0 100 102 103 104) :
    Spmd (ppExec (cpPPHooks true 4 2 (1 / 2) 1 (1 / 10) kn exVR)) (ranksLate 60 clock)
      (fun _ => ppProg ⟨false, 1 / 1000, 60, 1, 1, true⟩ 2) ⟨exFacR.W, exGR, exFacR.W.map zerosLike, [], [], []⟩ .mismatch := by
  obtain ⟨ops, o1, o2⟩ := ppOperators_ok (N := 4) (by norm_num) (by norm_num) true exShapedR
  have hg := C16_gradnorm (N := 4) (dims := ![2, 3, 1, 4]) (R := 2) (G := exGR) (by
    intro j; fin_cases j <;> exact ⟨_, rfl, rfl⟩)
  obtain ⟨g', d, e1, e2⟩ := cp_check (N := 4) (by norm_num) (by norm_num)
    (s := (⟨exFacR.W, exGR, (exFacR.W.map zerosLike).map zerosLike, [], exFacR.W, ops⟩ : CPPPState))
    (dims := ![2, 3, 1, 4]) (R := 2) (V := exVR) ⟨exShapedR, rfl, zeros_shape (zeros_shape exShapedR)⟩
    (same := true) (lam := 1 / 2) (ratio := 1) (tolInit := 1 / 10) (k := kn)
  rw [show gradnorm exGR 4 = _ from hg] at e1
  have e3 := Except.ok.inj e1
  refine C64_bench_rank0 ⟨false, 1 / 1000, 60, 1, 1, true⟩ rfl (by norm_num) (by norm_num) (by norm_num) _ le_rfl clock 0 100 102 103 104
    hc (by norm_num) (by norm_num) 0 _ _ _ g' d ?_ e2 ?_
  · simp only [cpPPHooks, o1, bind, Except.bind]
    rfl
  · rw [← e3]
    exact not_lt.2 (le_trans (by norm_num) exGR_norm)

/-- Computations on no data at all, with gradient norm 5. -/
def exPPHooks : PPHooks Unit where
  dtBegin s := .ok s
  dtSweep s := .ok s
  dtClose _ := .ok false
  ppFar _ := .ok true
  ppBegin s := .ok s
  ppSweep s := .ok s
  check s := .ok (s, 5, 0)
  accept s := .ok s
  endRound s := s

theorem exPP_run : ppDriver ⟨false, 1, 60, 0, 1, false⟩ exPPHooks (fun _ => 0) 3 () =
    .ok (⟨1, 5, 1, (), [.dtStart, .row 0 5 false 0, .dtSweep]⟩, false) := by
  norm_num [ppDriver, ppDriverLoop, dtSub, dtSubLoop, ppSubLoop, ppTest, exPPHooks, dtChecked, benchInc, bind, Except.bind, pure,
    Except.pure]

example : Spmd (P := 2) (ppExec exPPHooks) (ranksLate 60 fun p _ => if p = 0 then 0 else 61)
    (fun _ => ppProg ⟨false, 1, 60, 0, 1, false⟩ 3) () .mismatch := by
  refine C64_pp_mismatch ⟨false, 1, 60, 0, 1, false⟩ (by norm_num) exPPHooks _ (fun _ => 0) 3 () exPP_run (t := 0)
    ⟨0, 5, false, rfl, by norm_num⟩ (by intro u hu; omega) (p := 0) (q := 1) (by norm_num)

example : ∃ r : PPRun Unit, ClockDecides ⟨false, 1, 60, 0, 1, false⟩ r.trace 0 ∧ Spmd (P := 2) (ppExec exPPHooks)
    (ranksLate 60 fun p _ => p.val) (fun _ => ppProg ⟨false, 1, 60, 0, 1, false⟩ 3) () (.finished r.st fun _ => (r.loc, false)) := by
  refine ⟨⟨1, 5, 1, (), [.dtStart, .row 0 5 false 0, .dtSweep]⟩, ⟨0, 5, false, rfl, by norm_num⟩,
    C64_pp_agree ⟨false, 1, 60, 0, 1, false⟩ exPPHooks (fun p _ => p.val) 0 3 () (by simpa using exPP_run) ?_⟩
  intro t _ p
  have := p.isLt
  norm_num
  omega

/-- See `exPPHooks`. -/
def exLLHooks : LLHooks Unit where
  checked _ := True
  check s := .ok (s, 5, 0)
  accept s := .ok s
  sweep s := .ok s

theorem exLL_run : llLoop ⟨1, 60, 1, 1⟩ exLLHooks (fun _ => 0) 3 0 () [] = .ok ⟨2, (), [(0, 5, 0), (1, 5, 0)], false, false⟩ := by
  norm_num [llLoop, exLLHooks, bind, Except.bind, pure, Except.pure]

example : Spmd (P := 2) (llExec exLLHooks) (ranksLate 60 fun p k => if p = 0 then 0 else 61 * k)
    (fun _ => llProg ⟨1, 60, 1, 1⟩ exLLHooks.checked 3 0 []) () .mismatch := by
  exact C64_ll_mismatch ⟨1, 60, 1, 1⟩ exLLHooks (fun p k => if p = 0 then 0 else 61 * k) 0 3 ()
    (e := ⟨2, (), [(0, 5, 0), (1, 5, 0)], false, false⟩) (by simpa using exLL_run) ⟨(1, 5, 0), by simp, by norm_num, 1, by norm_num⟩

example : Spmd (P := 2) (llExec exLLHooks) (ranksLate 60 fun p k => 0)
    (fun _ => llProg ⟨1, 60, 1, 1⟩ exLLHooks.checked 3 0 []) () (.finished () fun _ => (2, [(0, 5, 0), (1, 5, 0)], false, false)) :=
  C64_ll_agree ⟨1, 60, 1, 1⟩ exLLHooks (fun _ _ => 0) 0 3 () exLL_run (fun _ _ _ _ => Iff.rfl)

end Properties
