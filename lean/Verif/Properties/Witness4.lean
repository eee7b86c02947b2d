import Verif.Properties.SpmdLegacy
import Verif.Properties.Converge
import Verif.Properties.TuckConverge
import Verif.Properties.Ieee
import Verif.Properties.Round
import Verif.Properties.Hosvd
import Verif.Properties.PPError
import Verif.Properties.Again
import Verif.Properties.Fixed
import Verif.Properties.Symmetry
import Verif.Properties.Work
import Verif.Properties.FullRank
import Verif.Properties.Span
import Verif.Properties.SpanRot
import Verif.Properties.MainNeg
import Verif.Properties.Witness3
import Verif.Properties.SymLegacy
import Verif.Properties.Decomp
import Verif.Properties.Session
import Verif.Properties.LogFile
import Verif.Properties.WorkLegacy
import Verif.Properties.RoundTucker
import Verif.Properties.RoundObjective
import Verif.Properties.RoundHosvd
import Verif.Properties.RoundAls
import Verif.Properties.PPMonotone

/-! Non-vacuity, continued (4): concrete cases for theorems of C64 - C77 that the examples at the end of their own files do not
already instantiate. -/

namespace Properties
open Model Finset

section Ranks

/-- Two ranks that take the same branch cannot also end otherwise. -/
example {o : Outcome 2 Unit (ℕ × List (ℕ × ℝ × ℝ) × Bool × Bool)}
    (h : Spmd (P := 2) (llExec exLLHooks) (ranksLate 60 fun _ _ => 0)
      (fun _ => llProg ⟨1, 60, 1, 1⟩ exLLHooks.checked 3 0 []) () o) :
    o = .finished () fun _ => (2, [(0, 5, 0), (1, 5, 0)], false, false) :=
  C64_deterministic h (C64_ll_agree ⟨1, 60, 1, 1⟩ exLLHooks (fun _ _ => 0) 0 3 () exLL_run (fun _ _ _ _ => Iff.rfl))

/-- `alsCP_PP` on three ranks. -/
example (kn : Kern ℝ) (hk : KernOk kn) (clock : Fin 3 → ℕ → ℝ) (hc : ∀ t p, clock p t ≤ 60) :
    ∃ r ret, alsCPPP true 4 2 (1 / 2) 1 (1 / 10) kn exVR ⟨false, 1 / 1000, 60, 100, 10, false⟩ (fun _ => 60) 200 exFacR.W exGR = .ok (r, ret) ∧
      Spmd (P := 3) (ppExec (cpPPHooks true 4 2 (1 / 2) 1 (1 / 10) kn exVR)) (ranksLate 60 clock)
        (fun _ => ppProg ⟨false, 1 / 1000, 60, 100, 10, false⟩ 200) ⟨exFacR.W, exGR, exFacR.W.map zerosLike, [], [], []⟩
        (.finished r.st fun _ => (r.loc, ret)) := by
  obtain ⟨r, ret, h1, h2, -⟩ := C64_cp_pp (N := 4) (by norm_num) (by norm_num) (by norm_num) true (1 / 2) 1 (1 / 10) hk exShapedR
    (G := exGR) rfl ⟨false, 1 / 1000, 60, 100, 10, false⟩ rfl (by norm_num) (by norm_num) 200 (by norm_num) clock
  exact ⟨r, ret, h1, h2 fun t p _ => hc t p⟩

end Ranks

section Convergence

example (k : Kern ℝ) (hk : KernOk k) := C65_descent (.inr (.inr rfl)) exFits exShapedR exFacR_G (lam := 1 / 2) (by norm_num)
  (C12_cholesky_solver hk) 1 exLRR

example (k : Kern ℝ) (hk : KernOk k) := C65_limit_points (.inr (.inr rfl)) exFits exShapedR exFacR_G (lam := 1 / 2) (by norm_num)
  (C12_cholesky_solver hk) 1 exLRR

/-- `Normalize` on the factors of ones. -/
example : ∃ W', normalize exTwosW 3 = .ok W' ∧ Spec.fullObj2 (N := 3) (fun _ => 2) 1 (1 / 2) (arr exTwosV 3) (mats W') ≤
    Spec.fullObj2 (N := 3) (fun _ => 2) 1 (1 / 2) (arr exTwosV 3) (mats exTwosW) := by
  obtain ⟨W', h1, -, h2⟩ := C65_normalize_objective (by norm_num) exTwosShaped (lam := 1 / 2) (by
    intro j h
    have hm : ∀ (j : Fin 3) (x r : ℕ), mats (N := 3) exTwosW j x r = 1 := by
      intro j x r
      fin_cases j <;> rfl
    simp [facNorm, hm] at h) (by norm_num)
  exact ⟨W', h1, h2⟩

example (k : Kern ℝ) (hk : SvdShape k) (hl : SvdLeading k) :=
  C66_tucker_limit (by norm_num) (by norm_num) exTuckRank exTuckShaped hk hl

example (k : Kern ℝ) (hk : KernOk k) := C72_fixed_is_stationary (.inr (.inr rfl)) exFits exShapedR exFacR_G (lam := 1 / 2) (by norm_num)
  (C12_cholesky_solver hk) 1 exLRR

end Convergence

section Nan

/-- `C67_loop` and `C67_loop_nan_tol` apply to this run. -/
example : ∃ r, llLoopC (ieeeCmp .nan .pinf fun _ => .fin 0) 5 1 exNanLL 7 0 () [] = .ok r ∧ ((r.iter : ℤ) = 5 + 1 ∧ r.ret = false) ∧
    (r.iter : ℤ) ≤ 5 + 1 := by
  obtain ⟨r, h1, -⟩ := C67_loop_poisoned (tol := .nan) (tl := .pinf) (clock := fun _ => .fin 0)
    (fun _ => by simp only [F64.lt]; norm_num) (mi := 5) (rp := 1) (by norm_num) (by norm_num) (h := exNanLL) (fun _ => True)
    (fun _ _ => ⟨_, _, rfl, trivial⟩) (fun _ _ => ⟨_, rfl, trivial⟩) (fun _ _ => ⟨_, rfl, trivial⟩) (fuel := 7) (by norm_num)
    (st := ()) trivial
  exact ⟨r, h1, C67_loop_nan_tol (.inr rfl) (by norm_num) h1, (C67_loop (by norm_num) h1).1⟩

/-- A state whose every value is NaN: `als` makes all its sweeps, of half a sweep each; `C67_als` applies to the run. -/
example : ∃ r, alsLoopC (ieeeCmp (.fin 1) (.fin 60) fun _ => .fin 0) 4 1 (fun s : Unit => .ok s) (1 / 2)
    (fun _ => .ok (.nan, .nan)) 20 0 0 () [] = .ok r ∧ 4 < ⌊r.sweeps⌋ ∧ (r.ret = true ↔ r.sweeps ≠ ((4 : ℤ) : ℚ) + 1) := by
  obtain ⟨r, h1, h2, -⟩ := C67_als_poisoned (tol := .fin 1) (tl := .fin 60) (clock := fun _ => .fin 0)
    (fun _ => by simp only [F64.lt]; norm_num) (mi := 4) (rp := 1) (by norm_num) (step := fun s : Unit => .ok s) (inc := 1 / 2)
    (by norm_num) (check := fun _ => .ok (.nan, .nan)) (fun _ => True) (fun _ _ => ⟨_, rfl⟩) (fun _ _ => ⟨_, rfl, trivial⟩)
    (fuel := 20) (by norm_num) (by norm_num) (st := ()) trivial
  exact ⟨r, h1, h2, (C67_als h1).1⟩

example (h : PPHooks Unit F64) := C67_pp_nothing (.inl rfl) (.fin 60) (fun _ => .fin 0) (c := ⟨false, 100, 10, false⟩) (by norm_num)
  h 10 ()

/-- No hook ever gives a number. -/
def exNanOnly : PPHooks Unit F64 where
  dtBegin s := .ok s
  dtSweep s := .ok s
  dtClose _ := .ok false
  ppFar _ := .ok true
  ppBegin s := .ok s
  ppSweep s := .ok s
  check s := .ok (s, .nan, .nan)
  accept s := .ok s
  endRound s := s

/-- `C67_pp` applies to this run. -/
example : ∃ r, ppDriverC (ieeeCmp (.fin 1) (.fin 60) fun _ => .fin 0) (.fin 10) ⟨false, 7, 2, false⟩ exNanOnly 10 () = .ok (r, false) ∧
    (r.iter : ℤ) = 7 + 1 ∧ (r.iter : ℤ) ≤ 7 + 1 := by
  obtain ⟨r, h1, h2⟩ := C67_pp_poisoned_dt (tol := .fin 1) (tl := .fin 60) (clock := fun _ => .fin 0)
    (fun _ => by simp only [F64.lt]; norm_num) (c := ⟨false, 7, 2, false⟩) (by norm_num) rfl (by simp only [F64.lt]; norm_num) (by norm_num)
    (h := exNanOnly) (fun _ => True) (fun _ _ => ⟨_, _, rfl, trivial⟩) (fun _ _ => ⟨_, rfl, trivial⟩) (fun _ _ => ⟨_, rfl, trivial⟩)
    (fun _ _ => ⟨_, rfl, trivial⟩) (fun _ _ => rfl) (fuel := 10) (by norm_num) (st := ()) trivial
  exact ⟨r, h1, h2, (C67_pp (by norm_num) rfl h1).1⟩

example (E : MainEnv) (lr : ℕ → Bool → Spec.LowRank ℝ) :=
  C67_run_no_limit (o := { exRunOpts 1 with timelimit := .nan }) (.inl rfl) E lr 100
example (E : MainEnv) := C67_test_no_limit (o := { exRunOpts 1 with timelimit := .pinf }) (.inr rfl) E 100
example (E : MainEnv) (clkD clkP : ℕ → ℕ → ℝ) :=
  C67_bench_no_limit (o := { exRunOpts 1 with timelimit := .nan }) (.inl rfl) E clkD clkP 100
example (E : MainEnv) (lr : ℕ → Bool → Spec.LowRank ℝ) := C67_run_nan_tol (o := { exRunOpts 1 with tol := .nan }) rfl E lr 100
example (E : MainEnv) := C67_test_nan_tol (o := { exRunOpts 0 with tol := .nan }) rfl (by simp [exRunOpts]) rfl E 100

end Nan

section Accuracy

/-- Exact arithmetic: the rounded run of C68 is the exact one. -/
example (lam : ℝ) (solve : Spec.Solver ℝ) (st : Spec.AlsState 4 ℝ) :
    st = Spec.alsRun ![2, 3, 1, 4] 2 lam solve (arr exVR 4) [] st :=
  C68_zero_bounds (N := 4) (dims := ![2, 3, 1, 4]) (R := 2) (lam := lam) (solve := solve) (V := arr exVR 4) (l := [])
    (Spec.RoundedRun.nil _)

example : ∃ (k : Kern ℝ) (C : Tensor ℝ) (F : List (Tensor ℝ)), hosvd k exTuckV [2, 3, 1, 4] = .ok (C, F) ∧
    ∀ idx : Fin 4 → ℕ, (∀ j, idx j < (![2, 3, 1, 4] : Fin 4 → ℕ) j) →
      Spec.tuckRecon ![2, 3, 1, 4] (arr C 4) (mats F) idx = arr exTuckV 4 idx := by
  obtain ⟨k, hl, hk⟩ := exists_svdLeading
  obtain ⟨C, F, h1, h2⟩ := C69_hosvd_full (by norm_num) (by norm_num) exTuckShaped.lensV hk hl
  exact ⟨k, C, F, h1, h2⟩

example (k : Kern ℝ) (hk : SvdShape k) (hl : SvdLeading k) := C69_tucker (by norm_num) (by norm_num) exTuckShaped.lensV exTuckRank hk hl
  (1 / 1000) 60 (maxiter := 20) (by norm_num) (fun k => k) (fuel := 22) (by norm_num)

example (k : Kern ℝ) (hk : SvdShape k) (hl : SvdLeading k) := C69_tucker_dt (by norm_num) (by norm_num) (by norm_num) exTuckShaped.lensV
  exTuckRank hk hl (a := ⟨1 / 1000, 60, 20, 10⟩) (by norm_num) (by norm_num) (fun k => k) (fuel := 22) (by norm_num)

example := C70_second_order (N := 4) (e := ![1 / 10, 0, 1 / 20, 1 / 100]) (eps := 1 / 10)
  (by intro j; fin_cases j <;> norm_num) (by intro j; fin_cases j <;> norm_num) (by norm_num) 2

/-- The displacement of `C70_tucker` is another set of factors. -/
example : ∃ ops Y, tuckOperators 4 exCornV exCornW = .ok ops ∧ tuckPPY 4 ops exCornW 2 = .ok Y ∧
    Y.lens = List.ofFn (Spec.ttmShape (N := 4) (fun _ => 2) (fun _ => 1) {2}) := by
  obtain ⟨ops, Y, h1, h2, h3, -⟩ := C70_tucker (N := 4) (by norm_num) (by norm_num) exCornShaped exCornShaped (by
    intro j a ha b hb
    have : ∀ j : Fin 4, exCornW[j.1]? = some ⟨[2, 1], fun i => if i = [0, 0] then 1 else 0⟩ := by
      intro j; fin_cases j <;> rfl
    interval_cases a; interval_cases b
    simp [Spec.gram, mats, this, mat]) 2
  exact ⟨ops, Y, h1, h2, h3⟩

end Accuracy

section AgainSplit

/-- `C71_split_msdt`: limits 3 and 2, and 6. -/
example : ∃ o0 r1 r2 r, optInit ℝ 4 .msdt = .ok o0 ∧
    cpdAls .msdt 4 2 (1 / 2) (fun _ _ M _ => M) 1 exLRR exVR (exLimit 3) (fun _ => 0) 100 (o0, exFacR) = .ok r1 ∧
    cpdAls .msdt 4 2 (1 / 2) (fun _ _ M _ => M) 1 exLRR exVR (exLimit 2) (fun _ => 0) 100 r1.st = .ok r2 ∧
    cpdAls .msdt 4 2 (1 / 2) (fun _ _ M _ => M) 1 exLRR exVR (exLimit 6) (fun _ => 0) 100 (o0, exFacR) = .ok r ∧
    r.iters ≤ r1.iters + r2.iters ∧ r1.iters + r2.iters ≤ r.iters + 1 := by
  obtain ⟨o0, h0, _⟩ := opt_reach exFits exShapedR rfl (1 / 2) (fun _ _ M _ => M) 1 exLRR
  have hl : ∀ m : ℤ, m ≤ 6 → stepLimit 4 m .msdt < 100 := by
    intro m hm
    simp only [stepLimit]
    refine lt_of_le_of_lt (Nat.ceil_le.2 (?_ : _ ≤ ((28 : ℕ) : ℚ))) (by norm_num)
    have : (m : ℚ) ≤ 6 := by exact_mod_cast hm
    norm_num
    linarith
  obtain ⟨r1, e1, l1, s1⟩ := reaches_limit exFits exShapedR rfl (1 / 2) (fun _ _ M _ => M) 1 exLRR h0 (k0 := 0) rfl
    (a := exLimit 3) (by simp [exLimit]) (by simp [exLimit]) (by simp [exLimit]) (clock := fun _ => 0) (by simp [exLimit])
    (fuel := 100) (hl _ (by norm_num [exLimit]))
  obtain ⟨r2, e2, l2, _⟩ := reaches_limit exFits exShapedR rfl (1 / 2) (fun _ _ M _ => M) 1 exLRR h0 s1
    (a := exLimit 2) (by simp [exLimit]) (by simp [exLimit]) (by simp [exLimit]) (clock := fun _ => 0) (by simp [exLimit])
    (fuel := 100) (hl _ (by norm_num [exLimit]))
  obtain ⟨r, e, l, _⟩ := reaches_limit exFits exShapedR rfl (1 / 2) (fun _ _ M _ => M) 1 exLRR h0 (k0 := 0) rfl
    (a := exLimit 6) (by simp [exLimit]) (by simp [exLimit]) (by simp [exLimit]) (clock := fun _ => 0) (by simp [exLimit])
    (fuel := 100) (hl _ (by norm_num [exLimit]))
  obtain ⟨h1, h2, -⟩ := C71_split_msdt (.inl rfl) exFits exShapedR rfl (1 / 2) (fun _ _ M _ => M) 1 exLRR h0
    (k0 := 0) rfl (by simp [exLimit]) (by simp [exLimit]) (by simp [exLimit]) (by simp [exLimit]) (by simp [exLimit])
    (by simp [exLimit]) _ _ _ (hl _ (by norm_num [exLimit])) (hl _ (by norm_num [exLimit])) (hl _ (by norm_num [exLimit])) e1 e2 e l1 l2 l
  exact ⟨o0, r1, r2, r, h0, e1, e2, e, h1, h2⟩

/-- The limits 0 and 0 against 1 of `C71_split_msdt_differs`, on a run of order 3. -/
example : stepLimit 3 0 .msdt + stepLimit 3 0 .msdt ≠ stepLimit 3 (0 + 0 + 1) .msdt := by
  have h := C71_split_msdt_differs
  rw [h.1]
  exact fun h' => absurd (h'.trans h.2) (by norm_num)

/-- `C71_cp_dt_idempotent`: a run that stops by its tolerance. -/
example : ∃ r r', alsCPDT 4 2 (1 / 2) (fun _ _ M _ => M) exVR exF0 ⟨1, 60, 6, 10⟩ (fun _ => 0) 100 ⟨exFacR.W, exF0⟩ = .ok r ∧
    alsCPDT 4 2 (1 / 2) (fun _ _ M _ => M) exVR exF0 ⟨2, 10, 6, 5⟩ (fun k => k) 100 r.st = .ok r' ∧ r'.iter = 0 := by
  obtain ⟨r, h, _, h', _⟩ := C48_cp_dt_zero_gradient (by norm_num) (by norm_num) (by norm_num) exF0_shaped
    (f := ⟨exFacR.W, exF0⟩) exShapedR exF0_shaped (by
      intro j x _ r _
      fin_cases j <;> rfl) (1 / 2) (fun _ _ M _ => M) (a := ⟨1, 60, 6, 10⟩) (by norm_num) (by norm_num) (by norm_num)
    (fun _ => 0) (fuel := 100) (by norm_num)
  obtain ⟨r', e, e0, -⟩ := C71_cp_dt_idempotent (by norm_num) (by norm_num) (by norm_num) exF0_shaped
    (f := ⟨exFacR.W, exF0⟩) exShapedR rfl (1 / 2) (fun _ _ M _ => M) (a := ⟨1, 60, 6, 10⟩) (b := ⟨2, 10, 6, 5⟩) (by norm_num) (by norm_num)
    (by norm_num) (by norm_num) (by norm_num) (fun _ => 0) (fun k => k) (fuel := 100) (by norm_num) (by norm_num) h h' (by norm_num)
  exact ⟨r, r', h, e, e0⟩

/-- A run of `alsCP_DT` without a tolerance or a time limit makes all its sweeps. -/
theorem cpdt_limit {f : Fac ℝ} (hS : Shaped (N := 4) ![2, 3, 1, 4] 2 exVR f.W) (hG : f.G.length = 4) {m : ℤ} (hm : 0 ≤ m)
    (hm' : m ≤ 50) : ∃ r, alsCPDT 4 2 (1 / 2) (fun _ _ M _ => M) exVR exF0 ⟨0, 60, m, 10⟩ (fun _ => 0) 100 f = .ok r ∧ r.ret = false ∧
      Shaped (N := 4) ![2, 3, 1, 4] 2 exVR r.st.W ∧ r.st.G.length = 4 := by
  obtain ⟨r, tr, g, h1, h2, h3, h4, h5, -⟩ := C48_cp_dt (by norm_num) (by norm_num) (by norm_num) exF0_shaped hS hG (1 / 2)
    (fun _ _ M _ => M) (a := ⟨0, 60, m, 10⟩) hm (by norm_num) (fun _ => 0) (fuel := 100) (by simp only; omega)
  refine ⟨r, h1, ?_, ?_⟩
  · by_contra h
    obtain ⟨-, -, h | h⟩ := h5.yes.1 (by simpa using h)
    · exact absurd (gradnorm_nonneg (h4 r.iter)) (not_le.2 h)
    · norm_num at h
  · rw [h3]
    have H : ∀ k, Shaped (N := 4) ![2, 3, 1, 4] 2 exVR (tr k).W ∧ (tr k).G.length = 4 := by
      intro k
      induction k with
      | zero =>
        have := Except.ok.inj (h2 0)
        rw [← this]
        exact ⟨hS, hG⟩
      | succ k ih =>
        obtain ⟨f', e, e1, e2⟩ := legacySweep_shape (by norm_num) (by norm_num) (by norm_num) exF0_shaped ih.1 ih.2 (1 / 2) (fun _ _ M _ => M)
        have h := h2 (k + 1)
        rw [iterM_add, h2 k] at h
        simp only [iterM, bind, Except.bind, e] at h
        have := Except.ok.inj h
        rw [← this]
        exact ⟨e1, e2⟩
    exact H _

/-- `C71_cp_dt_split`: runs of `alsCP_DT` without a tolerance or a time limit. -/
example : ∃ r1 r2 r, alsCPDT 4 2 (1 / 2) (fun _ _ M _ => M) exVR exF0 ⟨0, 60, 3, 10⟩ (fun _ => 0) 100 ⟨exFacR.W, exGR⟩ = .ok r1 ∧
    alsCPDT 4 2 (1 / 2) (fun _ _ M _ => M) exVR exF0 ⟨0, 60, 2, 10⟩ (fun _ => 0) 100 r1.st = .ok r2 ∧
    alsCPDT 4 2 (1 / 2) (fun _ _ M _ => M) exVR exF0 ⟨0, 60, 6, 10⟩ (fun _ => 0) 100 ⟨exFacR.W, exGR⟩ = .ok r ∧ r.st = r2.st := by
  obtain ⟨r1, e1, t1, s1, s1'⟩ := cpdt_limit (f := ⟨exFacR.W, exGR⟩) exShapedR rfl (m := 3) (by norm_num) (by norm_num)
  obtain ⟨r2, e2, t2, -⟩ := cpdt_limit s1 s1' (m := 2) (by norm_num) (by norm_num)
  obtain ⟨r, e, t, -⟩ := cpdt_limit (f := ⟨exFacR.W, exGR⟩) exShapedR rfl (m := 6) (by norm_num) (by norm_num)
  exact ⟨r1, r2, r, e1, e2, e, C71_cp_dt_split (by norm_num) (by norm_num) (by norm_num) exF0_shaped (f := ⟨exFacR.W, exGR⟩) exShapedR
    rfl (1 / 2) (fun _ _ M _ => M) (a1 := ⟨0, 60, 3, 10⟩) (a2 := ⟨0, 60, 2, 10⟩) (a := ⟨0, 60, 6, 10⟩) (by norm_num) (by norm_num)
    (by norm_num) (by norm_num) (by norm_num) (by norm_num) _ _ _ (by norm_num) e1 e2 e t1 t2 t⟩

end AgainSplit

section Work

example : ∃ (o : DTState) (o' : MSDTState), dtInit 3 = .ok o ∧ msdtInit 3 = .ok o' ∧
    (iterC (dtStepC 3 2 (1 / 2 : ℝ) (fun _ _ M _ => M) exCubeV) 5 (o, ⟨exCubeW, exCubeW⟩) []).map Prod.fst =
      iterM (dtStep 3 2 (1 / 2) (fun _ _ M _ => M) exCubeV) 5 (o, ⟨exCubeW, exCubeW⟩) ∧
    (iterC (msdtStepC 3 2 (1 / 2 : ℝ) (fun _ _ M _ => M) exCubeV) 5 (o', ⟨exCubeW, exCubeW⟩) []).map Prod.fst =
      iterM (msdtStep 3 2 (1 / 2) (fun _ _ M _ => M) exCubeV) 5 (o', ⟨exCubeW, exCubeW⟩) := by
  obtain ⟨o, -, -, -, -, h, -⟩ := C74_memory (N := 3) (by omega) (by omega) (fun _ => by norm_num) (f := ⟨exCubeW, exCubeW⟩) exCubeShaped
    (1 / 2 : ℝ) (fun _ _ M _ => M) 5
  obtain ⟨o', -, -, -, -, h', -⟩ := C74_memory_msdt (N := 3) (by omega) (by omega) (fun _ => by norm_num) (f := ⟨exCubeW, exCubeW⟩) exCubeShaped
    (1 / 2 : ℝ) (fun _ _ M _ => M) 5
  obtain ⟨-, h1, h2, -⟩ := C74_same_results (N := 3) 2 (1 / 2 : ℝ) (fun _ _ M _ => M) exCubeV exCubeW ⟨exCubeW, exCubeW⟩ o o' true 5 []
  exact ⟨o, o', h, h', h1, h2⟩

example := C74_memory (N := 3) (by omega) (by omega) (fun _ => by norm_num) (f := ⟨exCubeW, exCubeW⟩) exCubeShaped (1 / 2 : ℝ)
    (fun _ _ M _ => M) 5

example (k : Kern ℝ) (ops : Cache ℝ) := C74_same_results_pp (N := 4) 2 (1 / 2) 1 k ops exFacR.W ⟨exFacR.W, exGR, exFacR.W⟩ []

end Work

section Coordinates

example (k : Kern ℝ) (hk : KernOk k) := C73_equivariant (.inr (.inr rfl)) exFits exFits exDimsPos (by norm_num)
  (f := ⟨exOnesW, exOnesW⟩) (f' := ⟨exSwapW, exSwapW⟩) exOnesW_shapedR exOnesW_shapedR exSwap_shaped exSwap_shaped (lam := 1 / 2)
  (by norm_num) (C12_cholesky_solver hk) (C12_cholesky_solver hk) exSwapCoord_ok exSwapCoord_sign exSwapCoord_tensor exSwapCoord_fac
  exSwapCoord_fac 1 exLRR

example (kn : Kern ℝ) (h : LRKernOk kn) (random : Bool) := C75_msdtlr (N := 3) (dims := fun _ => 3) (R := 2) (q := 2)
    (lam := 1 / 2) (random := random) (X0 := fun _ R _ _ _ => ⟨[R, 2], fun _ => 1⟩) (by norm_num) (by norm_num)
    (f := ⟨exCubeW, exCubeW⟩) exCubeShaped exCubeShaped (by norm_num) h (by cases random <;> simp [FullUpdateRank])
    (fun _ _ _ _ _ _ => rfl) (C12_cholesky_solver h.base) 5

example (k : Kern ℝ) (hk : SvdShape k) (hl : SvdLeading k) := C76_dt (N := 4) (by norm_num) (by norm_num) (by norm_num) (fun _ => by norm_num)
  exCornShaped hk hl ⟨[1, 1, 1, 1], fun _ => 0⟩ (P := fun _ => exCornP) exCornSpans (m := 100) fun _ _ => exCornSweep

example (k : Kern ℝ) (hk : SvdShape k) (hl : SvdLeading k) := C77_dt (N := 4) (by norm_num) (by norm_num) (by norm_num)
  (fun _ => by norm_num) exCornShaped exSwapCornShaped exSwapQ_orth (c := -3) (by norm_num) exSwap_tensor exSwap_start hk hl
  (negSvd_shape hk) (negSvd_leading hl) ⟨[1, 1, 1, 1], fun _ => 0⟩ ⟨[1, 1, 1, 1], fun _ => 0⟩ (P := fun _ => exCornP) exCornSpans
  (m := 100) fun _ _ => exCornSweep

end Coordinates

section Library

/-- The second `Init` is given the factors of the first. -/
example (h' : Heap) : decLife exDecShapes 3 5 2 exDecHeap [.init (some 0) (some 1), .printW 0, .init (some 2) (some 1), .printV] ≠ .ok h' :=
  C78_same_factors exDec_use.1 (by norm_num) (pre := []) (mid := [.printW 0]) (post := [.printV]) h'

example := C79_session (kind := .dt) (n := 3) (s := 2) (R := 1) (by norm_num) (by norm_num) (by simp)
  (fillMats_shaped (dims := fun _ : Fin 3 => 2) (V := fillT [2, 2, 2] fun idx => idx.getD 0 0 + 1) (by simp [fillT, List.ofFn_succ]) 1
    fun i x _ => i + x) (1 / 2) (fun _ _ M _ => M) 1 exLRR (fun _ _ _ => 0) (a := ⟨1 / 1000, 60, 20, 10⟩) (by norm_num) (by norm_num)
  (fun k => k) (fuel := 50) (by norm_num)

example := C79_test_cpd (fun idx => idx.getD 0 0) (fun i x r => i + x + r) (fun _ _ _ => 1) (fun _ _ M _ => M) exLRR (fun k => k) (fuel := 63)
  (by norm_num)

end Library

section Floating

example (b : ℕ) : lossPerSweep 0 0 b ![2, 3, 1, 4] ![1, 2, 1, 3] (arr exTuckV 4) = 0 := C80_loss_zero (N := 4) b _
example (F : ℝ) := C81_loss_zero (N := 4) (dims := ![2, 3, 1, 4]) (lam := 1 / 2) 4 exVR F
example (k : Kern ℝ) (hk : KernOk k) := C81_solver (C12_cholesky_solver hk)
example (b : ℕ) := C84_loss_zero (N := 4) (dims := ![2, 3, 1, 4]) b (arr exTuckV 4)

example (k : Kern ℝ) (hk : SvdBack 0 k) := C84_hosvd (N := 4) (V := exTuckV) (dims := ![2, 3, 1, 4]) (rk := ![1, 2, 1, 3]) (by positivity)
  le_rfl exFl (by norm_num) (b := 4) (by norm_num) (by decide) exTuckRank rfl hk
example (k : Kern ℝ) (hk : SvdBack 0 k) := C84_tucker_dt (N := 4) (V := exTuckV) (dims := ![2, 3, 1, 4]) (rk := ![1, 2, 1, 3])
  (by positivity) le_rfl exFl (by norm_num) (by norm_num) (by norm_num) (b := 4) (by norm_num) (by decide) exTuckRank rfl hk

example := C85_gradnorm (N := 4) (R := 2) (dims := ![2, 3, 1, 4]) (eps := 1 / 10) (nu := 1 / 10) (rnd := fun x => x * (1 - 1 / 10))
  (nrm := fun T => norm2 T * (1 - 1 / 10)) (by norm_num)
  (fun x => by rw [show x * (1 - 1 / 10) - x = -(1 / 10 * x) by ring, abs_neg, abs_mul, abs_of_nonneg (show (0 : ℝ) ≤ 1 / 10 by norm_num)])
  (by norm_num)
  (fun T => by
    rw [show norm2 T * (1 - 1 / 10) - norm2 T = -(1 / 10 * norm2 T) by ring, abs_neg, abs_mul, abs_of_nonneg (show (0 : ℝ) ≤ 1 / 10 by norm_num),
      abs_of_nonneg (show 0 ≤ norm2 T from Real.sqrt_nonneg _)]) exFacR_G

/-- `C85_precision` provides the hypotheses of `C85_als`. -/
example : ∃ (m : ℕ) (p : ℝ) (solve : Spec.Solver ℝ), 0 < p ∧ ∃ o0 r g, optInit ℝ 4 .dt = .ok o0 ∧
    cpdAlsR .dt (seqArith fun x => x * (1 - p)) (fun x => x * (1 - p)) (fun T => norm2 T * (1 - p)) 4 2 3 solve exVR ⟨1 / 1000, 60, 20 * m, 10⟩
      (fun _ => 0) (stepLimit 4 (20 * m) .dt + 1) (o0, exFacR) = .ok r ∧ r.ret = true ∧
    gradnormR (fun x => x * (1 - p)) (fun T => norm2 T * (1 - p)) r.st.2.G 4 = .ok g ∧ g < 1 / 1000 := by
  obtain ⟨solve, hs⟩ := exists_solvesBack
  obtain ⟨m, hm, p, hp, hp1, H⟩ := C85_precision (N := 4) (dims := ![2, 3, 1, 4]) (R := 2) (B := 4) (lam := 3) (by norm_num) (by norm_num) exVR exFacR
    (10 * unitUpdates 4 .dt) (tol := 1 / 1000) (by norm_num)
  obtain ⟨h1, h2⟩ := H p 0 p hp.le le_rfl le_rfl hp.le hp.le le_rfl
  obtain ⟨o0, r, g, e1, e2, e3, _, _, e4, e5, _⟩ := C85_als hp.le le_rfl (exFlEps hp.le) (.inr (.inl rfl)) exFitsDT (B := 4) (by norm_num) exDims4
    (by norm_num) exShapedR exFacR_G (lam := 3) (by norm_num) hs (rnd := fun x => x * (1 - p))
    (fun x => by rw [show x * (1 - p) - x = -(p * x) by ring, abs_neg, abs_mul, abs_of_nonneg hp.le])
    (nrm := fun T => norm2 T * (1 - p)) hp.le
    (fun T => by
      rw [show norm2 T * (1 - p) - norm2 T = -(p * norm2 T) by ring, abs_neg, abs_mul, abs_of_nonneg hp.le, abs_of_nonneg (show 0 ≤ norm2 T from Real.sqrt_nonneg _)])
    (a := ⟨1 / 1000, 60, 20 * m, 10⟩) (by norm_num) (clock := fun _ => 0) (fun _ => by norm_num) hm h1 (by norm_num) h2
    (by simp [unitSteps]) (Nat.lt_succ_self _)
  exact ⟨m, p, solve, hp, o0, r, g, e1, e2, e3, e4, e5⟩

end Floating

section Perturbation

example (kn : Kern ℝ) (hk : KernOk kn) := C83_cp_update (N := 4) (R := 2) (V := exVR) (dims := ![2, 3, 1, 4]) (by norm_num) (by norm_num) true
  exShapedR (s := ⟨exTwiceW, exGR, exFacR.W⟩) ⟨exTwice_shaped, rfl, exShapedR⟩ (lam := 1 / 2) (ratio := 1) (by norm_num) (by norm_num)
  (by norm_num) hk 2 exDimsPos (fun j x hx r hr => by fin_cases j <;> simp only [mats, mat, exTwiceW, exFacR] <;> norm_num <;> ring)
  (e := fun _ => 1) (fun _ _ => by norm_num) (fun _ _ => by rw [one_mul])

example (kn : Kern ℝ) (hk : SvdShape kn) (hl : SvdLeading kn) : ∃ F ops W' dW' C, tuckOperators 4 exTuckV F = .ok ops ∧
    tuckPPSweep 4 kn [1, 2, 1, 3] ops F F (F.map zerosLike) = .ok (W', dW', C) := by
  obtain ⟨C, F, h1, h2, _, h4, -⟩ := C69_hosvd (N := 4) (V := exTuckV) (dims := ![2, 3, 1, 4]) (rk := ![1, 2, 1, 3]) (by norm_num) (by norm_num)
    rfl exTuckRank hk hl
  obtain ⟨ops, W', dW', C', e1, e2, -⟩ := C83_tucker_sweep (by norm_num) (by norm_num) exTuckRank h2 h2 (tzeros_shape h2) h4 h4
    (fun j x _ r _ => by rw [tzeros_mats, sub_self]) hl
  exact ⟨F, ops, W', dW', C', e1, e2⟩

/-- The first update of a phase. -/
example (kn : Kern ℝ) (hk : SvdShape kn) (hl : SvdLeading kn) : ∃ F ops W' dW' Ye', tuckOperators 4 exTuckV F = .ok ops ∧
    tuckPPUpdate 4 kn [1, 2, 1, 3] ops F (F, F.map zerosLike, exTuckV) 2 = .ok (W', dW', Ye') := by
  obtain ⟨C, F, h1, h2, _, h4, -⟩ := C69_hosvd (N := 4) (V := exTuckV) (dims := ![2, 3, 1, 4]) (rk := ![1, 2, 1, 3]) (by norm_num) (by norm_num)
    rfl exTuckRank hk hl
  obtain ⟨ops, W', dW', Y', e1, e2, -⟩ := C83_tucker_update (by norm_num) (by norm_num) exTuckRank h2 h2 (tzeros_shape h2) h4
    (fun j x _ r _ => by rw [tzeros_mats, sub_self]) hl 2 exTuckV
  exact ⟨F, ops, W', dW', Y', e1, e2⟩

end Perturbation

section MainTucker

/-- `test_ALS -model Tucker`. -/
example (atof : CStr → F64) : ∃ E o V, ∃ rk : Fin 4 → ℕ, testOpts atof ["test_ALS".toList, "-model".toList, "Tucker".toList] = .ok o ∧
    ∃ fuel r, testMain E fuel o = .ok (V, .tuckDT r) ∧ QuasiOptimal (fun _ : Fin 4 => 100) rk V r.st.W := by
  obtain ⟨k, hl, hk⟩ := exists_svdLeading
  obtain ⟨o, ho, h1, h2, h3, h4, h5, h6, h7, h8, h9, -⟩ := testOpts_default atof
    (argv := ["test_ALS".toList, "-model".toList, "Tucker".toList]) (pp := 0) (by decide) (by decide)
  obtain ⟨i1, i2⟩ := exEnv_input (k := k) (srt := fun _ => []) h7 h2 h4
  obtain ⟨V, rk, -, -, -, n, h⟩ := C69_test ho h9 (by rw [h4]; norm_num) (by rw [h6]; norm_num) i1 i2 (by norm_num)
    (by norm_num) (by norm_num) (by rw [h8]; decide) h1 hk hl
  obtain ⟨r, o1, -, o2⟩ := h n le_rfl
  exact ⟨_, o, V, rk, ho, n, r, o1, o2⟩

end MainTucker

section Log

/-- `C86_als_other_ranks`, `C86_als_bench` and `C86_als_twice` on one run. -/
example : ∃ s r, (∃ w', cpdAlsL ⟨false, false, 4, 1, fun i => i⟩ .dt 4 2 3 (fun _ _ M _ => M) 1 exLRR exVR
      (realCmp exArgs.tol exArgs.timelimit fun k => k) exArgs.maxsweep exArgs.resprint (stepLimit 4 exArgs.maxsweep .dt + 1) s ⟨true, [.blank]⟩ =
      .ok (r, w') ∧ w'.lines = [.blank]) ∧
    (∃ w', cpdAlsL ⟨true, true, 4, 1, fun i => i⟩ .dt 4 2 3 (fun _ _ M _ => M) 1 exLRR exVR
      (realCmp exArgs.tol exArgs.timelimit fun k => k) exArgs.maxsweep exArgs.resprint (stepLimit 4 exArgs.maxsweep .dt + 1) s ⟨true, [.blank]⟩ =
      .ok (r, w') ∧ w'.isOpen = true) ∧
    ∃ r2 w', cpdAlsL exLog .dt 4 2 3 (fun _ _ M _ => M) 1 exLRR exVR
      (realCmp exArgs.tol exArgs.timelimit fun k => k) exArgs.maxsweep exArgs.resprint (stepLimit 4 exArgs.maxsweep .dt + 1) r.st w' = .ok (r2, w') := by
  obtain ⟨o0, h0, _⟩ := opt_reach exFitsDT exShapedR rfl 3 (fun _ _ M _ => M) 1 exLRR
  obtain ⟨tr, c, r, htr, -, h, H⟩ := again_hist exFitsDT exShapedR rfl 3 (fun _ _ M _ => M) 1 exLRR h0 (k0 := 0) rfl
    (a := exArgs) (by norm_num [exArgs]) (fun k => k) (Nat.lt_succ_self _)
  have hs : iterM (optStep 4 2 3 (fun _ _ M _ => M) 1 exLRR exVR) (0 + r.iters) (o0, exFacR) = .ok r.st := by
    rw [zero_add, H.state]
    exact htr _
  obtain ⟨tr2, c2, r2, -, -, h2, -⟩ := again_hist exFitsDT exShapedR rfl 3 (fun _ _ M _ => M) 1 exLRR h0 hs
    (a := exArgs) (by norm_num [exArgs]) (fun k => k) (Nat.lt_succ_self _)
  rw [← cpdAlsC_real] at h h2
  refine ⟨(o0, exFacR), r, ?_, ?_, ?_⟩
  · obtain ⟨w', a, b, -⟩ := C86_als_other_ranks (e := ⟨false, false, 4, 1, fun i => i⟩) rfl ⟨true, [.blank]⟩ h
    exact ⟨w', a, b⟩
  · exact ⟨_, C86_als_bench (e := ⟨true, true, 4, 1, fun i => i⟩) rfl rfl (w := ⟨true, [.blank]⟩) rfl h, rfl⟩
  · obtain ⟨w', -, b⟩ := C86_als_twice (e := exLog) (e2 := exLog) rfl rfl ⟨true, [.blank]⟩ h h2
    exact ⟨r2, w', b⟩

example : ∃ r w', alsCPDTL exLog 4 2 (1 / 2) (fun _ _ M _ => M) exVR exF0 (realCmp 1 60 fun _ => 0) 6 10 100 ⟨exFacR.W, exF0⟩ ⟨true, []⟩ =
      .ok (r, w') ∧ Extended ⟨true, []⟩ w' (.heading false :: llText exLog r.rows) := by
  obtain ⟨r, h, _⟩ := C48_cp_dt_zero_gradient (by norm_num) (by norm_num) (by norm_num) exF0_shaped
    (f := ⟨exFacR.W, exF0⟩) exShapedR exF0_shaped (by
      intro j x _ r _
      fin_cases j <;> rfl) (1 / 2) (fun _ _ M _ => M) (a := ⟨1, 60, 6, 10⟩) (by norm_num) (by norm_num) (by norm_num)
    (fun _ => 0) (fuel := 100) (by norm_num)
  rw [← alsCPDTC_real] at h
  obtain ⟨w', a, b⟩ := C86_cp_dt (e := exLog) rfl rfl ⟨true, []⟩ h
  exact ⟨r, w', a, b⟩

/-- The log of rank 0 and of another rank. -/
example : ∃ (k : Kern ℝ) (r : LLEnd TuckState) (w1 w2 : Stream ℝ),
    alsTuckerDTL exLog k exTuckV (realCmp (1 / 1000) 60 fun k => k) 20 10 22 ⟨[1, 2, 1, 3], fun _ => 7⟩ exTuckW ⟨true, []⟩ = .ok (r, w1) ∧
    alsTuckerDTL ⟨false, false, 4, 1, fun i => i⟩ k exTuckV (realCmp (1 / 1000) 60 fun k => k) 20 10 22 ⟨[1, 2, 1, 3], fun _ => 7⟩ exTuckW
      ⟨true, []⟩ = .ok (r, w2) ∧
    Extended ⟨true, []⟩ w1 (.heading true :: llText exLog r.rows) ∧ Extended ⟨true, []⟩ w2 [.heading true] := by
  obtain ⟨k, hl, hk⟩ := exists_svdLeading
  obtain ⟨r, -, h, -⟩ := C48_tucker_dt (by norm_num) (by norm_num) (by norm_num) exTuckRank exTuckShaped
    (core := ⟨[1, 2, 1, 3], fun _ => 7⟩) rfl hk (a := ⟨1 / 1000, 60, 20, 10⟩) (by norm_num) (by norm_num) (fun k => k) (fuel := 22) (by norm_num)
  rw [← alsTuckerDTC_real] at h
  obtain ⟨w1, a, b⟩ := C86_tucker_dt (e := exLog) rfl rfl ⟨true, []⟩ h
  obtain ⟨w2, c, d⟩ := C86_tucker_dt_other_ranks (e := ⟨false, false, 4, 1, fun i => i⟩) rfl rfl ⟨true, []⟩ h
  exact ⟨k, r, w1, w2, a, c, b, d⟩

example : ∃ r w', ppDriverL ⟨false, false, 4, 1, fun i => i⟩ (realCmp 1 60 fun _ => 0) 10 ⟨false, 0, 1, false⟩ exPPHooks 3 () ⟨true, [.blank]⟩ =
    .ok ((r, false), w') ∧ w'.lines = [.blank] := by
  have h := exPP_run
  rw [← ppDriverC_real] at h
  obtain ⟨w', h1, h2, h3⟩ := C86_pp_other_ranks (e := ⟨false, false, 4, 1, fun i => i⟩) rfl ⟨true, [.blank]⟩ h
  exact ⟨_, w', h1, h2⟩

/-- `alsCP_PP` in `bench` mode. -/
example (kn : Kern ℝ) (hk : KernOk kn) : ∃ r ret l, ppDriverL ⟨true, true, 4, 1, fun i => i⟩ (realCmp (1 / 1000) 60 fun _ => 0) 10
    ⟨false, 1, 1, true⟩ (cpPPHooks true 4 2 (1 / 2) 1 (1 / 10) kn exVR) 9 ⟨exFacR.W, exGR, exFacR.W.map zerosLike, [], [], []⟩
    ⟨true, [.blank]⟩ = .ok ((r, ret), ⟨true, [.blank] ++ l⟩) := by
  obtain ⟨r, ret, h, -⟩ := C30_bench (N := 4) (by norm_num) (by norm_num) (by norm_num) true (1 / 2) 1 (1 / 10) hk exShapedR
    (G := exGR) rfl ⟨false, 1 / 1000, 60, 1, 1, true⟩ rfl (by norm_num) (by norm_num) (fun _ => 0) (by norm_num) 9 (by norm_num)
  unfold alsCPPP at h
  rw [← ppDriverC_real] at h
  obtain ⟨l, h1, -⟩ := C86_pp_bench (e := ⟨true, true, 4, 1, fun i => i⟩) rfl rfl (w := ⟨true, [.blank]⟩) rfl h
  exact ⟨r, ret, l, h1⟩

end Log

section Legacy

example (k : Kern ℝ) := C87_same_results (N := 4) 2 (1 / 2) (fun _ _ M _ => M) exVR exFacR.W exFacR k exTuckV [1, 2, 1, 3] exTuckW 3 []

example (kn : Kern ℝ) (hk : KernOk kn) := C89_cp_pp (N := 4) (n := ![2, 3, 1, 4]) (R := 2) (by norm_num) (by norm_num) (by norm_num) exDimsPos
  (by norm_num) (lam := 1 / 2) (by norm_num) true true 1 (1 / 10) hk hk exOnesW_shapedR exOnesW_shapedR exSwap_shaped exSwap_shaped exSwapCoord_ok
  exSwapCoord_sign exSwapCoord_tensor exSwapCoord_fac exSwapCoord_fac ⟨false, 1 / 1000, 60, 20, 10, false⟩ (by norm_num) (by norm_num)
  (fun _ => 0) (by norm_num) 100 (by norm_num)

/-- With a clock that reaches the limit. -/
example (kn : Kern ℝ) (hk : KernOk kn) := C89_cp_pp_alike (N := 4) (n := ![2, 3, 1, 4]) (R := 2) (by norm_num) (by norm_num) (by norm_num) exDimsPos
  (by norm_num) (lam := 1 / 2) (by norm_num) true true 1 (1 / 10) hk hk exOnesW_shapedR exOnesW_shapedR exSwap_shaped exSwap_shaped exSwapCoord_ok
  exSwapCoord_sign exSwapCoord_tensor exSwapCoord_fac exSwapCoord_fac ⟨false, 1 / 1000, 60, 20, 10, false⟩ (fun t => 7 * t) 100

/-- Reversal of the coordinates of the first two modes. -/
noncomputable def exRev : Fin 4 → ℕ → ℕ → ℝ := fun j x y =>
  if j.1 < 2 then (if x + y + 1 = (![2, 3, 1, 4] : Fin 4 → ℕ) j then 1 else 0) else if x = y then 1 else 0

theorem exRev_orth (j : Fin 4) : ∀ x < (![2, 3, 1, 4] : Fin 4 → ℕ) j, ∀ y < (![2, 3, 1, 4] : Fin 4 → ℕ) j,
    ∑ z ∈ range ((![2, 3, 1, 4] : Fin 4 → ℕ) j), exRev j z x * exRev j z y = if x = y then 1 else 0 := by
  intro x hx y hy
  fin_cases j
  · have hx : x < 2 := hx; have hy : y < 2 := hy
    show ∑ z ∈ range 2, _ = _
    interval_cases x <;> interval_cases y <;> simp [exRev]
  · have hx : x < 3 := hx; have hy : y < 3 := hy
    show ∑ z ∈ range 3, _ = _
    interval_cases x <;> interval_cases y <;> simp [exRev]
  · have hx : x < 1 := hx; have hy : y < 1 := hy
    show ∑ z ∈ range 1, _ = _
    interval_cases x; interval_cases y; simp [exRev]
  · have hx : x < 4 := hx; have hy : y < 4 := hy
    show ∑ z ∈ range 4, _ = _
    interval_cases x <;> interval_cases y <;> simp [exRev]

/-- The tensor of the examples in the reversed coordinates. -/
noncomputable def exRevV : Tensor ℝ :=
  ⟨[2, 3, 1, 4], fun l => ∑ y ∈ Spec.Box (N := 4) ![2, 3, 1, 4], (∏ j : Fin 4, exRev j (l.getD j 0) (y j)) * arr exVR 4 y⟩

noncomputable def exRevW : List (Tensor ℝ) := List.ofFn fun j : Fin 4 =>
  ⟨[(![2, 3, 1, 4] : Fin 4 → ℕ) j, 2], fun l => ∑ y ∈ range ((![2, 3, 1, 4] : Fin 4 → ℕ) j),
    exRev j (l.getD 0 0) y * mats (N := 4) exFacR.W j y (l.getD 1 0)⟩

theorem exRevW_shaped : Shaped (N := 4) ![2, 3, 1, 4] 2 exRevV exRevW where
  lensV := rfl
  count := by simp [exRevW]
  lensW := by
    intro j M h
    simp only [exRevW, List.getElem?_ofFn, j.isLt, dif_pos, Option.some.injEq] at h
    rw [← h]

theorem exRevW_mats (j : Fin 4) (x r : ℕ) : mats (N := 4) exRevW j x r =
    ∑ y ∈ range ((![2, 3, 1, 4] : Fin 4 → ℕ) j), exRev j x y * mats (N := 4) exFacR.W j y r := by
  have : exRevW[j.1]? = some ⟨[(![2, 3, 1, 4] : Fin 4 → ℕ) j, 2], fun l => ∑ y ∈ range ((![2, 3, 1, 4] : Fin 4 → ℕ) j),
      exRev j (l.getD 0 0) y * mats (N := 4) exFacR.W j y (l.getD 1 0)⟩ := by
    fin_cases j <;> rfl
  simp only [mats, this, mat]
  rfl

example (kn : Kern ℝ) (hk : KernOk kn) := C89_pp_basis (N := 4) (n := ![2, 3, 1, 4]) (m := ![2, 3, 1, 4]) (R := 2) (by norm_num) (by norm_num)
  (by norm_num) exDimsPos (by norm_num) (lam := 1 / 2) (by norm_num) true 1 (1 / 10) hk (V := exVR) (V' := exRevV) (W := exFacR.W)
  (G := exFacR.W) (W' := exRevW) (G' := exRevW) exShapedR exShapedR exRevW_shaped exRevW_shaped exRev exRev_orth
  (by intro idx _; simp [arr, exRevV, Fin.prod_univ_four]) (fun j x _ r _ => exRevW_mats j x r) (fun j x _ r _ => exRevW_mats j x r)
  ⟨false, 1 / 1000, 60, 20, 10, false⟩ (by norm_num) (by norm_num) (fun _ => 0) (by norm_num) 100 (by norm_num)

end Legacy

section BenchLog

/-- `pp_bench -model Tucker -tensor p2`. -/
example (atof : CStr → F64) (clkD clkP timeD timeP : ℕ → ℕ → ℝ) : ∃ E o V d p P,
    benchOpts atof ["pp_bench".toList, "-model".toList, "Tucker".toList, "-tensor".toList, "p2".toList] = .ok o ∧
    benchDriveL true timeD timeP E clkD clkP 4 o V ⟨true, []⟩ =
      .ok (.tucker d p, Stream.puts ⟨true, []⟩ (benchFile (dtBenchText timeD (d.map LLEnd.iter)) P)) ∧ d.length = 5000 ∧
      ∀ x ∈ d, x.iter ≠ 0 := by
  obtain ⟨k, hl, hk⟩ := exists_svdLeading
  obtain ⟨o, ho, hF0, h1, h2, h3, h4, h5, h6, h7, h8, h9⟩ := benchOpts_default atof
    (argv := ["pp_bench".toList, "-model".toList, "Tucker".toList, "-tensor".toList, "p2".toList]) (by decide)
  have hF : o.Finite := ⟨hF0, by rw [h8]; exact dblOpt_none _ _ _ _ (by decide), by rw [h9]; exact dblOpt_none _ _ _ _ (by decide)⟩
  have h6' : tensorKind o.tensor = .poisson2 := by rw [h6]; decide
  have i1 : InputOk (exEnv k fun _ => []) o := by
    unfold InputOk
    rw [h6']
    refine ⟨one_le_two, ?_, ?_, ?_⟩ <;> rw [h1] <;> norm_num
  have i2 : MainDims o (fun _ : Fin 8 => 10) := by
    unfold MainDims
    rw [h6', h1, h3]
    rfl
  have hbk : BenchKind o := by
    unfold BenchKind
    rw [h6']
    decide
  have hT : o.model.head? = some 'T' := by rw [h7]; decide
  obtain ⟨V, -, -, -, Cd, Cp, d, p, W, W1, W2, U1, e, B⟩ := C63_tucker ho hF (by rw [h5]; norm_num) i1 hbk i2 (by norm_num) (by norm_num)
    (by norm_num) (by rw [h1]; rfl) hT hk hl clkD clkP (fuel := 4) (by norm_num)
  have e' : ∃ V', benchDrive (exEnv k fun _ => []) clkD clkP 4 o V' =
      .ok (.tucker ((List.range o.maxiter.toNat).map d) ((List.range o.maxiter.toNat).map p)) := by
    unfold benchMain at e
    simp only [bind, Except.bind, pure, Except.pure] at e
    split at e
    · cases e
    · split at e
      · cases e
      · rename_i V' _ _ out hout
        have := Prod.mk.inj (Except.ok.inj e)
        exact ⟨V', by rw [hout, this.2]⟩
  obtain ⟨V', e'⟩ := e'
  obtain ⟨P, a, -, c⟩ := C86_bench_tucker (timeD := timeD) (timeP := timeP) (by rw [← List.head?_eq_getElem?]; exact hT) e' ⟨true, []⟩
  exact ⟨_, o, V', _, _, P, ho, a, by simp [h2], c⟩

end BenchLog

end Properties
