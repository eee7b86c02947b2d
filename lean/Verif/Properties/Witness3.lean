import Verif.Properties.Bench
import Verif.Properties.BenchTuck
import Verif.Properties.TuckTol
import Verif.Properties.PartDriver
import Verif.Properties.Spmd
import Verif.Properties.Ownership
import Verif.Properties.TuckLoop
import Verif.Properties.Run
import Verif.Properties.MainNeg
import Verif.Properties.TuckPP
import Verif.Properties.Keys
import Verif.Properties.LegacyLoop
import Verif.Properties.RunMain
import Verif.Properties.Common
import Verif.Properties.Again
import Verif.Properties.Witness2

/-! Non-vacuity, continued (3): concrete cases for theorems of C44 - C63 that the examples at the end of their own files do not
already instantiate. -/

namespace Properties
open Model Finset

section Drivers

/-- `C54_exit`: the run exists (`C54_terminates`). -/
example : ∃ k r ret, alsTuckerPP 4 k exTuckV (1 / 10) ⟨true, 1 / 1000, 60, 100, 10, false⟩ (fun _ => 1) 103
    ⟨[1, 2, 1, 3], fun _ => 1⟩ exTuckW = .ok (r, ret) ∧ (r.grad ≤ 1 / 1000 ∨ (r.iter : ℤ) = 100 + 1) := by
  obtain ⟨k, hl, hk⟩ := exists_svdLeading
  obtain ⟨r, ret, h, _⟩ := C54_terminates (by norm_num) (by norm_num) (by norm_num) exTuckRank exTuckShaped
    (core := ⟨[1, 2, 1, 3], fun _ => 1⟩) rfl hk hl (1 / 10) 0 (by norm_num) ⟨true, 1 / 1000, 60, 100, 10, false⟩
    (by norm_num) (by norm_num) (by norm_num) (fun _ => 1) (fun _ => by norm_num) 103 (by norm_num)
  exact ⟨k, r, ret, h, (C54_exit (by norm_num) (by norm_num) (by norm_num) exTuckRank exTuckShaped
    (core := ⟨[1, 2, 1, 3], fun _ => 1⟩) rfl hk hl (1 / 10) ⟨true, 1 / 1000, 60, 100, 10, false⟩
    (by norm_num) (by norm_num) (by norm_num) (fun _ => 1) 103 (by norm_num) r ret h).stop⟩

/-- `C54_always`, with `tol_init` 5 (several rounds). -/
example (k : Kern ℝ) (hk : SvdShape k) (hl : SvdLeading k) := C54_always (by norm_num) (by norm_num) (by norm_num) exTuckRank exTuckShaped
  (core := ⟨[1, 2, 1, 3], fun _ => 1⟩) rfl hk hl 5 ⟨true, 1 / 1000, 60, 100, 10, false⟩
  (by norm_num) (by norm_num) (by norm_num) (fun _ => 1) (fun _ => by norm_num)

/-- `C54_livelock_later`: iteration 10, a core whose norm is not that of the previous core. -/
example (k : Kern ℝ) : ∃ t : ℝ, ppDriverLoop ⟨true, 1 / 1000, 0, 100, 10, false⟩ (tuckPPHooks 4 k exTuckV) (fun _ => 1) 7 7
    ⟨10, 1, 0, ⟨exTuckW, exTuckW, exTuckW, exTuckW, [], ⟨[1, 2, 1, 3], fun _ => 1⟩, ⟨[1, 2, 1, 3], fun _ => t⟩, 1 / 10⟩, []⟩ =
      .error .diverge := by
  obtain ⟨t, ht⟩ : ∃ t, t = coreNorm (N := 4) ![2, 3, 1, 4] ![1, 2, 1, 3] exTuckV exTuckW + 1 := ⟨_, rfl⟩
  have h0 : 0 ≤ coreNorm (N := 4) ![2, 3, 1, 4] ![1, 2, 1, 3] exTuckV exTuckW := Real.sqrt_nonneg _
  have hn : t ≤ norm2 (⟨[1, 2, 1, 3], fun _ => t⟩ : Tensor ℝ) := by
    unfold norm2
    apply Real.le_sqrt_of_sq_le
    rw [sqNorm_eq (N := 4) (dims := ![1, 2, 1, 3]) (by simp [List.ofFn_succ])]
    refine le_trans ?_ (single_le_sum (a := fun _ => 0) (fun z _ => sq_nonneg _) (Spec.mem_Box.2 fun j => by fin_cases j <;> norm_num))
    exact le_rfl
  refine ⟨t, C54_livelock_later (N := 4) (dims := ![2, 3, 1, 4]) (rk := ![1, 2, 1, 3]) (by norm_num) (by norm_num)
    ⟨true, 1 / 1000, 0, 100, 10, false⟩ rfl (by norm_num) _ exTuckShaped exTuckShaped rfl rfl (by norm_num) ?_ (by norm_num)
    (.inl ⟨by show Int.tmod 10 10 = 0; rfl, by norm_num⟩) _ (fun _ _ => by norm_num) 7 7⟩
  simp only
  rw [abs_sub_comm]
  refine lt_of_lt_of_le ?_ (le_abs_self _)
  norm_num
  linarith

/-- `C54_tol_floor`. -/
example := C54_tol_floor (x := 1 / 10) (by norm_num) 1000

/-- `C56_exit`, `C56_guard`, `C56_livelock`. -/
example (kn : Kern ℝ) (hk : KernOk kn) (srt : List Rel → List ℕ) (hs : SortSpec srt) := C56_exit (N := 4) (by norm_num) (by norm_num)
  (by norm_num) true (1 / 2) 1 (1 / 10) (p := 1 / 2) (by norm_num) (by norm_num) hk hs exShapedR (G := exGR) rfl
  ⟨false, 1 / 1000, 60, 100, 10, false⟩ (by norm_num) (by norm_num) (fun _ => 1) 110 (by norm_num)
example (kn : Kern ℝ) (hk : KernOk kn) (srt : List Rel → List ℕ) (hs : SortSpec srt) := C56_guard (N := 4) (by norm_num) (by norm_num)
  (by norm_num) true (1 / 2) 1 (1 / 10) (by norm_num) (p := 1 / 2) (by norm_num) (by norm_num) hk hs exShapedR (G := exGR) rfl
  ⟨false, 1 / 1000, 60, 100, 10, false⟩ rfl (fun _ => 1) 110
example (kn : Kern ℝ) (srt : List Rel → List ℕ) (fuel : ℕ) :
    alsCPPart true 4 2 (1 / 2) 1 (1 / 10) (1 / 2) kn srt exVR ⟨false, 1 / 1000, 0, 100, 10, false⟩ (fun _ => 1) fuel exFacR.W exGR =
      .error .diverge := by
  obtain ⟨g, hg, h1⟩ := exGR_norm'
  exact C56_livelock (N := 4) (by norm_num) (by norm_num) true (1 / 2) 1 (1 / 10) (1 / 2) exShapedR rfl
    ⟨false, 1 / 1000, 0, 100, 10, false⟩ rfl (by norm_num) (by norm_num) (by norm_num) g hg (by norm_num; linarith) (fun _ => 1)
    (fun _ => by norm_num) fuel

end Drivers

section Options

/-- `C44_lookup`: the value after `-dim`. -/
example : Spec.Follows exArgv "-dim".toList "4".toList := (C44_lookup _ _ _).1 (by decide)
/-- `C44_lookup_none`: an option that is absent, and one that is the last argument. -/
example : "-rank".toList ∉ exArgv ∨ ∃ l, "-rank".toList ∉ l ∧ exArgv = l ++ ["-rank".toList] := (C44_lookup_none _ _).1 (by decide)
example : getCmdOption (exArgv ++ ["-rank".toList]) "-rank".toList = none := (C44_lookup_none _ _).2 (.inr ⟨exArgv, by decide, rfl⟩)
/-- `C44_defined` and `C44_values`, `C44_ranges`, `C44_resprint_zero` of its result. -/
example (atof : CStr → F64) : ∃ o, runOpts atof exArgv = .ok o := C44_defined atof exArgv (by
  intro name hn t ht
  simp only [intNames, List.mem_cons, List.not_mem_nil, or_false] at hn
  rcases hn with rfl | rfl | rfl | rfl | rfl | rfl | rfl | rfl | rfl <;>
    first
    | exact absurd ((by decide : getCmdOption exArgv _ = none).symm.trans ht) (by simp)
    | exact ⟨1, by rw [← Option.some.inj ((by decide : getCmdOption exArgv "-pp".toList = some "1".toList).symm.trans ht)]; decide⟩
    | exact ⟨4, by rw [← Option.some.inj ((by decide : getCmdOption exArgv "-dim".toList = some "4".toList).symm.trans ht)]; decide⟩
    | exact ⟨0, by rw [← Option.some.inj ((by decide : getCmdOption exArgv "-resprint".toList = some "x".toList).symm.trans ht)]; decide⟩)
example (atof : CStr → F64) := C44_values (exRunOpts_ok atof '1' (by decide))
example (atof : CStr → F64) := C44_ranges (exRunOpts_ok atof '1' (by decide))
/-- `C44_atoi`, `C44_garbage`: ` -12x`, `x1`. -/
example : atoi (" -12x".toList) = .ok (-12) := by
  have h := (C44_atoi 12 [' '] ['x'] (by decide) (by decide)).2.2
  rw [if_pos (by norm_num)] at h
  exact h
example : atoi "x1".toList = .ok 0 := C44_garbage [] ['1'] 'x' (by decide) (by decide) (by decide) (by decide) (by decide)
/-- `C51_kinds`. -/
example : tensorKind "p3".toList = .poisson := (C51_kinds _).1.2 ⟨['3'], rfl, by decide⟩
/-- `C44_nan`: an `atof` that reads everything as NaN. -/
example : ∃ o, runOpts (fun _ => .nan) ["run".toList, "-tol".toList, "nan".toList] = .ok o ∧ o.tol = .nan :=
  ⟨_, rfl, (C44_nan (atof := fun _ => .nan) (argv := ["run".toList, "-tol".toList, "nan".toList]) rfl (t := "nan".toList) rfl).1
    (by decide)⟩
/-- `C44_resprint_zero`. -/
example (atof : CStr → F64) : ∃ o, runOpts atof ["run".toList, "-resprint".toList, "0".toList] = .ok o ∧ o.resprint = 0 :=
  ⟨_, rfl, (C44_resprint_zero (atof := atof) (argv := ["run".toList, "-resprint".toList, "0".toList]) rfl (t := "0".toList)
    (by decide) (by decide)).1⟩
/-- `C44_test_values`, `C44_test_rank`: `-rank 11` with the default size 10. -/
example (atof : CStr → F64) : ∃ o, testOpts atof ["test_ALS".toList, "-rank".toList, "11".toList] = .ok o ∧ o.R = 5 ∧
    IntOption ["test_ALS".toList, "-rank".toList, "11".toList] "-rank" (fun x => 0 ≤ x ∧ x ≤ o.size) (o.size / 2) o.R :=
  ⟨_, rfl, C44_test_rank (atof := atof) (argv := ["test_ALS".toList, "-rank".toList, "11".toList]) rfl (t := "11".toList) (r := 11)
    (by decide) (by decide) (by show (10 : ℤ) < 11; norm_num), (C44_test_values (atof := atof) (argv := ["test_ALS".toList, "-rank".toList, "11".toList]) rfl).2.2.2.2.1⟩
/-- `C51_default_aborts`, `C51_no_arguments`, `C51_datasets`. -/
example := C51_default_aborts (o := { exRunOpts 1 with tensor := "p".toList }) rfl (by simp [exRunOpts]) rfl (by simp [exRunOpts])
  (by simp [exRunOpts])
example (atof : CStr → F64) := C51_no_arguments atof "run".toList (by decide)
example := C51_datasets (o := { exRunOpts 1 with tensor := "o1".toList }) (.inl rfl)
/-- `C52_noise`. -/
example := C52_noise (V := ⟨[1], fun _ => 3⟩) (noise := ⟨[1], fun _ => 1⟩) rfl (by simp [norm2, sqNorm, boxList]) (ratio := 1 / 100)
  (by norm_num)

end Options

section Ownership

theorem exHeap_ok : exHeap.Ok ∧ InitArgs exHeap (some 0) (some 1) := by
  refine ⟨⟨?_, ?_⟩, 0, 1, rfl, rfl, Or.inr rfl, rfl⟩
  · intro p hp
    have hp' : 2 ≤ p := hp
    simp only [exHeap]
    rw [if_neg (by omega)]
  · intro p hp
    have : p = 0 := by simpa [exHeap] using hp
    subst this
    simp [exHeap]

theorem exHeap2_ok : exHeap2.Ok ∧ InitArgs exHeap2 (some 0) (some 1) ∧ exHeap2.live 0 = some .single ∧
    InitArgs exHeap2 (some 2) (some 3) := by
  refine ⟨⟨?_, fun p hp => by cases hp⟩, ⟨0, 1, rfl, rfl, Or.inl rfl, rfl⟩, rfl, ⟨2, 3, rfl, rfl, Or.inl rfl, rfl⟩⟩
  intro p hp
  have hp' : 4 ≤ p := hp
  simp only [exHeap2]
  rw [if_neg (by omega), if_neg (by omega)]

/-- `C45_one_init`, `C45_no_init`, `C45_second_init`, `C45_both_free`, `C45_iff`, `C45_copy`. -/
example := C45_one_init (kind := .msdtlr) exHeap_ok.1 (pre := [.als false 0]) (post := [.als true 7, .als true 2])
  (by simp [CpdCall.idle]) (by simp [CpdCall.isAls]) exHeap_ok.2
example := C45_no_init (kind := .dt) exHeap_ok.1 (calls := [.als false 0, .als false 0]) (by simp [CpdCall.idle])
example := C45_second_init (kind := .dt) exHeap_ok.1 (pre := []) (mid := [.als true 7]) (rest := []) (v' := some 0) (w' := some 1)
  (by simp) (by simp [CpdCall.isAls]) exHeap_ok.2
example := C45_both_free (kind := .dt) exHeap2_ok.1 (pre := []) (mid := [.als true 7]) (by simp) (by simp [CpdCall.isAls])
  exHeap2_ok.2.1 exHeap2_ok.2.2.1 exHeap2_ok.2.2.2 (by norm_num)
example : ∃ h', cpdLife .simple exHeap [.init (some 0) (some 1), .als true 7] = .ok h' :=
  (C45_iff (kind := .simple) exHeap_ok.1 (calls := [.init (some 0) (some 1), .als true 7]) (by
    intro v w h
    simp only [List.mem_cons, CpdCall.init.injEq, List.not_mem_nil, or_false, reduceCtorEq] at h
    rw [h.1, h.2]
    exact exHeap_ok.2)).1.2 (.inr ⟨[], _, _, [.als true 7], rfl, by simp, by simp [CpdCall.isAls]⟩)
example := C45_copy (kind := .dt) exHeap_ok.1 (pre := [.als false 0]) (post := [.als true 7])
  (by simp [CpdCall.idle]) (by simp [CpdCall.isAls]) exHeap_ok.2

end Ownership

section Spmd

/-- `C46_agree`: two ranks whose clocks tick differently but agree on every test. -/
example : ∃ r : AlsEnd (OptState ℝ × Fac ℝ), ∃ o0, optInit ℝ 4 .msdt = .ok o0 ∧ ∃ F ranks,
    cpdAlsSpmd (0 : Fin 2) .msdt 4 2 3 (fun _ _ M _ => M) 1 exLRR exVR exArgs
      (fun (p : Fin 2) (_ : ℕ) => (p.val : ℝ) / 2) F (o0, exFacR) = .ok (some (ranks, r.st, r.rows)) := by
  obtain ⟨o0, s, r, h0, hs, h1, -⟩ := C18_als_terminates exFits exShapedR rfl 3 (fun _ _ M _ => M) 1 exLRR (a := exArgs)
    (by simp [exArgs]) ((fun (p : Fin 2) (k : ℕ) => (p.val : ℝ) / 2) 0) 0 (Nat.lt_succ_self _)
  obtain rfl : (o0, exFacR) = s := Except.ok.inj hs
  obtain ⟨ranks, h2, _⟩ := C46_agree (clock := fun (p : Fin 2) (k : ℕ) => (p.val : ℝ) / 2) (0 : Fin 2) h1 (fun row _ _ p => by
    have hp : (p.val : ℝ) < 2 := by exact_mod_cast p.2
    exact iff_of_false (by show ¬ (60 : ℝ) < (p.val : ℝ) / 2; linarith) (by show ¬ (60 : ℝ) < ((0 : Fin 2).val : ℝ) / 2; norm_num)) le_rfl
  exact ⟨r, o0, h0, _, ranks, h2⟩
/-- `C46_disagree`, `C46_deadlock_first`: rank 1 is past the limit at the first test. -/
example : ∃ o0 g, optInit ℝ 4 .msdt = .ok o0 ∧ gradnorm exGR 4 = .ok g ∧ 1 ≤ g ∧ ∃ F, ∀ F' ≥ F,
    cpdAlsSpmd (0 : Fin 2) .msdt 4 2 3 (fun _ _ M _ => M) 1 exLRR exVR exArgs (fun (p : Fin 2) (k : ℕ) => (k : ℝ) + 100 * p.val) F'
      (o0, ⟨exFacR.W, exGR⟩) = .ok none := by
  obtain ⟨o0, s, r, h0, -⟩ := C18_als_terminates exFits exShapedR rfl 3 (fun _ _ M _ => M) 1 exLRR (a := exArgs)
    (by simp [exArgs]) (fun k => k) 0 (Nat.lt_succ_self _)
  obtain ⟨g, hg, h1⟩ := exGR_norm'
  exact ⟨o0, g, h0, hg, h1, C46_deadlock_first (f := ⟨exFacR.W, exGR⟩) exFits exShapedR rfl 3 (fun _ _ M _ => M) 1 exLRR (a := exArgs) (by simp [exArgs])
    (by simp [exArgs]) h0 hg (by show (1 / 1000 : ℝ) ≤ g; linarith) (p := 1) (q := 0)
    (by show (60 : ℝ) < ((0 : ℕ) : ℝ) + 100 * ((1 : Fin 2).val : ℝ); norm_num) (by show ((0 : ℕ) : ℝ) + 100 * ((0 : Fin 2).val : ℝ) ≤ 60; norm_num)⟩
/-- `C46_disagree`: a row of the log whose test the two clocks decide differently. -/
example : ∃ (r : AlsEnd (OptState ℝ × Fac ℝ)) (o0 : OptState ℝ) (F : ℕ),
    cpdAls .msdt 4 2 3 (fun _ _ M _ => M) 1 exLRR exVR exArgs (fun k => (k : ℝ) + 100 * ((0 : Fin 2).val : ℝ)) F (o0, ⟨exFacR.W, exGR⟩) = .ok r ∧
    cpdAlsSpmd (0 : Fin 2) .msdt 4 2 3 (fun _ _ M _ => M) 1 exLRR exVR exArgs (fun (p : Fin 2) (k : ℕ) => (k : ℝ) + 100 * p.val)
      (2 * F + 1) (o0, ⟨exFacR.W, exGR⟩) = .ok none := by
  obtain ⟨o0, s, r, e1, e2, e3, e4, -, e5⟩ := C49_log_rows (f := ⟨exFacR.W, exGR⟩) exFits exShapedR rfl 3 (fun _ _ M _ => M) 1 exLRR
    (a := exArgs) (by simp [exArgs]) ((fun (p : Fin 2) (k : ℕ) => (k : ℝ) + 100 * p.val) 0) 0 (Nat.lt_succ_self _)
  obtain rfl : (o0, ⟨exFacR.W, exGR⟩) = s := Except.ok.inj e2
  obtain ⟨row, hrow, hi⟩ := (e4 0).mpr ⟨by omega, by simp [exArgs], Or.inr (Or.inl rfl)⟩
  obtain ⟨-, s', f1, f2, -⟩ := e5 row hrow
  rw [hi] at f1
  obtain rfl : (o0, ⟨exFacR.W, exGR⟩) = s' := Except.ok.inj f1
  obtain ⟨g, hg, h1⟩ := exGR_norm'
  have hgr : g = row.gradnorm := Except.ok.inj (hg.symm.trans f2)
  exact ⟨r, o0, _, e3, C46_disagree (clock := fun (p : Fin 2) (k : ℕ) => (k : ℝ) + 100 * p.val) (0 : Fin 2) e3 hrow
    (by rw [← hgr]; exact le_trans (by norm_num [exArgs]) h1) (p := 1) (by
      intro h
      have := h.1 (by rw [hi]; show (60 : ℝ) < ((0 : ℕ) : ℝ) + 100 * ((1 : Fin 2).val : ℝ); norm_num)
      rw [hi] at this
      have h60 : (60 : ℝ) < ((0 : ℕ) : ℝ) + 100 * ((0 : Fin 2).val : ℝ) := this
      norm_num at h60) le_rfl⟩

end Spmd

section Keys

/-- `C47_vec2str`, `C47_collision`, `C47_literal`, `C47_unsorted`. -/
example := C47_vec2str (v := [0, 25, 158]) (by decide)
example : vec2strC [3, 159, 4] = vec2strC [3, 159] := C47_collision [3] [4] [] (by decide)
example := C47_literal (N := 31) (by norm_num) false
example := C47_unsorted

end Keys

section Loops

/-- `C48_cp_sweep`. -/
example : ∃ n0, fNorm 3 exCubeW = .ok n0 ∧ ∃ s', alsCPSweep 3 2 (fun _ _ _ _ _ _ => 1) exCubeV exCubeW ⟨exCubeW, [], n0⟩ = .ok s' := by
  obtain ⟨r, n0, _, h, _⟩ := C48_cp (N := 3) (s := 3) (R := 2) (by norm_num) (by norm_num) exCubeShaped exCubeShaped
    (G := exCubeW) rfl (fun _ _ _ _ _ _ => 1) (1 / 1000) 60 (maxiter := 250) (by norm_num) (fun k => k) (fuel := 252)
    (by norm_num)
  obtain ⟨W1, W2, -, -, -, -, h2⟩ := C48_cp_sweep (N := 3) (s := 3) (R := 2) (by norm_num) (by norm_num) exCubeShaped exCubeShaped
    (fun _ _ _ _ _ _ => 1) [] n0 h
  exact ⟨n0, h, _, h2⟩

/-- `C53_tucker_dt`, `C53_tucker`. -/
example (k : Kern ℝ) (hk : SvdShape k) := C53_tucker_dt (by norm_num) (by norm_num) (by norm_num) exTuckRank exTuckShaped
  (core := ⟨[1, 2, 1, 3], fun _ => 1⟩) rfl hk (a := ⟨1 / 1000, 60, 25, 10⟩) (by norm_num) (by norm_num) (fun _ => 1)
  (fuel := 27) (by norm_num)
example (k : Kern ℝ) (hk : SvdShape k) := C53_tucker (by norm_num) (by norm_num) exTuckRank exTuckShaped
  (core := ⟨[1, 2, 1, 3], fun _ => 1⟩) rfl hk (1 / 1000) 60 (maxiter := 250) (by norm_num) (fun _ => 1) (fuel := 252) (by norm_num)

end Loops

section Mains

/-- `C57_resprint_zero`. -/
example (k : Kern ℝ) (srt : List Rel → List ℕ) : testMain (exEnv k srt) 2 { exRunOpts 0 with resprint := 0 } = .error .ub := by
  obtain ⟨V, hV, -⟩ := C57_tensor (E := exEnv k srt) (o := { exRunOpts 0 with resprint := 0 }) trivial
  exact C57_resprint_zero ⟨_, rfl⟩ ⟨_, rfl⟩ rfl (by simp [exRunOpts]) rfl hV le_rfl (.inl rfl)

/-- `C57_no_work`: the tolerance is relative to the norm of the tensor, at least 10 here. -/
example (k : Kern ℝ) (srt : List Rel → List ℕ) : ∃ E V, (∃ r, testMain E 1 { exRunOpts 1 with tol := .fin 1 } =
      .ok (V, .cpPP r true) ∧ r.iter = 0) ∨
    (∃ r, testMain E 1 { exRunOpts 1 with tol := .fin 1 } = .ok (V, .cpPart r true) ∧ r.iter = 0) := by
  have hV : mainTensor { exEnv k srt with tenRnd := fun _ => 10 } { exRunOpts 1 with tol := .fin 1 } =
    .ok (fillT [3, 3, 3, 3] fun _ => 10) := rfl
  refine ⟨_, _, (C57_no_work ⟨_, rfl⟩ ⟨_, rfl⟩ (by simp [exRunOpts]) rfl hV le_rfl (.inl rfl) ?_).imp
    (fun ⟨r, h, h1, _⟩ => ⟨r, h, h1⟩) (fun ⟨r, h, h1, _⟩ => ⟨r, h, h1⟩)⟩
  have : (10 : ℝ) ≤ norm2 (fillT [3, 3, 3, 3] fun _ => (10 : ℝ)) := by
    unfold norm2
    apply Real.le_sqrt_of_sq_le
    rw [sqNorm_eq (N := 4) (dims := ![3, 3, 3, 3]) (by simp [List.ofFn_succ, fillT])]
    refine le_trans ?_ (single_le_sum (a := fun _ => 0) (fun z _ => sq_nonneg _) (Spec.mem_Box.2 fun j => by fin_cases j <;> norm_num))
    exact le_rfl
  simpa [F64.toReal] using this

/-- `C57_orders_3_5`: order 5, tolerance 0. -/
example (k : Kern ℝ) (srt : List Rel → List ℕ) : testMain (exEnv k srt) 7 { exRunOpts 0 with dim := 5, tol := .fin 0 } = .error .ub := by
  have hV : mainTensor (exEnv k srt) { exRunOpts 0 with dim := 5, tol := .fin 0 } = .ok (fillT [3, 3, 3, 3, 3] fun _ => 1) := rfl
  obtain ⟨g, hg⟩ := gradnorm_ok (N := 5) (G := fillMats [3, 3, 3, 3, 3] 1 (exEnv k srt).g0) (by simp [fillMats])
  refine (C57_orders_3_5 ⟨_, rfl⟩ ⟨_, rfl⟩ (by simp [exRunOpts]) (by simp [exRunOpts]) rfl rfl hV (.inl rfl) hg ?_ ?_).1 rfl (by norm_num)
  · simp only [F64.toReal, zero_mul, not_lt]
    unfold gradnorm at hg
    simp only [bind, Except.bind] at hg
    split at hg
    · cases hg
    · rw [← Except.ok.inj hg]
      exact Real.sqrt_nonneg _
  · simp [exEnv, exRunOpts, F64.toReal]

/-- `C57_poisson_odd`, `C57_poisson2_odd`. -/
example (k : Kern ℝ) (srt : List Rel → List ℕ) := C57_poisson_odd (E := exEnv k srt) (o := { exRunOpts 0 with dim := 5, tensor := "p".toList })
  rfl one_le_two (fun X => by simp [exEnv]) (d := 2) rfl le_rfl (by norm_num) (by simp [exRunOpts]) 9
example (k : Kern ℝ) (srt : List Rel → List ℕ) := C57_poisson2_odd (E := exEnv k srt) (o := { exRunOpts 0 with dim := 5, tensor := "p2".toList })
  rfl one_le_two (d := 2) rfl le_rfl (by norm_num)

/-- `C59_residual_monotone`. -/
example (k : Kern ℝ) (srt : List Rel → List ℕ) (slv : Spec.Solver ℝ) (hs : Spec.SolvesConsistent slv) (lr : ℕ → Bool → Spec.LowRank ℝ) :
    ∃ V r, runMain { exEnv k srt with solve := slv } lr 20000 (exRunOpts 1) = .ok (V, some r) ∧
      r.rows.Pairwise fun a b => b.diffV ≤ a.diffV := by
  obtain ⟨V, r, tr, g, h1, -, h2⟩ := C59_run (E := { exEnv k srt with solve := slv }) lr (exRunOpts_ok (fun _ => .nan) '1' (by decide))
    ⟨_, rfl⟩ ⟨_, rfl⟩ (by simp [exRunOpts]) (.inr (.inr (.inr rfl)))
    trivial (by simp [exRunOpts]) (by simp [exRunOpts]) rfl (by decide)
    (by simp [exRunOpts]) (fuel := 20000) (by simp [exRunOpts])
  exact ⟨V, r, h1, (C59_residual_monotone h2 (.inr (.inl rfl)) hs).2⟩
/-- `C59_datasets_abort`. -/
example (E : MainEnv) (lr : ℕ → Bool → Spec.LowRank ℝ) := C59_datasets_abort (E := E) (o := { exRunOpts 1 with tensor := "o2".toList }) lr
  (.inr rfl) rfl rfl (by simp [exRunOpts]) (by simp [exRunOpts]) 9
/-- `C59_ignored_options`: `run -lambda 3 -dim 4`. -/
example (E : MainEnv) (lr : ℕ → Bool → Spec.LowRank ℝ) (atof : CStr → F64) := C59_ignored_options E lr atof 9 (prog := "run".toList)
  (x := "3".toList) (flag := "-lambda") ["-dim".toList, "4".toList] (by decide) (by decide) (by decide)

end Mains

section Common

theorem exKRP : KRPArgs (K := ℤ) [0, 0, 0, 2] [⟨[3, 2], fun i => i.sum⟩, ⟨[5, 2], fun _ => 1⟩, ⟨[2, 2], fun i => 3 + i.sum⟩] [2, 0, 2]
    [2, 3, 2] 3 2 (fun t => if t = 1 then 3 else 2) (fun t => if t = 1 then 0 else 2)
    (fun t => if t = 1 then ⟨[3, 2], fun i => i.sum⟩ else ⟨[2, 2], fun i => 3 + i.sum⟩) where
  order := rfl
  last := rfl
  pos := by decide
  index_eq := by decide
  lens_eq := by decide
  mats := by
    intro t ht
    interval_cases t <;> rfl
  shape := by
    intro t ht
    interval_cases t <;> rfl

theorem exKRP11 (c : ℕ) : KRPArgs (K := ℤ) (List.replicate 12 3) (List.replicate 10 ⟨[2, 3], fun _ => 1⟩ ++ [⟨[c, 3], fun _ => 1⟩])
    ((List.range 11).map fun t => (t : ℤ)) (List.replicate 10 2 ++ [c]) 11 3 (fun t => if t = 10 then c else 2) id
    (fun t => ⟨[if t = 10 then c else 2, 3], fun _ => 1⟩) where
  order := rfl
  last := rfl
  pos := by decide
  index_eq := rfl
  lens_eq := by simp [List.range_succ, List.replicate]
  mats := by
    intro t ht
    interval_cases t <;> rfl
  shape := by
    intro t ht
    rfl

/-- `C60_khatri_rao_product`, `C60_abort`, `C60_entries_lost`. -/
example := C60_khatri_rao_product exKRP (by norm_num)
example := C60_abort (exKRP11 5) le_rfl (by norm_num)
example := C60_entries_lost (exKRP11 2) (by norm_num)
/-- `C61_apply_rankR_update`. -/
example := C61_apply_rankR_update (K := ℤ) (N := 2) (by decide) (dims := fun _ => 2) (R := 1) (q := 1)
  (V := ⟨[2, 2], fun _ => 1⟩) rfl 1 (u := ⟨⟨[2, 1], fun _ => 1⟩, ⟨[1], fun _ => 1⟩, ⟨[1, 1], fun _ => 1⟩⟩) ⟨rfl, rfl, rfl⟩
  (A := ⟨[2, 1], fun _ => 1⟩) (c := ⟨[2, 1], fun idx => ∑ x ∈ range 2, 1⟩) rfl rfl (by
    intro idx _
    simp [arr, Spec.ttm, mat])

end Common

section Bench

/-- `C63_options`. -/
example (atof : CStr → F64) : ∃ o, benchOpts atof ["pp_bench".toList] = .ok o ∧ IntOption ["pp_bench".toList] "-dim" (0 ≤ ·) 8 o.dim :=
  ⟨_, rfl, (C63_options (atof := atof) (argv := ["pp_bench".toList]) rfl).2.2.1⟩
/-- `C63_pp_repetition`, `C63_pp_idle`. -/
example (kn : Kern ℝ) (hk : KernOk kn) := C63_pp_repetition (N := 4) (by norm_num) (by norm_num) (by norm_num) true (1 / 2) 1 (1 / 10) hk
  exShapedR (G := exGR) rfl (c := ⟨false, 1 / 1000, 60, 1, 10, true⟩) rfl rfl (by norm_num) (by norm_num) (fun _ => 1) (fuel := 4) (by norm_num)
example (kn : Kern ℝ) := C63_pp_idle (N := 4) (R := 2) (V := exVR) (W := exFacR.W) (G := exGR) (kn := kn) true (1 / 2) 1 (1 / 10)
  (c := ⟨false, 11, 60, 1, 10, true⟩) (by norm_num) (fun _ => 1) (fuel := 4) (by norm_num)
/-- `C63_tucker_pp_repetition`, `C63_tucker_pp_idle`. -/
example (k : Kern ℝ) (hk : SvdShape k) (hl : SvdLeading k) := C63_tucker_pp_repetition (by norm_num) (by norm_num) (by norm_num) exTuckRank
  exTuckShaped (core := ⟨[1, 2, 1, 3], fun _ => 1⟩) rfl hk hl (1 / 10) (c := ⟨true, 1 / 1000, 60, 1, 10, true⟩) rfl rfl
  (by norm_num) (by norm_num) (fun _ => 1) (fuel := 4) (by norm_num)
example (k : Kern ℝ) := C63_tucker_pp_idle (N := 4) (V := exTuckV) (W := exTuckW) (core := ⟨[1, 2, 1, 3], fun _ => 1⟩) (kn := k) (1 / 10)
  (c := ⟨true, 11, 60, 1, 10, true⟩) (by norm_num) (fun _ => 1) (fuel := 4) (by norm_num)
/-- `C63_unknown_tensor`: `-tensor r`, `c`, `o1`, ... -/
example (E : MainEnv) (clkD clkP : ℕ → ℕ → ℝ) := C63_unknown_tensor (E := E) (o := { exRunOpts 1 with tensor := "x".toList })
  (by unfold BenchKind; decide) clkD clkP 9

end Bench

end Properties
