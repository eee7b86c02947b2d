import Verif.Properties.Interchange
import Verif.Properties.PPPartOrder
import Verif.Properties.PartDriver
import Verif.Properties.TuckerPP
import Verif.Properties.Hooi
import Verif.Properties.Generators
import Verif.Properties.PPDriver
import Verif.Properties.Again

/-! Non-vacuity, continued (2): concrete cases for theorems of C30 - C43 and C50 that the examples at the end of their own files
do not already instantiate. -/

namespace Properties
open Model Finset

section Driver

/-- `C30_exit`: the run exists (`C30_terminates`), so its end is as described. -/
example : ∃ kn : Kern ℝ, KernOk kn ∧ ∃ r ret, alsCPPP true 4 2 (1 / 2) 1 (1 / 10) kn exVR ⟨false, 1 / 1000, 60, 100, 10, false⟩
    (fun _ => 1) 104 exFacR.W exGR = .ok (r, ret) ∧ (r.grad ≤ 1 / 1000 ∨ (100 : ℤ) < r.iter) := by
  obtain ⟨kn, hk⟩ := exists_kernOk
  obtain ⟨r, ret, h, _⟩ := C30_terminates (N := 4) (by norm_num) (by norm_num) (by norm_num) true (1 / 2) 1 (1 / 10) hk
    exShapedR (G := exGR) rfl ⟨false, 1 / 1000, 60, 100, 10, false⟩ (by norm_num) (by norm_num) (fun _ => 1)
    (fun _ => by norm_num) 104 (by norm_num)
  exact ⟨kn, hk, r, ret, h, (C30_exit (by norm_num) (by norm_num) (by norm_num) true (1 / 2) 1 (1 / 10) hk exShapedR rfl
    ⟨false, 1 / 1000, 60, 100, 10, false⟩ (by norm_num) (by norm_num) (fun _ => 1) 104 (by norm_num) r ret h).1⟩

/-- `C30_bench`. -/
example (kn : Kern ℝ) (hk : KernOk kn) := C30_bench (N := 4) (by norm_num) (by norm_num) (by norm_num) true (1 / 2) 1 (1 / 10) hk
  exShapedR (G := exGR) rfl ⟨false, 1 / 1000, 60, 100, 10, true⟩ rfl (by norm_num) (by norm_num) (fun _ => 1)
  (fun _ => by norm_num) 104 (by norm_num)

theorem exGR_norm' : ∃ g, gradnorm exGR 4 = .ok g ∧ 1 ≤ g := by
  have hg := C16_gradnorm (N := 4) (dims := ![2, 3, 1, 4]) (R := 2) (G := exGR) (by
    intro j; fin_cases j <;> exact ⟨_, rfl, rfl⟩)
  refine ⟨_, hg, ?_⟩
  rw [Real.one_le_sqrt]
  have h0 : ∀ j : Fin 4, 0 ≤ ∑ x ∈ range ((![2, 3, 1, 4] : Fin 4 → ℕ) j), ∑ r ∈ range 2, mats (N := 4) exGR j x r ^ 2 :=
    fun j => sum_nonneg fun _ _ => sum_nonneg fun _ _ => sq_nonneg _
  have h2 := single_le_sum (fun j _ => h0 j) (mem_univ (2 : Fin 4))
  refine le_trans ?_ h2
  have : mats (N := 4) exGR 2 = fun _ _ => (1 : ℝ) := rfl
  rw [this]
  simp

/-- `C31_livelock_later`: time has run out at the test before sweep 20 of 100. -/
example (kn : Kern ℝ) (sub fuel : ℕ) : ppDriverLoop { (⟨false, 1 / 1000, 0, 100, 10, false⟩ : PPCfg) with tucker := false }
    (cpPPHooks true 4 2 (1 / 2) 1 (1 / 10) kn exVR) (fun _ => 1) sub fuel
    ⟨20, 7, 5, ⟨exFacR.W, exGR, exFacR.W, exFacR.W, exFacR.W, []⟩, []⟩ = .error .diverge := by
  obtain ⟨g, h1, h2⟩ := exGR_norm'
  exact C31_livelock_later (N := 4) (dims := ![2, 3, 1, 4]) (R := 2) (by norm_num) (by norm_num) true (1 / 2) 1 (1 / 10)
    ⟨false, 1 / 1000, 0, 100, 10, false⟩ rfl (by norm_num) ⟨20, 7, 5, ⟨exFacR.W, exGR, exFacR.W, exFacR.W, exFacR.W, []⟩, []⟩ ⟨exShapedR, rfl, exShapedR⟩ (by norm_num) g h1 (by norm_num; linarith)
    (by norm_num) (.inl (by decide)) _ (fun _ _ => by norm_num) sub fuel

end Driver

section Part

/-- `C32_nan_unsortable`. -/
example (srt : List Rel → List ℕ) : sortIndexes srt [none, some 1, some 0] = .error .ub :=
  C32_nan_unsortable srt (a := some 1) (c := some 0) (by simp) (by simp) (by simp) (by simp [relGt])

theorem exZeroW : Shaped (N := 4) ![2, 3, 1, 4] 2 exVR (exFacR.W.map zerosLike) :=
  ⟨rfl, rfl, by intro j M h; fin_cases j <;> (simp [exFacR, zerosLike] at h; subst h; rfl)⟩

theorem exPartShaped : PartShaped (N := 4) ![2, 3, 1, 4] 2 exVR (partInit 4 exFacR.W exFacR.G (exFacR.W.map zerosLike)) :=
  ⟨exShapedR, rfl, exZeroW, exZeroW, exZeroW, rfl⟩

theorem exPartSortable : StrictWeak (partInit 4 exFacR.W exFacR.G (exFacR.W.map zerosLike)).rel := C32_sortable (by simp [partInit])

theorem exDimsPos : ∀ j : Fin 4, 0 < ![2, 3, 1, 4] j := by intro j; fin_cases j <;> simp

theorem exZeroW_val (j : Fin 4) (x r : ℕ) : mats (exFacR.W.map zerosLike) j x r = (0 : ℝ) := by
  fin_cases j <;> simp [mats, exFacR, zerosLike, mat]

/-- `C32_partial_update`, `C50_sweep_hist`, `C50_first_sweep`, `C50_deficit` and `C50_cyclic_exact`: a sweep over all four modes from
the start of a phase, and the first update in it. -/
example : ∃ (kn : Kern ℝ) (srt : List Rel → List ℕ) (ops : Cache ℝ) (sel : List (Fin 4)) (s1 s' : PartState),
    ppOperators true 4 exVR exFacR.W = .ok ops ∧ sel.length = 4 ∧
    partSweep 4 2 (1 / 2) 1 1 kn srt ops exFacR.W (partInit 4 exFacR.W exFacR.G (exFacR.W.map zerosLike)) = .ok s' ∧
    PartHist ![2, 3, 1, 4] 2 exVR exFacR.W (1 / 2) 1 sel (partInit 4 exFacR.W exFacR.G (exFacR.W.map zerosLike)) s' ∧
    ∃ (i : Fin 4) (t : List (Fin 4)) (s2 : PartState), sel = i :: t ∧
      PartStep ![2, 3, 1, 4] 2 exVR exFacR.W (1 / 2) 1 (partInit 4 exFacR.W exFacR.G (exFacR.W.map zerosLike)) s2 i ∧
      ∀ x < ![2, 3, 1, 4] i, ∀ r < 2, mats s2.M i x r =
        Spec.ppMttkrp ![2, 3, 1, 4] (arr exVR 4) (mats exFacR.W) (mats (exFacR.W.map zerosLike)) i x r := by
  obtain ⟨kn, hk⟩ := exists_kernOk
  obtain ⟨srt, hs, _⟩ := exists_sort_stable
  obtain ⟨ops, sel, s1, s', h1, h2, h3, h4, _, _, h5, _, _, _, h6, _, h7, _⟩ := C32_partial_update (p := 1) (by norm_num) (by norm_num) true
    exShapedR exPartShaped (lam := 1 / 2) (ratio := 1) (by norm_num) exDimsPos hk hs exPartSortable (by norm_num) (by norm_num)
  have hl : sel.length = 4 := by rw [h3]; norm_num
  refine ⟨kn, srt, ops, sel, s1, s', h1, hl, h2, C50_sweep_hist h5 h6 h7, ?_⟩
  cases h5 with
  | nil => simp at hl
  | @cons i l _ s2 _ hstep hrest =>
    refine ⟨i, l, s2, rfl, hstep, ?_⟩
    have z1 : ∀ j : Fin 4, ∀ x < ![2, 3, 1, 4] j, ∀ r < 2,
        mats (partInit 4 exFacR.W exFacR.G (exFacR.W.map zerosLike)).dW j x r = (0 : ℝ) := fun j x _ r _ => exZeroW_val j x r
    have z2 : ∀ j : Fin 4, ∀ x < ![2, 3, 1, 4] j, ∀ r < 2,
        mats (partInit 4 exFacR.W exFacR.G (exFacR.W.map zerosLike)).dM j x r = (0 : ℝ) := fun j x _ r _ => exZeroW_val j x r
    have a := C50_first_sweep h4 z1 z2 (pre := []) rfl (.nil _) hstep
    have b := C50_cyclic_exact (cyc := i :: l) h4 (by
      intro j
      have : (i :: l).toFinset = univ := by
        rw [← card_eq_iff_eq_univ, List.toFinset_card_of_nodup h4, hl, Fintype.card_fin]
      have hj := mem_univ j
      rw [← this, List.mem_toFinset] at hj
      exact hj) z1 z2 (pre := []) (.cons (.nil _)) (.nil _) hstep
    have c := C50_deficit (cyc := i :: l) (a := []) (b := l) h4 (by
      intro j
      have : (i :: l).toFinset = univ := by
        rw [← card_eq_iff_eq_univ, List.toFinset_card_of_nodup h4, hl, Fintype.card_fin]
      have hj := mem_univ j
      rw [← this, List.mem_toFinset] at hj
      exact hj) (pending_start h4 z1 z2) rfl hstep
    exact a

/-- `C32_overrun`. -/
example : ∃ (kn : Kern ℝ) (srt : List Rel → List ℕ) (ops : Cache ℝ), ppOperators true 4 exVR exFacR.W = .ok ops ∧
    partSweep 4 2 (1 / 2) 1 (3 / 2) kn srt ops exFacR.W (partInit 4 exFacR.W exFacR.G (exFacR.W.map zerosLike)) = .error .ub := by
  obtain ⟨kn, hk⟩ := exists_kernOk
  obtain ⟨srt, hs, _⟩ := exists_sort_stable
  obtain ⟨ops, h⟩ := C32_overrun (p := 3 / 2) (by norm_num) (by norm_num) true exShapedR exPartShaped (lam := 1 / 2) (ratio := 1)
    (by norm_num) exDimsPos hk hs exPartSortable (by norm_num)
  exact ⟨kn, srt, ops, h⟩

end Part

section Tucker

/-- `C33_order_one`. -/
example (Y0 : Tensor ℤ) := C33_order_one (dims := fun _ => 3) (rk := fun _ => 2) (V := ⟨[3], fun _ => 1⟩) (W := [⟨[3, 2], fun _ => 1⟩])
  ⟨rfl, rfl, by intro j M h; fin_cases j; simp at h; subst h; rfl⟩ Y0
/-- `C35_tree_eq_direct`. -/
example (Y0 : Tensor ℝ) : ∃ k : Kern ℝ, ∃ W' C, tuckSweep k exTuckV [1, 2, 1, 3] exTuckW = .ok W' ∧
    tuckSweepDT k exTuckV [1, 2, 1, 3] exTuckW = .ok (W', C) := by
  obtain ⟨k, _, hk⟩ := exists_svdLeading
  obtain ⟨W', C, h1, _, h2⟩ := C35_tree_eq_direct (by norm_num) (by norm_num) (by norm_num) exTuckRank exTuckShaped hk Y0
  exact ⟨k, W', C, h1, h2⟩
/-- `C35_order3_diverges` from the empty cache; `C35_order3_no_sweep`. -/
example := C35_order3_diverges (K := ℝ) ⟨[2, 2, 2], fun _ => 1⟩ [] [] rfl rfl 1000
example (k : Kern ℝ) (W : List (Tensor ℝ)) (r : List (Tensor ℝ) × Tensor ℝ) :=
  C35_order3_no_sweep k ⟨[2, 2, 2], fun _ => 1⟩ rfl [1, 1, 1] W r

/-- `C36_overflow`. -/
example := C36_overflow (K := ℤ) (N := 2) (dims := fun _ => 3) (rk := fun _ => 2) (V := ⟨[3, 3], fun _ => 1⟩)
  (Winit := [⟨[3, 2], fun _ => 1⟩, ⟨[3, 2], fun _ => 1⟩]) (.inl (by norm_num))
  ⟨rfl, rfl, by intro j M h; fin_cases j <;> (simp at h; subst h; rfl)⟩
/-- `C36_exact`: only factor 2 has moved. -/
example := C36_exact (by norm_num) (by norm_num) exTuckShaped
  (dW := [⟨[2, 1], fun _ => 0⟩, ⟨[3, 2], fun _ => 0⟩, ⟨[1, 1], fun _ => 4⟩, ⟨[4, 3], fun _ => 7⟩])
  ⟨rfl, rfl, by intro j M h; fin_cases j <;> (simp at h; subst h; rfl)⟩ 3 2 (by
    intro j h3 h2 y _ r _
    fin_cases j
    · rfl
    · rfl
    · exact absurd rfl h2
    · exact absurd rfl h3)
/-- `C36_error_order`. -/
example (t : ℝ) := C36_error_order (dims := ![2, 3, 1, 4]) t (mats exTuckW) (mats exTuckW) (arr exTuckV 4) 1 fun _ => 0
/-- `C36_update`, `C36_phase`. -/
example (Ye : Tensor ℝ) : ∃ k : Kern ℝ, SvdLeading k ∧ ∃ ops W' dW' Ye', tuckOperators 4 exTuckV exTuckW = .ok ops ∧
    tuckPPUpdate 4 k [1, 2, 1, 3] ops exTuckW (exTuckW, exTuckW, Ye) 1 = .ok (W', dW', Ye') := by
  obtain ⟨k, hl, _⟩ := exists_svdLeading
  obtain ⟨ops, W', dW', Ye', h1, h2, _⟩ := C36_update (by norm_num) (by norm_num) exTuckRank exTuckShaped exTuckShaped exTuckShaped hl 1 Ye
  exact ⟨k, hl, ops, W', dW', Ye', h1, h2⟩
example (k : Kern ℝ) (hl : SvdLeading k) :=
  C36_phase (by norm_num) (by norm_num) exTuckRank exTuckShaped exTuckShaped exTuckShaped hl

/-- `C37_sign_iff`, `C37_harmless`. -/
example := C37_sign_iff (W := ⟨[2, 2], fun _ => 1⟩) (Wref := ⟨[2, 2], fun _ => -1⟩) rfl rfl
example := C37_harmless (dims := ![2, 3, 1, 4]) (rk := ![1, 2, 1, 3]) (Wi := ⟨[3, 2], fun _ => 1⟩) (Wref := ⟨[3, 2], fun _ => -1⟩) 1 rfl rfl
  (arr exTuckV 4) (mats exTuckW)
/-- `C38_update_optimal`, `C38_dt_monotone`, `C38_dtsub_monotone`. -/
example (C0 : Tensor ℝ) : ∃ k : Kern ℝ, SvdLeading k ∧
    (∃ W', tuckUpdate k exTuckV [1, 2, 1, 3] exTuckW 1 = .ok W') ∧
    (∃ Ws : ℕ → List (Tensor ℝ), Ws 0 = exTuckW ∧ Monotone ![2, 3, 1, 4] ![1, 2, 1, 3] exTuckV Ws) := by
  obtain ⟨k, hl, hk⟩ := exists_svdLeading
  obtain ⟨W', h, _⟩ := C38_update_optimal (by norm_num) (by norm_num) exTuckRank exTuckShaped hl 1
  obtain ⟨Ws, Cs, h1, h2, _⟩ := C38_dt_monotone (by norm_num) (by norm_num) (by norm_num) exTuckRank exTuckShaped hk hl C0
  obtain ⟨Ws', Ps, _⟩ := C38_dtsub_monotone (by norm_num) (by norm_num) (by norm_num) exTuckRank exTuckShaped exTuckShaped hk hl
  exact ⟨k, hl, ⟨W', h⟩, Ws, h1, h2⟩
/-- `C38_error_identity` for unit vectors. -/
example (V : (Fin 3 → ℕ) → ℝ) := C38_error_identity (dims := fun _ => 2) (rk := fun _ => 1) (Vv := V)
  (F := fun _ x _ => if x = 0 then 1 else 0) (by
    intro j a ha b hb
    interval_cases a; interval_cases b
    simp [Spec.gram, sum_range_succ])

end Tucker

section Generators

/-- `C39_identity`, `C39_random_laplacian`, `C39_order_two`, `C39_odd_order`. -/
example := C39_identity (K := ℤ) (d := 3) (s := 4) (by norm_num) (by norm_num)
example := C39_random_laplacian (K := ℚ) (np := 3) (d := 2) (s := 4) (by norm_num) (by norm_num) (by norm_num) (V := zeroT ℚ [4, 4, 4, 4]) rfl
example := C39_order_two (K := ℚ) 1 (np := 3) (s := 4) (by norm_num) (zeroT ℚ [4, 4])
example := C39_odd_order (K := ℚ) 1 (np := 3) (d := 2) (s := 4) (by norm_num) (by norm_num) (by norm_num) (V := zeroT ℚ [4, 4, 4, 4, 4]) rfl

/-- `C40_fold_pairs`, `C40_roundtrip`, `C40_too_small`. -/
example (val : List ℕ → ℚ) := C40_fold_pairs (K := ℚ) (s := 3) (d := 2) (X := ⟨[3, 3, 3, 3], val⟩) (Y := zeroT ℚ [9, 9])
  (parts := [allPairs ⟨[3, 3, 3, 3], val⟩]) (by simp) rfl rfl
example (val : List ℕ → ℚ) : ∃ Y' Z', foldUnfold [allPairs ⟨[3, 4], val⟩] (zeroT ℚ [6, 2]) = .ok Y' ∧
    foldUnfold [allPairs Y'] (zeroT ℚ [3, 4]) = .ok Z' ∧ ∀ idx, fits [3, 4] idx = true → Z'.val idx = (⟨[3, 4], val⟩ : Tensor ℚ).val idx := by
  obtain ⟨Y', h, _⟩ := C40_fold (K := ℚ) (X := ⟨[3, 4], val⟩) (Y := zeroT ℚ [6, 2]) (parts := [allPairs ⟨[3, 4], val⟩]) (by simp)
    (by simp [zeroT])
  obtain ⟨Z', h1, _, h2⟩ := C40_roundtrip (K := ℚ) (X := ⟨[3, 4], val⟩) (Y := zeroT ℚ [6, 2]) (Z := zeroT ℚ [3, 4])
    (parts := [allPairs ⟨[3, 4], val⟩]) (by simp) (by simp [zeroT]) rfl h (parts' := [allPairs Y']) (by simp)
  exact ⟨Y', Z', h, h1, h2⟩
example (val : List ℕ → ℚ) := C40_too_small (K := ℚ) (X := ⟨[3, 4], val⟩) (Y := zeroT ℚ [11]) (parts := [allPairs ⟨[3, 4], val⟩]) (by simp)
  (by simp [zeroT])
/-- `C41_unit`. -/
example := C41_unit (K := ℚ) (np := 3) (s := 4) (by norm_num) (by norm_num) (rest := [2]) (by simp) (V := zeroT ℚ [4, 4, 4, 2]) rfl
/-- `C42_gram_schmidt`. -/
example := C42_gram_schmidt (n := 3) (A := vecT 3 fun x => (x : ℚ)) (B := vecT 3 fun _ => (1 : ℚ)) rfl rfl
  (by norm_num [vecT, fits, sum_range_succ])
/-- `C43_window`: a run that returns (`C43_returns`). -/
example : ∃ X, genCollinearity 0 1 (fun c x => (c : ℝ) + x + 1) (List.ofFn ![2, 3, 4]) 3 1 = .ok X ∧ X.lens = [2, 3, 4] := by
  obtain ⟨X, h⟩ := C43_returns (N := 3) (dims := ![2, 3, 4]) (R := 3) (fuel := 1) (cmin := 0) (cmax := 1) (rnd := fun c x => (c : ℝ) + x + 1)
    (by omega) (by omega) (by omega) (by norm_num) (by norm_num) fun c x => by positivity
  obtain ⟨a, _, _, h2, _⟩ := C43_window (by norm_num) (by norm_num) h
  exact ⟨X, h, h2⟩
/-- `C43_unreachable_window`, `C43_zero_vectors_pass`. -/
example (fuel : ℕ) := C43_unreachable_window (N := 3) (dims := ![2, 3, 4]) (R := 2) (fuel := fuel) (by norm_num) (by norm_num) le_rfl
  (cmin := 2) (cmax := 3) (.inl (by norm_num)) (rnd := fun c x => (c : ℝ) + x + 1) (fun c x => by positivity)
  (fun c => ⟨0, by simp, by positivity⟩)
example := C43_zero_vectors_pass (N := 3) (dims := ![2, 3, 4]) (R := 3) (fuel := 1) (by norm_num) (by norm_num) le_rfl 0.5 0.9

end Generators

end Properties
