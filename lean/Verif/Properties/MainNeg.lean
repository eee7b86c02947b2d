import Verif.Properties.Main
import Verif.Properties.Legacy
import Verif.Properties.PPDriver

/-! # C57: runs of test_ALS.cxx that fail or do nothing, and instances of the hypotheses -/

namespace Properties

open Model Finset

variable {E : MainEnv} {o : Opts}

/-- **C57 (violated).** `-resprint 0` (or a token that is not a number) with `-model CP`: undefined behaviour (`iter % 0`) for every
tensor, unless a PP driver is asked for and `tol * ‖V‖ >= 10`. -/
theorem C57_resprint_zero (hx : o.tol.Finite) (htl : o.timelimit.Finite) (hr : o.resprint = 0) (hm : 0 ≤ o.maxiter) (hC : o.model.head? = some 'C') {V : Tensor ℝ}
    (hV : mainTensor E o = .ok V) {fuel : ℕ} (hf : 2 ≤ fuel)
    (hpp : o.pp = 0 ∨ ((o.pp = 1 ∨ o.pp = 2) ∧ o.tol.toReal * norm2 V < 10)) : testMain E fuel o = .error .ub := by
  have hC' : o.model[0]? = some 'C' := by rw [← List.head?_eq_getElem?]; exact hC
  apply testMain_err hV
  obtain ⟨fuel, rfl⟩ : ∃ n, fuel = n + 2 := ⟨fuel - 2, by omega⟩
  rw [mainDrive_fin hx htl]
  unfold mainDriveR
  simp only [if_pos hC']
  rcases hpp with h | ⟨h | h, ht⟩
  · rw [if_pos h]
    simp [alsCPDT, llLoop, hm, hr, bind, Except.bind]
  · rw [if_neg (by omega), if_pos h]
    simp [alsCPPP, ppDriver, ppDriverLoop, dtSub, dtSubLoop, ppTest, cpPPHooks, ht, hm, hr, bind, Except.bind]
  · rw [if_neg (by omega), if_neg (by omega), if_pos h]
    simp [alsCPPart, ppDriver, ppDriverLoop, dtSub, dtSubLoop, ppTest, partPPHooks, cpPPHooks, ht, hm, hr, bind, Except.bind, pure,
      Except.pure]

/-- **C57 (violated).** `-pp 1` and `-pp 2` compare the hard-wired starting value 10 of the gradient norm with `tol * ‖V‖`: for a
tensor with `tol * ‖V‖ >= 10` they return at once, with the random start, an empty log, and report success. -/
theorem C57_no_work (hx : o.tol.Finite) (htl : o.timelimit.Finite) (hm : 0 ≤ o.maxiter) (hC : o.model.head? = some 'C') {V : Tensor ℝ} (hV : mainTensor E o = .ok V) {fuel : ℕ}
    (hf : 1 ≤ fuel) (hpp : o.pp = 1 ∨ o.pp = 2) (ht : 10 ≤ o.tol.toReal * norm2 V) :
    (∃ r, testMain E fuel o = .ok (V, .cpPP r true) ∧ r.iter = 0 ∧ r.st.W = fillMats V.lens o.R.toNat E.w0 ∧ r.trace = []) ∨
    (∃ r, testMain E fuel o = .ok (V, .cpPart r true) ∧ r.iter = 0 ∧ r.st.cp.W = fillMats V.lens o.R.toNat E.w0 ∧ r.trace = []) := by
  have hC' : o.model[0]? = some 'C' := by rw [← List.head?_eq_getElem?]; exact hC
  obtain ⟨fuel, rfl⟩ : ∃ n, fuel = n + 1 := ⟨fuel - 1, by omega⟩
  have hlt : ¬ (o.tol.toReal * norm2 V < 10) := not_lt.2 ht
  have hne : ¬ ((0 : ℤ) = o.maxiter + 1) := by omega
  rcases hpp with h | h
  · left
    refine ⟨⟨0, 10, 0, ⟨fillMats V.lens o.R.toNat E.w0, fillMats V.lens o.R.toNat E.g0,
        (fillMats V.lens o.R.toNat E.w0).map zerosLike, [], [], []⟩, []⟩, testMain_of hV ?_, rfl, rfl, rfl⟩
    rw [mainDrive_fin hx htl]
    unfold mainDriveR
    simp only [if_pos hC']
    rw [if_neg (by omega), if_pos h]
    simp [alsCPPP, ppDriver, ppDriverLoop, hlt, hne, bind, Except.bind, pure, Except.pure]
  · right
    refine ⟨⟨0, 10, 0, ⟨⟨fillMats V.lens o.R.toNat E.w0, fillMats V.lens o.R.toNat E.g0,
        (fillMats V.lens o.R.toNat E.w0).map zerosLike, [], [], []⟩, [], [], []⟩, []⟩, testMain_of hV ?_, rfl, rfl, rfl⟩
    rw [mainDrive_fin hx htl]
    unfold mainDriveR
    simp only [if_pos hC']
    rw [if_neg (by omega), if_neg (by omega), if_pos h]
    simp [alsCPPart, ppDriver, ppDriverLoop, hlt, hne, bind, Except.bind, pure, Except.pure]

/-- **C57 (violated).** Orders 5 and 3 with `-model CP -pp 0`: unless the first test already stops (random gradient below
`tol * ‖V‖`, or no time), the run is undefined behaviour at order 5 and never completes a sweep at order 3. -/
theorem C57_orders_3_5 (hx : o.tol.Finite) (htl : o.timelimit.Finite) (hr : o.resprint ≠ 0) (hm : 0 ≤ o.maxiter) (hC : o.model.head? = some 'C') (hp : o.pp = 0) {V : Tensor ℝ}
    (hV : mainTensor E o = .ok V) (hN : V.lens.length = 5 ∨ V.lens.length = 3) {fuel : ℕ} {g : ℝ}
    (hg : gradnorm (fillMats V.lens o.R.toNat E.g0) V.lens.length = .ok g) (h1 : ¬ g < o.tol.toReal * norm2 V)
    (h2 : ¬ o.timelimit.toReal < E.clock 0) :
    (V.lens.length = 5 → 1 ≤ fuel → testMain E fuel o = .error .ub) ∧ ∀ out, testMain E fuel o ≠ .ok out := by
  have hC' : o.model[0]? = some 'C' := by rw [← List.head?_eq_getElem?]; exact hC
  have hsh : ∀ N, V.lens.length = N → ∃ dims : Fin N → ℕ, V.lens = List.ofFn dims := by
    rintro N rfl
    exact ⟨fun j => V.lens[j], by simp⟩
  have hres : ∀ W, ∀ N, 2 ≤ N → N ≤ 18 → (∃ dims : Fin N → ℕ, Shaped dims o.R.toNat V W) →
      ∃ d, Model.residual V W N = .ok d := fun W N n1 n2 ⟨dims, hS⟩ => ⟨_, C16_residual n1 n2 hS⟩
  have five : V.lens.length = 5 → 1 ≤ fuel → testMain E fuel o = .error .ub := by
    intro h5 hf
    obtain ⟨fuel, rfl⟩ : ∃ n, fuel = n + 1 := ⟨fuel - 1, by omega⟩
    obtain ⟨dims, hd⟩ := hsh 5 h5
    have hW := fillMats_shaped hd o.R.toNat E.w0
    rw [← hd] at hW
    obtain ⟨d, hdd⟩ := hres _ 5 (by norm_num) (by norm_num) ⟨dims, hW⟩
    have hsw := C24_order5_ub (f := ⟨fillMats V.lens o.R.toNat E.w0, fillMats V.lens o.R.toNat E.g0⟩) hW o.lambda.toReal E.solve
      (fillMats V.lens o.R.toNat fun _ _ _ => 0)
    apply testMain_err hV
    rw [mainDrive_fin hx htl]
    unfold mainDriveR
    simp only [if_pos hC', if_pos hp]
    rw [h5] at hg ⊢
    simp only [alsCPDT, llLoop, cpDTHooks, Nat.cast_zero, Int.zero_tmod, true_or, if_true, hm, hr, if_false, hg, hdd, h1, h2, or_self,
      legacySweep, hsw, bind, Except.bind, pure, Except.pure]
  refine ⟨five, ?_⟩
  rcases hN with h5 | h3
  · cases fuel with
    | zero =>
      intro out ho
      rw [testMain_err hV (e := .diverge) (by
        rw [mainDrive_fin hx htl]
        unfold mainDriveR
        simp only [if_pos hC', if_pos hp, alsCPDT, llLoop, bind, Except.bind])] at ho
      cases ho
    | succ n => intro out ho; rw [five h5 (by omega)] at ho; cases ho
  · cases fuel with
    | zero =>
      intro out ho
      rw [testMain_err hV (e := .diverge) (by
        rw [mainDrive_fin hx htl]
        unfold mainDriveR
        simp only [if_pos hC', if_pos hp, alsCPDT, llLoop, bind, Except.bind])] at ho
      cases ho
    | succ fuel =>
      obtain ⟨dims, hd⟩ := hsh 3 h3
      have hW := fillMats_shaped hd o.R.toNat E.w0
      rw [← hd] at hW
      obtain ⟨d, hdd⟩ := hres _ 3 (by norm_num) (by norm_num) ⟨dims, hW⟩
      have hsw := C24_order3_no_sweep o.R.toNat V (fillMats V.lens o.R.toNat fun _ _ _ => 0)
        ⟨fillMats V.lens o.R.toNat E.w0, fillMats V.lens o.R.toNat E.g0⟩ o.lambda.toReal E.solve
      have key : ∃ e, mainDrive E (fuel + 1) o V = .error e := by
        rw [mainDrive_fin hx htl]
        unfold mainDriveR
        simp only [if_pos hC', if_pos hp]
        rw [h3] at hg ⊢
        simp only [alsCPDT, llLoop, cpDTHooks, Nat.cast_zero, Int.zero_tmod, true_or, if_true, hm, hr, if_false, hg, hdd, h1, h2,
          or_self, legacySweep, bind, Except.bind, pure, Except.pure]
        cases hc : legacyUpdates 3 o.R.toNat o.lambda.toReal E.solve V (fillMats V.lens o.R.toNat fun _ _ _ => 0)
          ⟨fillMats V.lens o.R.toNat E.w0, fillMats V.lens o.R.toNat E.g0⟩ with
        | error e => exact ⟨e, rfl⟩
        | ok f => exact absurd hc (hsw f)
      obtain ⟨e, he⟩ := key
      intro out ho
      rw [testMain_err hV he] at ho
      cases ho

/-- **C57 (violated).** `-tensor p` with an odd `-dim` of at least 5: the folded tensor has fewer entries than the Laplacian, and
`fold_unfold` writes outside it. -/
theorem C57_poisson_odd (hk : tensorKind o.tensor = .poisson) (hnp : 1 ≤ E.np)
    (hrl : ∀ X, (E.readLocal X).flatten.Perm (allPairs X)) {d : ℕ} (hd : o.dim = 2 * d + 1) (h2 : 2 ≤ d) (h79 : d ≤ 79)
    (hs : 2 ≤ o.size) (fuel : ℕ) : testMain E fuel o = .error .ub := by
  have hn : o.dim.toNat = 2 * d + 1 := by omega
  obtain ⟨L, l1, l2, -⟩ := C39_odd_order (1 : ℝ) hnp h2 h79 (s := o.size.toNat)
    (V := zeroT ℝ (List.replicate (2 * d + 1) o.size.toNat)) rfl
  have hlt : (zeroT ℝ (List.replicate ((2 * d + 1) / 2) (o.size.toNat * o.size.toNat))).lens.prod < L.lens.prod := by
    rw [l2]
    have hs' : 2 ≤ o.size.toNat := by omega
    simp only [zeroT, List.prod_replicate]
    rw [show (2 * d + 1) / 2 = d by omega, ← pow_two, ← pow_mul]
    exact Nat.pow_lt_pow_right (by omega) (by omega)
  unfold testMain mainTensor
  rw [hk, hn]
  simp only [tensorLens, bind, Except.bind]
  rw [l1]
  simp only
  rw [C40_too_small (hrl L) hlt]

/-- **C57 (violated).** `-tensor p2` with an odd `-dim` of at least 5 silently decomposes another tensor: all but the last summand of
the Laplacian are repeated along the last mode, and the last one couples the wrong modes (compare `InputSpec`). -/
theorem C57_poisson2_odd (hk : tensorKind o.tensor = .poisson2) (hnp : 1 ≤ E.np) {d : ℕ} (hd : o.dim = 2 * d + 1) (h2 : 2 ≤ d)
    (h79 : d ≤ 79) : ∃ V, mainTensor E o = .ok V ∧ V.lens = List.replicate (2 * d + 1) o.size.toNat ∧
      ∀ idx : ℕ → ℕ, (∀ j < 2 * d + 1, idx j < o.size.toNat) → V.val ((List.range (2 * d + 1)).map idx) =
        (∑ k ∈ range (d - 1), Spec.tridiag (-1) (-1) (idx (2 * k)) (idx (2 * k + 1)) *
          ∏ m ∈ (range d).erase k, Spec.delta (idx (2 * m)) (idx (2 * m + 1))) +
        Spec.tridiag (-1) (-1) (idx (2 * d - 1)) (idx (2 * d)) *
          ∏ m ∈ range (d - 1), Spec.delta (idx (2 * m)) (idx (2 * m + 1)) := by
  have hn : o.dim.toNat = 2 * d + 1 := by omega
  obtain ⟨L, l1, l2, l3⟩ := C39_odd_order (1 : ℝ) hnp h2 h79 (s := o.size.toNat)
    (V := zeroT ℝ (List.replicate (2 * d + 1) o.size.toNat)) rfl
  refine ⟨L, ?_, by rw [l2]; rfl, fun idx hidx => ?_⟩
  · unfold mainTensor
    rw [hk, hn]
    simp only [tensorLens, bind, Except.bind]
    rw [l1]
  · rw [l3 idx hidx]
    simp [zeroT]

/-! ## Non-vacuity: `test_ALS` and `test_ALS -model Tucker -pp 1` without further arguments -/

theorem dblOpt_none (atof : CStr → F64) {argv : List CStr} (name : String) (bad : F64 → Prop) (d : ℝ)
    (h : getCmdOption argv name.toList = none) : (dblOpt atof argv name bad d).Finite := by
  unfold dblOpt
  rw [h]
  exact ⟨_, rfl⟩

theorem testOpts_default (atof : CStr → F64) {argv : List CStr}
    (h : ∀ name ∈ ["-dim", "-maxiter", "-size", "-rank", "-issparse", "-resprint", "-tensor", "-tol", "-timelimit", "-update_percentage_pp",
      "-pp_res_tol", "-lambda", "-magni", "-colmin", "-colmax", "-rationoise"], getCmdOption argv name.toList = none) {pp : ℤ} (hpp : intOpt argv "-pp" (fun x => x < 0 ∨ x > 2) 0 = .ok pp) :
    ∃ o, testOpts atof argv = .ok o ∧ o.pp = pp ∧ o.dim = 8 ∧ o.maxiter = 5000 ∧ o.size = 10 ∧ o.R = 5 ∧ o.resprint = 10 ∧
      o.tensor = "p".toList ∧ o.model = modelOpt argv ∧ o.Finite ∧ o.tol = .fin 1e-10 ∧ o.timelimit = .fin 5000 := by
  have hi : ∀ (name : String) (bad : ℤ → Prop) [DecidablePred bad] (d : ℤ), getCmdOption argv name.toList = none →
      intOpt argv name bad d = .ok d := by
    intro name bad _ d hn
    unfold intOpt
    rw [hn]
  have hd : ∀ (name : String) (bad : F64 → Prop) (d : ℝ), getCmdOption argv name.toList = none →
      dblOpt atof argv name bad d = .fin d := by
    intro name bad d hn
    unfold dblOpt
    rw [hn]
  unfold testOpts
  rw [hpp, hi "-dim" _ _ (h _ (by simp)), hi "-maxiter" _ _ (h _ (by simp)), hi "-size" _ _ (h _ (by simp))]
  simp only [bind, Except.bind, pure, Except.pure]
  rw [hi "-rank" _ _ (h _ (by simp)), hi "-issparse" _ _ (h _ (by simp)), hi "-resprint" _ _ (h _ (by simp))]
  refine ⟨_, rfl, rfl, rfl, rfl, rfl, rfl, rfl, ?_, rfl, ⟨⟨dblOpt_none _ "-lambda" _ _ (h _ (by simp)), dblOpt_none _ "-magni" _ _ (h _ (by simp)), dblOpt_none _ "-pp_res_tol" _ _ (h _ (by simp)),
    dblOpt_none _ "-update_percentage_pp" _ _ (h _ (by simp)), dblOpt_none _ "-colmin" (fun _ => False) 0.5 (h _ (by simp)), dblOpt_none _ "-colmax" (fun _ => False) 0.9 (h _ (by simp)), dblOpt_none _ "-rationoise" _ _ (h _ (by simp))⟩, ⟨_, hd _ _ _ (h _ (by simp))⟩, ⟨_, hd _ _ _ (h _ (by simp))⟩⟩, hd _ _ _ (h _ (by simp)), hd _ _ _ (h _ (by simp))⟩
  simp only [strOpt, h "-tensor" (by simp)]
  rfl

/-- `test_ALS` on two MPI ranks. -/
noncomputable def exEnv (k : Kern ℝ) (srt : List Rel → List ℕ) : MainEnv where
  np := 2
  colRnd _ _ := 0
  colFuel := 1
  matRnd _ _ _ := 1
  tenRnd _ := 1
  file _ := 0
  w0 i x r := i + x + r
  g0 _ _ _ := 1
  readLocal X := [[], allPairs X]
  clock _ := 0
  solve _ _ _ _ := fun _ _ => 0
  kern := k
  srt := srt
  same := false

theorem exEnv_input {k : Kern ℝ} {srt : List Rel → List ℕ} (ht : o.tensor = "p".toList) (hd : o.dim = 8) (hs : o.size = 10) :
    InputOk (exEnv k srt) o ∧ MainDims o (fun _ : Fin 4 => 100) := by
  have hk : tensorKind o.tensor = .poisson := by rw [ht]; decide
  constructor
  · unfold InputOk
    rw [hk]
    refine ⟨one_le_two, fun X => by simp [exEnv], ?_, ?_, ?_⟩ <;> rw [hd] <;> norm_num
  · unfold MainDims
    rw [hk, hd, hs]
    rfl

example (atof : CStr → F64) : ∃ E o V out, testOpts atof ["test_ALS".toList] = .ok o ∧ InputSpec E o V ∧
    testMain E 6000 o = .ok (V, out) ∧ CPOutcome E o (fun _ : Fin 4 => 100) V out := by
  obtain ⟨k, hk⟩ := exists_kernOk
  obtain ⟨srt, hsrt, -⟩ := exists_sort_stable
  obtain ⟨o, ho, h1, h2, h3, h4, h5, h6, h7, h8, h9, -⟩ := testOpts_default atof (argv := ["test_ALS".toList]) (pp := 0) (by decide)
    (by decide)
  obtain ⟨i1, i2⟩ := exEnv_input (k := k) (srt := srt) h7 h2 h4
  obtain ⟨V, -, v2, -, h | h⟩ := C57_cp ho h9 (by rw [h6]; norm_num) i1 i2 (by norm_num) (by norm_num) (by norm_num) (by rw [h8]; decide) hk
    hsrt (by intro h; exact absurd h1 h) (fuel := 6000) (by rw [h3]; norm_num)
  · obtain ⟨out, o1, o2⟩ := h
    exact ⟨_, o, V, out, ho, v2, o1, o2⟩
  · rw [h1] at h; exact absurd h.1 (by norm_num)

example (atof : CStr → F64) : ∃ E o V C0 F0, ∃ rk : Fin 4 → ℕ, testOpts atof ["test_ALS".toList, "-model".toList, "Tucker".toList] = .ok o ∧
    InputSpec E o V ∧ hosvd E.kern V (List.ofFn rk) = .ok (C0, F0) ∧ ∃ fuel out, testMain E fuel o = .ok (V, out) ∧
    TuckOutcome o (fun _ : Fin 4 => 100) rk V F0 out := by
  obtain ⟨k, hl, hk⟩ := exists_svdLeading
  obtain ⟨srt, hsrt, -⟩ := exists_sort_stable
  obtain ⟨o, ho, h1, h2, h3, h4, h5, h6, h7, h8, h9, -⟩ := testOpts_default atof
    (argv := ["test_ALS".toList, "-model".toList, "Tucker".toList]) (pp := 0) (by decide) (by decide)
  obtain ⟨i1, i2⟩ := exEnv_input (k := k) (srt := srt) h7 h2 h4
  obtain ⟨V, C0, F0, rk, -, v2, -, -, v5, n, h⟩ := C57_tucker ho h9 (by rw [h4]; norm_num) (by rw [h6]; norm_num) i1 i2 (by norm_num)
    (by norm_num) (by norm_num) (by rw [h8]; decide) hk hl (by intro h; rw [h1] at h; exact absurd h (by norm_num))
    (by intro h; rw [h1] at h; exact absurd h (by norm_num))
  obtain ⟨out, o1, o2⟩ := h n le_rfl
  exact ⟨_, o, V, C0, F0, rk, ho, v2, v5, n, out, o1, o2⟩

end Properties
