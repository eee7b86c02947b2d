import Verif.Properties.MainNeg
import Verif.Properties.RunMain
import Verif.Properties.DirectCalls
import Verif.Properties.TuckTol
import Verif.Properties.BadInput

/-! # C57, C59: tensors of an order the programs cannot handle -/

namespace Properties

open Model

variable {E : MainEnv} {o : Opts}

/-- The first sweep of a PP driver fails. -/
theorem ppDriver_first {σ : Type} {c : PPCfg} {h : PPHooks σ} {clock : ℕ → ℝ} (hb : c.bench = false) (hm : 0 ≤ c.maxiter)
    (ht : c.tol < 10) {s s1 : σ} (hbeg : h.dtBegin s = .ok s1) {t : PPRun σ}
    (htest : ppTest c h clock false (dtChecked c 0) ⟨0, 10, 0, s1, [.dtStart]⟩ = .ok (t, false)) {e : Fault}
    (hsw : h.dtSweep t.st = .error e) (fuel : ℕ) : ppDriver c h clock (fuel + 1) s = .error e := by
  simp [ppDriver, ppDriverLoop, dtSub, dtSubLoop, hb, hm, ht, hbeg, htest, hsw, bind, Except.bind]

/-- The first test of `alsCP_PP`. -/
theorem cpTest_first {N R : ℕ} {V : Tensor ℝ} {dims : Fin N → ℕ} (h2 : 2 ≤ N) (hN : N ≤ 18) (same : Bool) (lam ratio tolInit : ℝ) (k : Kern ℝ)
    {c : PPCfg} (hr : c.resprint ≠ 0) (hct : c.tucker = false) {clock : ℕ → ℝ} {s : CPPPState} (hW : Shaped dims R V s.W) {g : ℝ}
    (hg : gradnorm s.G N = .ok g) (h1 : ¬ g < c.tol) (h3 : ¬ c.timelimit < clock 0) :
    ∃ t, t.st = s ∧ ppTest c (cpPPHooks same N R lam ratio tolInit k V) clock false (dtChecked c 0) ⟨0, 10, 0, s, [.dtStart]⟩ =
      .ok (t, false) := by
  obtain ⟨d, hd⟩ : ∃ d, Model.residual V s.W N = .ok d := ⟨_, C16_residual h2 hN hW⟩
  refine ⟨⟨0, g, 1, s, [.dtStart] ++ [.row 0 g false d]⟩, rfl, ?_⟩
  simp [ppTest, cpPPHooks, dtChecked, hct, hr, hg, hd, h1, h3, bind, Except.bind, pure, Except.pure]

/-- The first test of `alsCP_PP_partupdate`. -/
theorem partTest_first {N R : ℕ} {V : Tensor ℝ} {dims : Fin N → ℕ} (h2 : 2 ≤ N) (hN : N ≤ 18) (same : Bool) (lam ratio tolInit p : ℝ) (k : Kern ℝ)
    (srt : List Rel → List ℕ) {c : PPCfg} (hr : c.resprint ≠ 0) (hct : c.tucker = false) {clock : ℕ → ℝ} {s : PartPPState}
    (hW : Shaped dims R V s.cp.W) {g : ℝ} (hg : gradnorm s.cp.G N = .ok g) (h1 : ¬ g < c.tol) (h3 : ¬ c.timelimit < clock 0) :
    ∃ t, t.st = s ∧ ppTest c (partPPHooks same N R lam ratio tolInit p k srt V) clock false (dtChecked c 0)
      ⟨0, 10, 0, s, [.dtStart]⟩ = .ok (t, false) := by
  obtain ⟨d, hd⟩ : ∃ d, Model.residual V s.cp.W N = .ok d := ⟨_, C16_residual h2 hN hW⟩
  refine ⟨⟨0, g, 1, s, [.dtStart] ++ [.row 0 g false d]⟩, rfl, ?_⟩
  simp [ppTest, partPPHooks, cpPPHooks, dtChecked, hct, hr, hg, hd, h1, h3, bind, Except.bind, pure, Except.pure]

/-- **C57 (violated).** Orders 5 and 3 with `-model CP` and pairwise perturbation (`-pp 1`, `-pp 2`, `tol * ‖V‖ < 10`): unless the first test
already stops (random gradient below `tol * ‖V‖`, or no time), the run is undefined behaviour at order 5 and never completes a sweep at order 3. -/
theorem C57_orders_3_5_pp (hx : o.tol.Finite) (htl : o.timelimit.Finite) (hr : o.resprint ≠ 0) (hm : 0 ≤ o.maxiter)
    (hC : o.model.head? = some 'C') (hp : o.pp = 1 ∨ o.pp = 2) {V : Tensor ℝ} (hV : mainTensor E o = .ok V)
    (hN : V.lens.length = 5 ∨ V.lens.length = 3) (ht : o.tol.toReal * norm2 V < 10) {fuel : ℕ} {g : ℝ}
    (hg : gradnorm (fillMats V.lens o.R.toNat E.g0) V.lens.length = .ok g) (h1 : ¬ g < o.tol.toReal * norm2 V)
    (h2 : ¬ o.timelimit.toReal < E.clock 0) :
    (V.lens.length = 5 → 1 ≤ fuel → testMain E fuel o = .error .ub) ∧ ∀ out, testMain E fuel o ≠ .ok out := by
  have hC' : o.model[0]? = some 'C' := by rw [← List.head?_eq_getElem?]; exact hC
  -- the sweep fails
  have sweep : ∀ W G : List (Tensor ℝ), W = fillMats V.lens o.R.toNat E.w0 → ∃ e, (V.lens.length = 5 → e = .ub) ∧
      legacySweep V.lens.length o.R.toNat o.lambda.toReal (svdSolver E.kern) V (W.map zerosLike) ⟨W, G⟩ = .error e := by
    rintro W G rfl
    rcases hN with h5 | h3
    · obtain ⟨dims, hd⟩ : ∃ dims : Fin 5 → ℕ, V.lens = List.ofFn dims := by
        rw [← h5]; exact ⟨fun j => V.lens[j], by simp⟩
      have hW := fillMats_shaped hd o.R.toNat E.w0
      rw [← hd] at hW
      refine ⟨.ub, fun _ => rfl, ?_⟩
      rw [h5]
      simp only [legacySweep, C24_order5_ub (f := ⟨fillMats V.lens o.R.toNat E.w0, G⟩) hW, bind, Except.bind]
    · rw [h3]
      unfold legacySweep
      cases hc : legacyUpdates 3 o.R.toNat o.lambda.toReal (svdSolver E.kern) V ((fillMats V.lens o.R.toNat E.w0).map zerosLike)
        ⟨fillMats V.lens o.R.toNat E.w0, G⟩ with
      | error e => exact ⟨e, fun h => absurd h (by norm_num), rfl⟩
      | ok f => exact absurd hc (C24_order3_no_sweep _ _ _ _ _ _ _)
  have h218 : 2 ≤ V.lens.length ∧ V.lens.length ≤ 18 := by omega
  have hW : Shaped (fun j : Fin V.lens.length => V.lens[j]) o.R.toNat V (fillMats V.lens o.R.toNat E.w0) := by
    have := fillMats_shaped (V := V) (dims := fun j : Fin V.lens.length => V.lens[j]) (by simp) o.R.toNat E.w0
    rwa [show (List.ofFn fun j : Fin V.lens.length => V.lens[j]) = V.lens by simp] at this
  have key : ∀ n, ∃ e, (V.lens.length = 5 → e = .ub) ∧ mainDrive E (n + 1) o V = .error e := by
    intro n
    rw [mainDrive_fin hx htl]
    unfold mainDriveR
    simp only [if_pos hC']
    rcases hp with h | h
    · obtain ⟨e, e1, e2⟩ := sweep _ (fillMats V.lens o.R.toNat E.g0) rfl
      obtain ⟨t, t1, t2⟩ := cpTest_first (c := ⟨false, o.tol.toReal * norm2 V, o.timelimit.toReal, o.maxiter, o.resprint, false⟩)
        (clock := E.clock) h218.1 h218.2 E.same o.lambda.toReal o.magni.toReal o.ppResTol.toReal E.kern hr rfl
        (s := ⟨fillMats V.lens o.R.toNat E.w0, fillMats V.lens o.R.toNat E.g0, (fillMats V.lens o.R.toNat E.w0).map zerosLike,
          (fillMats V.lens o.R.toNat E.w0).map zerosLike, [], []⟩) hW hg h1 h2
      refine ⟨e, e1, ?_⟩
      rw [if_neg (by omega), if_pos h]
      unfold alsCPPP
      rw [ppDriver_first (by rfl) hm ht (by rfl) t2 (e := e) (by
        rw [t1]; simp only [cpPPHooks, e2, bind, Except.bind]) n]
      rfl
    · obtain ⟨e, e1, e2⟩ := sweep _ (fillMats V.lens o.R.toNat E.g0) rfl
      obtain ⟨t, t1, t2⟩ := partTest_first (c := ⟨false, o.tol.toReal * norm2 V, o.timelimit.toReal, o.maxiter, o.resprint, false⟩)
        (clock := E.clock) h218.1 h218.2 E.same o.lambda.toReal o.magni.toReal o.ppResTol.toReal o.updatePct.toReal E.kern E.srt hr rfl
        (s := ⟨⟨fillMats V.lens o.R.toNat E.w0, fillMats V.lens o.R.toNat E.g0, (fillMats V.lens o.R.toNat E.w0).map zerosLike,
          (fillMats V.lens o.R.toNat E.w0).map zerosLike, [], []⟩, [], [], []⟩) hW hg h1 h2
      refine ⟨e, e1, ?_⟩
      rw [if_neg (by omega), if_neg (by omega), if_pos h]
      unfold alsCPPart
      rw [ppDriver_first (by rfl) hm ht (by rfl) t2 (e := e) (by
        rw [t1]; simp only [partPPHooks, cpPPHooks, e2, bind, Except.bind]) n]
      rfl
  constructor
  · intro h5 hf
    obtain ⟨n, rfl⟩ : ∃ n, fuel = n + 1 := ⟨fuel - 1, by omega⟩
    obtain ⟨e, e1, e2⟩ := key n
    rw [testMain_err hV e2, e1 h5]
  · intro out ho
    cases fuel with
    | zero =>
      rw [testMain_err hV (e := .diverge) (by
        rw [mainDrive_fin hx htl]
        unfold mainDriveR
        rcases hp with h | h
        · simp only [if_pos hC', h]
          rfl
        · simp only [if_pos hC', h]
          rfl)] at ho
      cases ho
    | succ n =>
      obtain ⟨e, -, e2⟩ := key n
      rw [testMain_err hV e2] at ho
      cases ho

/-- **C57 (violated).** `-tensor r` with `-dim` of 20 or more: `build_V` runs out of labels. -/
theorem C57_dim_limit (hk : tensorKind o.tensor = .random) (hd : 20 ≤ o.dim) (fuel : ℕ) : testMain E fuel o = .error .ub := by
  unfold testMain mainTensor
  simp only [hk, tensorLens, bind, Except.bind]
  rw [replicate_ofFn, C15_build_V_limit (by omega) (fillMats_shaped (V := ⟨List.ofFn fun _ : Fin o.dim.toNat => o.size.toNat, fun _ => 0⟩)
    rfl o.R.toNat E.matRnd)]

/-- **C59 (violated).** The same in run.cxx. -/
theorem C59_dim_limit (hk : tensorKind o.tensor = .random) (hd : 20 ≤ o.dim) (lr : ℕ → Bool → Spec.LowRank ℝ) (fuel : ℕ) :
    runMain E lr fuel o = .error .ub := by
  unfold runMain mainTensor
  simp only [hk, tensorLens, bind, Except.bind]
  rw [replicate_ofFn, C15_build_V_limit (by omega) (fillMats_shaped (V := ⟨List.ofFn fun _ : Fin o.dim.toNat => o.size.toNat, fun _ => 0⟩)
    rfl o.R.toNat E.matRnd)]

/-! ### Tucker -/

/-- The map of `alsTucker_DT` holds only the string of modes 0 and 1 when mode 2 of an order-3 tensor is reached. -/
theorem tuck_order3_cache {K : Type} [CommRing K] {V : Tensor K} {W : List (Tensor K)} {cache : Cache K} {i : ℕ} (hi : i < 2) {r : Tensor K × Cache K}
    (hM : tuckY 3 (constructDT 0 2 {}) V W cache i = .ok r) (hc : ∀ k, k ≠ strOf 0 1 → cache.lookup k = none) :
    ∀ k, k ≠ strOf 0 1 → r.2.lookup k = none := by
  have s0 : Sub 0 2 (0, 0) (0, 1) (1, 1) := .inL (by omega) (.left (by omega))
  have s1 : Sub 0 2 (1, 1) (0, 1) (0, 0) := .inL (by omega) (.right (by omega))
  have p0 := (mapGet_tree (N := 3) (by omega) s0).1
  have p1 := (mapGet_tree (N := 3) (by omega) s1).1
  simp only [ivStr, strOf_self] at p0 p1
  intro k' hk'
  have hp : mapGet (constructDT 0 2 {}).parent [letter i] = strOf 0 1 := by
    interval_cases i
    · exact p0
    · exact p1
  unfold tuckY at hM
  simp only [bind, Except.bind, pure, Except.pure, hp] at hM
  cases hl : lensY 3 V W i with
  | error e => rw [hl] at hM; simp at hM
  | ok lens =>
    rw [hl] at hM
    simp only at hM
    have hcache : ∀ c, (if (cache.lookup (strOf 0 1)).isNone then
        tuckMapDT 3 (constructDT 0 2 {}) V W (3 + 1) (strOf 0 1) cache else .ok cache) = .ok c →
        c.lookup k' = none := by
      intro c hc'
      by_cases hn : (cache.lookup (strOf 0 1)).isNone
      · rw [if_pos hn] at hc'
        unfold tuckMapDT dtNode at hc'
        rw [if_neg (by rw [Option.isNone_iff_eq_none] at hn; rw [hn]; simp), if_pos (by rw [strOf_length]; omega)] at hc'
        simp only [bind, Except.bind] at hc'
        cases hT : ttmLoop 3 W (mapGet (constructDT 0 2 {}).sibling (strOf 0 1)) V with
        | error e => rw [hT] at hc'; simp at hc'
        | ok T =>
          rw [hT] at hc'
          simp only [pure, Except.pure, Except.ok.injEq] at hc'
          rw [← hc', lookup_cons_ne hk']
          exact hc k' hk'
      · rw [if_neg hn] at hc'
        simp only [Except.ok.injEq] at hc'
        rw [← hc']; exact hc k' hk'
    cases hc' : (if (cache.lookup (strOf 0 1)).isNone then
        tuckMapDT 3 (constructDT 0 2 {}) V W (3 + 1) (strOf 0 1) cache else .ok cache) with
    | error e => rw [hc'] at hM; simp at hM
    | ok c =>
      have hck := hcache c hc'
      rw [hc'] at hM
      simp only at hM
      have : r.2 = c := by
        revert hM
        repeat' split
        all_goals intro hM
        all_goals first
          | (simp only [Except.ok.injEq] at hM; rw [← hM])
          | (exact absurd hM (by simp))
      rw [this]; exact hck

/-- A sweep of `alsTucker_DT_sub` on an order-3 tensor never completes. -/
theorem tuckSub_order3 (k : Kern ℝ) (V : Tensor ℝ) (hV : V.lens.length = 3) (clens : List ℕ) (Wp W : List (Tensor ℝ))
    (r : List (Tensor ℝ) × Tensor ℝ) : tuckSweepDTsub k V clens Wp W ≠ .ok r := by
  have inv : ∀ {s s' : List (Tensor ℝ) × Cache ℝ × Tensor ℝ} {i : ℕ},
      tuckUpdateDTsub 3 (constructDT 0 2 {}) k V clens Wp s i = .ok s' →
      ∃ y, tuckY 3 (constructDT 0 2 {}) V s.1 s.2.1 i = .ok y ∧ s'.2.1 = y.2 := by
    intro s s' i h
    unfold tuckUpdateDTsub at h
    obtain ⟨y, y1, h⟩ := bind_ok h
    obtain ⟨n, -, h⟩ := bind_ok h
    obtain ⟨U, -, h⟩ := bind_ok h
    obtain ⟨P, -, h⟩ := bind_ok h
    obtain ⟨Q, -, h⟩ := bind_ok h
    exact ⟨y, y1, by rw [← Except.ok.inj h]⟩
  intro h
  unfold tuckSweepDTsub at h
  rw [hV] at h
  simp only [show List.range 3 = [0, 1, 2] from rfl, List.foldlM_cons, List.foldlM_nil] at h
  obtain ⟨q, h, -⟩ := bind_ok h
  obtain ⟨a, a1, h⟩ := bind_ok h
  obtain ⟨b, b1, h⟩ := bind_ok h
  obtain ⟨c, c1, h⟩ := bind_ok h
  obtain ⟨ya, ya1, ya2⟩ := inv a1
  obtain ⟨yb, yb1, yb2⟩ := inv b1
  obtain ⟨yc, yc1, yc2⟩ := inv c1
  have ha := tuck_order3_cache (by omega) ya1 (fun _ _ => rfl)
  rw [← ya2] at ha
  have hb := tuck_order3_cache (by omega) yb1 ha
  rw [← yb2] at hb
  exact tuck_order3_mode2 V b.1 b.2.1 (hb _ fun e => by have := congrArg List.length e; simp [strOf_length] at this)
    (hb _ fun e => by have := congrArg List.length e; simp [strOf_length] at this) yc yc1

/-- A sweep of `alsTucker_DT_sub` on an order-5 tensor aborts. -/
theorem tuckSub_order5 {dims rk : Fin 5 → ℕ} {V : Tensor ℝ} {W : List (Tensor ℝ)} (hS : TuckShaped dims rk V W)
    (h : rk 3 ≠ dims 3 ∨ rk 4 ≠ dims 4) (k : Kern ℝ) (clens : List ℕ) (Wp : List (Tensor ℝ)) :
    tuckSweepDTsub k V clens Wp W = .error .abort := by
  have h5 : V.lens.length = 5 := by rw [hS.lensV]; simp
  unfold tuckSweepDTsub
  have he : (List.range 5).foldlM (tuckUpdateDTsub 5 (constructDT 0 (5 - 1) {}) k V clens Wp) (W, [], ⟨[], fun _ => 0⟩) =
      .error .abort := by
    refine foldlM_first (by norm_num) ?_
    unfold tuckUpdateDTsub
    simp only [bind, Except.bind]
    rw [show (5 : ℕ) - 1 = 4 from rfl, C35_order5_abort hS h]
  simp only [bind, Except.bind]
  rw [h5, he]

/-- If no sweep of the dimension tree completes, neither Tucker driver does. -/
theorem tuck_fails (hx : o.tol.Finite) (htl : o.timelimit.Finite) (hr : o.resprint ≠ 0) (hm : 1 ≤ o.maxiter) (hT : o.model.head? = some 'T')
    {V : Tensor ℝ} (hV : mainTensor E o = .ok V) (hp : o.pp = 0 ∨ o.pp = 1 ∧ o.tol.toReal * norm2 V < 10) {C : Tensor ℝ} {F : List (Tensor ℝ)}
    (hh : hosvd E.kern V (mainRanks o V.lens.length) = .ok (C, F)) {e : Fault}
    (h0 : o.pp = 0 → tuckSweepDT E.kern V C.lens F = .error e)
    (h1 : o.pp = 1 → tuckSweepDTsub E.kern V C.lens (F.map zerosLike) F = .error e) (fuel : ℕ) :
    testMain E (fuel + 1) o = .error e := by
  have hT' : o.model[0]? = some 'T' := by rw [← List.head?_eq_getElem?]; exact hT
  have hTC : ¬ o.model[0]? = some 'C' := by rw [hT']; simp
  apply testMain_err hV
  rw [mainDrive_fin hx htl]
  unfold mainDriveR
  simp only [if_neg hTC, if_pos hT', hh, bind, Except.bind]
  rcases hp with h | ⟨h, ht⟩
  · rw [if_pos h]
    have hn : ¬ (0 : ℤ) = o.maxiter := by omega
    simp [alsTuckerDT, llLoop, tuckDTHooks, hr, h0 h, hn, show (0 : ℤ) ≤ o.maxiter by omega, bind, Except.bind]
  · rw [if_neg (by omega), if_pos h]
    unfold alsTuckerPP
    have hn : ¬ (0 : ℤ) = o.maxiter := by omega
    rw [ppDriver_first (e := e) (by rfl) (show (0 : ℤ) ≤ o.maxiter by omega) ht (by rfl)
      (t := ⟨0, 10, 0, ⟨F, F.map zerosLike, F.map zerosLike, [], [], C, C, o.ppResTol.toReal⟩, [.dtStart]⟩)
      (by simp [ppTest, hr, dtChecked, hn]) (by simp only [tuckPPHooks, h1 h, bind, Except.bind]) fuel]

/-- **C57 (violated).** `-model Tucker` on a tensor of order 3 (`-pp 0`, or `-pp 1` with `tol * ‖V‖ < 10`): the first sweep never completes. -/
theorem C57_tucker_order3 (hx : o.tol.Finite) (htl : o.timelimit.Finite) (hr : o.resprint ≠ 0) (hm : 1 ≤ o.maxiter)
    (hT : o.model.head? = some 'T') {V : Tensor ℝ} (hV : mainTensor E o = .ok V) (hp : o.pp = 0 ∨ o.pp = 1 ∧ o.tol.toReal * norm2 V < 10)
    (h3 : V.lens.length = 3) (fuel : ℕ) (out : Tensor ℝ × MainOut) : testMain E fuel o ≠ .ok out := by
  have hT' : o.model[0]? = some 'T' := by rw [← List.head?_eq_getElem?]; exact hT
  have hTC : ¬ o.model[0]? = some 'C' := by rw [hT']; simp
  intro ho
  cases hh : hosvd E.kern V (mainRanks o V.lens.length) with
  | error e =>
    rw [testMain_err hV (e := e) (by
      rw [mainDrive_fin hx htl]
      unfold mainDriveR
      simp only [if_neg hTC, if_pos hT', hh, bind, Except.bind])] at ho
    cases ho
  | ok q =>
    obtain ⟨C, F⟩ := q
    cases fuel with
    | zero =>
      rw [testMain_err hV (e := .diverge) (by
        rw [mainDrive_fin hx htl]
        unfold mainDriveR
        simp only [if_neg hTC, if_pos hT', hh, bind, Except.bind]
        rcases hp with h | ⟨h, -⟩
        · rw [if_pos h]; rfl
        · rw [if_neg (by omega), if_pos h]; rfl)] at ho
      cases ho
    | succ fuel =>
      rcases hp with h | ⟨h, ht⟩
      · cases hs : tuckSweepDT E.kern V C.lens F with
        | ok r => exact C35_order3_no_sweep E.kern V h3 C.lens F r hs
        | error e =>
          rw [tuck_fails hx htl hr hm hT hV (.inl h) hh (fun _ => hs) (fun h' => by omega) fuel] at ho
          cases ho
      · cases hs : tuckSweepDTsub E.kern V C.lens (F.map zerosLike) F with
        | ok r => exact tuckSub_order3 E.kern V h3 C.lens _ F r hs
        | error e =>
          rw [tuck_fails hx htl hr hm hT hV (.inr ⟨h, ht⟩) hh (fun h' => by omega) (fun _ => hs) fuel] at ho
          cases ho

/-- **C57 (violated).** `-model Tucker` on a tensor of order 5 (`-pp 0`, or `-pp 1` with `tol * ‖V‖ < 10`): the program aborts in the first
sweep, unless the ranks of modes 3 and 4 equal their lengths. -/
theorem C57_tucker_order5 (hx : o.tol.Finite) (htl : o.timelimit.Finite) (hr : o.resprint ≠ 0) (hm : 1 ≤ o.maxiter)
    (hT : o.model.head? = some 'T') {V : Tensor ℝ} (hV : mainTensor E o = .ok V) (hp : o.pp = 0 ∨ o.pp = 1 ∧ o.tol.toReal * norm2 V < 10)
    {dims rk : Fin 5 → ℕ} (hd : V.lens = List.ofFn dims) (hrk : MainRanks o rk) (hle : ∀ j, rk j ≤ dims j) (hk : SvdShape E.kern)
    (hne : rk 3 ≠ dims 3 ∨ rk 4 ≠ dims 4) {fuel : ℕ} (hf : 1 ≤ fuel) : testMain E fuel o = .error .abort := by
  obtain ⟨n, rfl⟩ : ∃ n, fuel = n + 1 := ⟨fuel - 1, by omega⟩
  have h5 : V.lens.length = 5 := by rw [hd]; simp
  obtain ⟨C, F, c1, c2, -⟩ := C34_hosvd (by norm_num) (by norm_num) hd hle hk
  refine tuck_fails hx htl hr hm hT hV hp (C := C) (F := F) (by rw [h5, mainRanks_eq.1 hrk, c1])
    (fun _ => C35_order5_sweep c2 hne E.kern C.lens) (fun _ => tuckSub_order5 c2 hne E.kern C.lens _) n

/-! ### the hypotheses are met: `-tensor r2` (or `r`) with `-dim 3`, `-dim 5`, `-dim 20` -/

/-- The environment of the examples: the tensor and the factors are 1. -/
noncomputable def exOrdEnv (k : Kern ℝ) : MainEnv := { exEnv k fun _ => [] with w0 := fun _ _ _ => 1 }

theorem exOrd_tensor (k : Kern ℝ) (d : ℤ) (m : CStr) (pp : ℤ) : mainTensor (exOrdEnv k) { exRunOpts pp with dim := d, model := m } =
    .ok (fillT (List.replicate d.toNat 3) fun _ => 1) := rfl

example (k : Kern ℝ) (hk : SvdShape k) : testMain (exOrdEnv k) 7 { exRunOpts 0 with dim := 5, model := "Tucker".toList } = .error .abort :=
  C57_tucker_order5 (dims := fun _ => 3) (rk := fun _ => 1) ⟨_, rfl⟩ ⟨_, rfl⟩ (by norm_num [exRunOpts]) (by norm_num [exRunOpts]) rfl
    (exOrd_tensor k 5 _ 0) (.inl rfl) (by simp [fillT]) (fun _ => rfl) (fun _ => by norm_num) hk (.inl (by norm_num)) (by norm_num)

example (k : Kern ℝ) (out : Tensor ℝ × MainOut) : testMain (exOrdEnv k) 7 { exRunOpts 0 with dim := 3, model := "Tucker".toList } ≠ .ok out :=
  C57_tucker_order3 ⟨_, rfl⟩ ⟨_, rfl⟩ (by norm_num [exRunOpts]) (by norm_num [exRunOpts]) rfl
    (exOrd_tensor k 3 _ 0) (.inl rfl) (by simp [fillT]) 7 out

example (k : Kern ℝ) (out : Tensor ℝ × MainOut) : testMain (exOrdEnv k) 7
    { exRunOpts 1 with dim := 3, model := "Tucker".toList, tol := .fin 0 } ≠ .ok out :=
  C57_tucker_order3 (V := fillT (List.replicate 3 3) fun _ => 1) ⟨_, rfl⟩ ⟨_, rfl⟩ (by norm_num [exRunOpts]) (by norm_num [exRunOpts]) rfl
    rfl (.inr ⟨rfl, by norm_num [F64.toReal]⟩) (by simp [fillT]) 7 out

example (E : MainEnv) : testMain E 7 { exRunOpts 0 with tensor := "r".toList, dim := 20 } = .error .ub :=
  C57_dim_limit (by show tensorKind "r".toList = _; decide) (by norm_num) 7

example (E : MainEnv) (lr : ℕ → Bool → Spec.LowRank ℝ) : runMain E lr 7 { exRunOpts 0 with tensor := "r".toList, dim := 21 } = .error .ub :=
  C59_dim_limit (by show tensorKind "r".toList = _; decide) (by norm_num) lr 7

example (k : Kern ℝ) (pp : ℤ) (hp : pp = 1 ∨ pp = 2) : testMain (exOrdEnv k) 7 { exRunOpts pp with dim := 5, tol := .fin 0 } = .error .ub := by
  have hV : (fillT (List.replicate 5 3) fun _ => 1).lens = List.ofFn fun _ : Fin 5 => 3 := by simp [fillT]
  have hG := fillMats_shaped hV 1 fun _ _ _ => 1
  obtain ⟨g, g1⟩ : ∃ g, gradnorm (fillMats (List.ofFn fun _ : Fin 5 => 3) 1 fun _ _ _ => 1) 5 = .ok g :=
    gradnorm_ok hG.count
  have g0 : 0 ≤ g := gradnorm_nonneg g1
  exact (C57_orders_3_5_pp (V := fillT (List.replicate 5 3) fun _ => 1) (g := g) ⟨_, rfl⟩ ⟨_, rfl⟩ (by norm_num [exRunOpts])
    (by norm_num [exRunOpts]) rfl hp rfl (.inl (by simp [fillT])) (by norm_num [F64.toReal])
    (by rw [hV]; simpa [exRunOpts, exOrdEnv, exEnv] using g1) (by simpa [F64.toReal] using g0)
    (by norm_num [F64.toReal, exRunOpts, exOrdEnv, exEnv])).1 (by simp [fillT]) (by norm_num)

/-! ### run.cxx -/

/-- **C59 (violated).** Matrices (`-dim 2`): every optimizer of run.cxx except the direct one (`-pp 0`, the default, to `-pp 3`) is constructed with
undefined behaviour, whatever the tensor. -/
theorem C59_order_two (lr : ℕ → Bool → Spec.LowRank ℝ) (hd : o.dim = 2) (hC : o.model.head? = some 'C') (h0 : 0 ≤ o.pp) (h3 : o.pp ≤ 3)
    {V : Tensor ℝ} (hV : mainTensor E o = .ok V) (fuel : ℕ) : runMain E lr fuel o = .error .ub := by
  obtain ⟨k, k1, k2⟩ := dispatch_num hC h0 (by omega)
  obtain ⟨a, b⟩ := C04_order_two_ub
  have hk : optInit ℝ 2 k = .error .ub := by
    cases k with
    | simple => simp only [kindNum] at k2; omega
    | dt => simp only [optInit, a, bind, Except.bind]
    | msdt => simp only [optInit, b, bind, Except.bind]
    | dtlr => simp only [optInit, dtlrInit, a, bind, Except.bind]
    | msdtlr => simp only [optInit, msdtlrInit, b, bind, Except.bind]
  unfold runMain
  rw [hV, hd, k1]
  simp only [bind, Except.bind]
  rw [show (2 : ℤ).toNat = 2 from rfl, hk]

example (E : MainEnv) (lr : ℕ → Bool → Spec.LowRank ℝ) (pp : ℤ) (h : 0 ≤ pp ∧ pp ≤ 3) : runMain E lr 7 { exRunOpts pp with dim := 2 } = .error .ub :=
  C59_order_two lr rfl rfl h.1 h.2 (V := fillT [3, 3] E.tenRnd) rfl 7

/-- **C59 (violated).** `-pp 4` (the direct optimizer) with `-dim` from 11 to 18 and a rank other than `-size`: unless the first test already
stops (random gradient below `tol * ‖V‖`, or no time), the program aborts in the first step. -/
theorem C59_direct_limit (lr : ℕ → Bool → Spec.LowRank ℝ) (hx : o.tol.Finite) (htl : o.timelimit.Finite) (hr : o.resprint ≠ 0)
    (hm : 0 ≤ o.maxiter) (hk : PlainKind o) (hin : InputOk E o) (h11 : 11 ≤ o.dim) (h18 : o.dim ≤ 18) (hC : o.model.head? = some 'C')
    (hp : o.pp = 4) (hR : o.R.toNat ≠ o.size.toNat) {V : Tensor ℝ} (hV : mainTensor E o = .ok V) {g : ℝ}
    (hg : gradnorm (fillMats V.lens o.R.toNat E.g0) V.lens.length = .ok g) (h1 : ¬ g < o.tol.toReal * norm2 V)
    (h2 : ¬ o.timelimit.toReal < E.clock 0) {fuel : ℕ} (hf : 1 ≤ fuel) : runMain E lr fuel o = .error .abort := by
  obtain ⟨V', v1, v2⟩ := C57_tensor hin
  obtain rfl : V' = V := Except.ok.inj (v1.symm.trans hV)
  have hd : MainDims o (fun _ : Fin o.dim.toNat => o.size.toNat) := by
    unfold MainDims
    rw [← replicate_ofFn]
    rcases hk with h | h | h | h <;> rw [h] <;> rfl
  have hl := input_lens v2 hd hin
  have hlen : V'.lens.length = o.dim.toNat := by rw [hl]; simp
  have hW := fillMats_shaped hl o.R.toNat E.w0
  have hC' : o.model[0]? = some 'C' := by rw [← List.head?_eq_getElem?]; exact hC
  have hdis : dispatch o = some .simple := by
    unfold dispatch
    rw [if_pos hC', hp]
    rfl
  obtain ⟨d, hd2⟩ : ∃ d, Model.residual V' (fillMats (List.ofFn fun _ : Fin o.dim.toNat => o.size.toNat) o.R.toNat E.w0) o.dim.toNat = .ok d :=
    ⟨_, C16_residual (by omega) (by omega) hW⟩
  rw [hlen, hl] at hg
  have hstep := C03_simple_step_abort (K := ℝ) (f := ⟨fillMats (List.ofFn fun _ : Fin o.dim.toNat => o.size.toNat) o.R.toNat E.w0,
    fillMats (List.ofFn fun _ : Fin o.dim.toNat => o.size.toNat) o.R.toNat E.g0⟩) (by omega) (by omega) hW hR 0 E.solve
  unfold runMain
  rw [hV, hdis]
  simp only [bind, Except.bind, pure, Except.pure, optInit]
  have ha : initAsserts V'.lens (List.replicate V'.lens.length o.R.toNat) o.dim.toNat o.size.toNat o.R.toNat = .ok () := by
    rw [hl, ← replicate_ofFn]
    unfold initAsserts
    simp
  rw [ha]
  simp only
  obtain ⟨n, rfl⟩ : ∃ n, fuel = n + 1 := ⟨fuel - 1, by omega⟩
  rw [hl, replicate_ofFn, mixCmp_finite hx htl, cpdAlsC_real]
  simp only [List.ofFn_const] at hg hd2 hstep
  simp [cpdAls, als, alsLoop, alsChecked, cpdCheck, hg, hd2, h1, h2, hr, hm, optStep, hstep, bind, Except.bind, pure, Except.pure]

example (k : Kern ℝ) (lr : ℕ → Bool → Spec.LowRank ℝ) : runMain (exOrdEnv k) lr 7 { exRunOpts 4 with dim := 11, tol := .fin 0 } = .error .abort := by
  have hV : (fillT (List.replicate 11 3) fun _ => 1).lens = List.ofFn fun _ : Fin 11 => 3 := by simp [fillT]
  have hG := fillMats_shaped hV 1 fun _ _ _ => 1
  obtain ⟨g, g1⟩ : ∃ g, gradnorm (fillMats (List.ofFn fun _ : Fin 11 => 3) 1 fun _ _ _ => 1) 11 = .ok g := gradnorm_ok hG.count
  have g0 : 0 ≤ g := gradnorm_nonneg g1
  exact C59_direct_limit (V := fillT (List.replicate 11 3) fun _ => 1) (g := g) lr ⟨_, rfl⟩ ⟨_, rfl⟩ (by norm_num [exRunOpts])
    (by norm_num [exRunOpts]) (.inr (.inr (.inr (by show tensorKind "r2".toList = _; decide))))
    (by unfold InputOk; rw [show tensorKind _ = TensorKind.random2 by show tensorKind "r2".toList = _; decide]; trivial)
    (by norm_num) (by norm_num) rfl rfl (by show (1 : ℕ) ≠ 3; norm_num) rfl
    (by rw [hV]; simpa [exRunOpts, exOrdEnv, exEnv] using g1) (by simpa [F64.toReal] using g0)
    (by norm_num [F64.toReal, exRunOpts, exOrdEnv, exEnv]) (by norm_num)

end Properties
