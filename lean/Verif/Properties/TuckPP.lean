import Verif.Proofs.PPDriverTuck

/-! # C54: the driver `alsTucker_PP` -/

namespace Properties

open Model Finset

variable {N : ℕ} {dims rk : Fin N → ℕ} {V : Tensor ℝ} {W : List (Tensor ℝ)} {core : Tensor ℝ} {kn : Kern ℝ}

theorem tp_start (hW : TuckShaped dims rk V W) (hC : core.lens = List.ofFn rk) {tolInit : ℝ} {m : ℕ}
    (hm : tolInit * (9 / 10) ^ m ≤ 1) :
    TPI dims rk V (AllOrtho dims rk W) m ⟨W, W.map zerosLike, [], [], [], core, core, tolInit⟩ :=
  ⟨hW, tzeros_shape hW, hC, hC, id, hm⟩

/-- Some number of reductions by 0.9 brings `tol_init` to at most 1. -/
theorem tol_decay (tolInit : ℝ) : ∃ m : ℕ, tolInit * (9 / 10) ^ m ≤ 1 := by
  obtain ⟨m, hm⟩ := exists_pow_lt_of_lt_one (x := 1 / (|tolInit| + 1)) (y := (9 / 10 : ℝ)) (by positivity) (by norm_num)
  refine ⟨m, ?_⟩
  have h1 : (0 : ℝ) < |tolInit| + 1 := by positivity
  rw [lt_div_iff₀ h1] at hm
  have h2 : (0 : ℝ) < (9 / 10) ^ m := by positivity
  nlinarith [le_abs_self tolInit]

/-- What holds when `alsTucker_PP` has returned, whatever the clock: the last measured change of the core norm is at most
`tol`, or `iter = maxiter + 1`; `true` is returned iff `iter ≠ maxiter + 1`, and then the change is at most `tol`; orthonormal
factors stay orthonormal; and the core belongs to the factors, except possibly outside `bench` mode when the change is exactly
`tol`. -/
structure TuckPPExit (dims rk : Fin N → ℕ) (V : Tensor ℝ) (c : PPCfg) (W : List (Tensor ℝ)) (r : PPRun TuckPPState) (ret : Bool) :
    Prop where
  stop : r.grad ≤ c.tol ∨ (r.iter : ℤ) = c.maxiter + 1
  bound : (r.iter : ℤ) ≤ c.maxiter + 1
  value : ret = true ↔ (r.iter : ℤ) ≠ c.maxiter + 1
  conv : ret = true → r.grad ≤ c.tol
  shape : TuckShaped dims rk V r.st.W
  ortho : (∀ j : Fin N, Spec.Orthonormal (dims j) (rk j) (mats W j)) → ∀ j : Fin N, Spec.Orthonormal (dims j) (rk j) (mats r.st.W j)
  core : IsCore dims rk V r.st.W r.st.core ∨ (r.grad = c.tol ∧ c.bench = false)

/-- **C54 (any clock).** Orders 4, 6, 7, 8, 9, ranks at most the dimensions, an SVD satisfying its contract, `tol < 10`: a call of
`alsTucker_PP` that returns has stopped for one of the two reasons, and the rest of `TuckPPExit`. -/
theorem C54_exit (h4 : 4 ≤ N) (h5 : N ≠ 5) (h9 : N ≤ 9) (hr : ∀ j, rk j ≤ dims j) (hW : TuckShaped dims rk V W)
    (hC : core.lens = List.ofFn rk) (hk : SvdShape kn) (hl : SvdLeading kn) (tolInit : ℝ) (c : PPCfg) (hm : 0 ≤ c.maxiter)
    (hp : c.resprint ≠ 0) (ht : c.tol < 10) (clock : ℕ → ℝ) (fuel : ℕ) (hf : c.maxiter + 1 < fuel)
    (r : PPRun TuckPPState) (ret : Bool) (he : alsTuckerPP N kn V tolInit c clock fuel core W = .ok (r, ret)) :
    TuckPPExit dims rk V c W r ret := by
  obtain ⟨m, hm'⟩ := tol_decay tolInit
  unfold alsTuckerPP ppDriver at he
  cases hd : ppDriverLoop { c with tucker := true } (tuckPPHooks N kn V) clock fuel fuel
    ⟨0, 10, 0, ⟨W, W.map zerosLike, [], [], [], core, core, tolInit⟩, []⟩ with
  | error e => rw [hd] at he; cases he
  | ok r0 =>
    rw [hd] at he
    simp only [bind, Except.bind, pure, Except.pure, Except.ok.injEq, Prod.mk.injEq] at he
    obtain ⟨rfl, rfl⟩ := he
    obtain ⟨a1, a2, a3, a4⟩ := ppDriverLoop_exitT (c := { c with tucker := true }) (tp_hooks h4 h5 h9 hr hk hl _ m)
      (tp_exact h4 h5 h9 hr hk hl _ m) hp (fun s hs hc => tp_close hs hc) rfl fuel _ r0 (tp_start hW hC hm')
      (by simp only; omega) (.inl ⟨ht, by simpa using hm⟩) (by simp only; omega) hd
    simp only [not_and, not_le] at a2 a3
    have hstop : r0.grad ≤ c.tol ∨ (r0.iter : ℤ) = c.maxiter + 1 := by
      by_cases hg : c.tol < r0.grad
      · have := a2 hg
        exact .inr (by omega)
      · exact .inl (not_lt.1 hg)
    exact ⟨hstop, a3, decide_eq_true_iff, fun h => hstop.resolve_right (of_decide_eq_true h), a1.W, a1.ortho, a4⟩

/-- **C54 (termination).** In addition let the clock never pass the limit, and let `m` reductions by 0.9 bring `tol_init` to at
most 1 (`m = 0` for `tol_init <= 1`): the call returns; `maxiter + 3 + m` passes of each loop suffice. -/
theorem C54_terminates (h4 : 4 ≤ N) (h5 : N ≠ 5) (h9 : N ≤ 9) (hr : ∀ j, rk j ≤ dims j) (hW : TuckShaped dims rk V W)
    (hC : core.lens = List.ofFn rk) (hk : SvdShape kn) (hl : SvdLeading kn) (tolInit : ℝ) (m : ℕ)
    (hti : tolInit * (9 / 10) ^ m ≤ 1) (c : PPCfg) (hm : 0 ≤ c.maxiter)
    (hp : c.resprint ≠ 0) (ht : c.tol < 10) (clock : ℕ → ℝ) (hclk : ∀ t, clock t ≤ c.timelimit) (fuel : ℕ)
    (hf : c.maxiter + 2 + m < fuel) :
    ∃ r ret, alsTuckerPP N kn V tolInit c clock fuel core W = .ok (r, ret) ∧ TuckPPExit dims rk V c W r ret := by
  obtain ⟨r, r1, _⟩ := ppDriverLoop_okT (c := { c with tucker := true }) (I := TPI dims rk V (AllOrtho dims rk W))
    (D := TPD dims rk V (AllOrtho dims rk W)) (Q := TPQ dims rk V (AllOrtho dims rk W)) (F := TPF dims rk)
    (fun m => tp_hooks h4 h5 h9 hr hk hl _ m) (fun m s h => tp_dec m s h) (tp_fresh h4 h5 h9 hr hk hl _)
    (tp_stable (by omega) h9 _ 0) hp (fun m s hs hc => tp_close hs hc) rfl
    (by rintro ⟨t, ht⟩; exact absurd ht (not_lt.2 (hclk t))) (clock := clock)
    (sub := fuel) fuel m ⟨0, 10, 0, ⟨W, W.map zerosLike, [], [], [], core, core, tolInit⟩, []⟩ (tp_start hW hC hti)
    (by simp only; omega) (by simp only; omega)
  have he : alsTuckerPP N kn V tolInit c clock fuel core W = .ok (r, decide (¬ (r.iter : ℤ) = c.maxiter + 1)) := by
    unfold alsTuckerPP ppDriver
    rw [r1]
    rfl
  exact ⟨r, _, he, C54_exit h4 h5 h9 hr hW hC hk hl tolInit c hm hp ht clock fuel (by omega) r _ he⟩

/-- **C54 (termination, any `tol_init`).** -/
theorem C54_always (h4 : 4 ≤ N) (h5 : N ≠ 5) (h9 : N ≤ 9) (hr : ∀ j, rk j ≤ dims j) (hW : TuckShaped dims rk V W)
    (hC : core.lens = List.ofFn rk) (hk : SvdShape kn) (hl : SvdLeading kn) (tolInit : ℝ) (c : PPCfg) (hm : 0 ≤ c.maxiter)
    (hp : c.resprint ≠ 0) (ht : c.tol < 10) (clock : ℕ → ℝ) (hclk : ∀ t, clock t ≤ c.timelimit) :
    ∃ fuel0 : ℕ, ∀ fuel, fuel0 ≤ fuel → ∃ r ret, alsTuckerPP N kn V tolInit c clock fuel core W = .ok (r, ret) := by
  obtain ⟨m, hm'⟩ := tol_decay tolInit
  refine ⟨(c.maxiter + 3).toNat + m, fun fuel hf => ?_⟩
  obtain ⟨r, ret, h, _⟩ := C54_terminates h4 h5 h9 hr hW hC hk hl tolInit m hm' c hm hp ht clock hclk fuel (by omega)
  exact ⟨r, ret, h⟩

/-- **C54 (violation: no return after the time limit).** Outside `bench` mode, from any state of the driver between two rounds:
if the limit has passed from now on, the iteration is one with a test, and the core norm of the current factors differs by more
than `tol` from the remembered one, the loop never ends. -/
theorem C54_livelock_later (h4 : 4 ≤ N) (h9 : N ≤ 9) (c : PPCfg) (hb : c.bench = false) (hp : c.resprint ≠ 0)
    (r : PPRun TuckPPState) (hW : TuckShaped dims rk V r.st.W) (hdW : TuckShaped dims rk V r.st.dW)
    (hC : r.st.core.lens = List.ofFn rk) (hC' : r.st.corePrev.lens = List.ofFn rk)
    (hgr : c.tol < r.grad) (hgt : c.tol < |coreNorm dims rk V r.st.W - norm2 r.st.corePrev|) (hi : (r.iter : ℤ) ≤ c.maxiter)
    (hchk : (Int.tmod (r.iter : ℤ) c.resprint = 0 ∧ r.iter ≠ 0) ∨ r.iter = 1 ∨ (r.iter : ℤ) = c.maxiter) (clock : ℕ → ℝ)
    (hclk : ∀ t, r.tests ≤ t → c.timelimit < clock t) (sub fuel : ℕ) :
    ppDriverLoop { c with tucker := true } (tuckPPHooks N kn V) clock sub fuel r = .error .diverge := by
  refine ppDriverLoop_livelock (c := { c with tucker := true }) (k0 := r.tests) (i := r.iter)
    (J := fun s => (∃ m, TPI dims rk V False m s) ∧ s.W = r.st.W ∧ s.corePrev = r.st.corePrev) hp hb ?_ ?_ ?_ ?_ ?_ hclk ?_ hi sub fuel
    _ ⟨?_, rfl, rfl⟩ rfl le_rfl hgr
  · rintro s ⟨⟨m, h⟩, h1, h2⟩
    exact ⟨_, rfl, ⟨m, h.W, h.dW, h.core, h.prev, h.ortho, h.small⟩, h1, h2⟩
  · rintro s ⟨⟨m, h⟩, h1, h2⟩
    obtain ⟨C, c1, c2⟩ := tp_check (by omega) (by omega) h (k := kn)
    exact ⟨_, c1, ⟨⟨m, h.W, h.dW, c2.1, h.prev, h.ortho, h.small⟩, h1, h2⟩, by rw [h1, h2]; exact hgt⟩
  · rintro s ⟨⟨m, h⟩, h1, h2⟩
    have hb := tratioTests_ok h.W h.dW fun a b => quotGt a b s.tolInit
    generalize List.ofFn _ = l at hb
    exact ⟨_, by simp only [tuckPPHooks, hb, bind, Except.bind]; rfl, trivial⟩
  · rintro s ⟨⟨m, h⟩, h1, h2⟩
    obtain ⟨ops, _, o2, o3⟩ := tp_ppBegin (by omega) h9 h (k := kn)
    exact ⟨_, o2, ⟨m, o3.i⟩, h1, h2⟩
  · rintro s ⟨⟨m, h⟩, h1, h2⟩
    cases m with
    | zero =>
      refine ⟨⟨0, tp_dec 0 s ⟨h.W, h.dW, h.core, h.prev, h.ortho, ?_⟩⟩, ?_, ?_⟩
      · have := h.small
        simp only [pow_zero, mul_one, zero_add, pow_one] at this ⊢
        by_cases h0 : 0 ≤ s.tolInit <;> nlinarith
      · simp only [tuckPPHooks]; split <;> exact h1
      · simp only [tuckPPHooks]; split <;> exact h2
    | succ m =>
      refine ⟨⟨m, tp_dec m s h⟩, ?_, ?_⟩
      · simp only [tuckPPHooks]; split <;> exact h1
      · simp only [tuckPPHooks]; split <;> exact h2
  · unfold dtChecked
    simpa using hchk
  · obtain ⟨m, hm⟩ := tol_decay r.st.tolInit
    exact ⟨m, hW, hdW, hC, hC', False.elim, hm⟩

/-- **C54 (violation, from the call on).** Outside `bench` mode, `1 <= maxiter`, `tol_init <= 1`, the limit passed at every test (for
instance `timelimit = 0`): if the core norm after the first sweep differs by more than `tol` from that of the core passed in,
`alsTucker_PP` never returns. -/
theorem C54_livelock (h4 : 4 ≤ N) (h5 : N ≠ 5) (h9 : N ≤ 9) (hr : ∀ j, rk j ≤ dims j) (hW : TuckShaped dims rk V W)
    (hC : core.lens = List.ofFn rk) (hk : SvdShape kn) (hl : SvdLeading kn) (tolInit : ℝ) (hti : tolInit ≤ 1) (c : PPCfg)
    (hb : c.bench = false) (hm : 1 ≤ c.maxiter) (hp : c.resprint ≠ 0) (ht : c.tol < 10) (W1 : List (Tensor ℝ)) (C1 : Tensor ℝ)
    (hsw : tuckSweepDTsub kn V (List.ofFn rk) (W.map zerosLike) W = .ok (W1, C1))
    (hgt : c.tol < |coreNorm dims rk V W1 - norm2 core|) (clock : ℕ → ℝ) (hclk : ∀ t, c.timelimit < clock t) (fuel : ℕ) :
    alsTuckerPP N kn V tolInit c clock fuel core W = .error .diverge := by
  obtain ⟨tk, tol, tl, mi, rp, b⟩ := c
  simp only at hb hm hp ht hgt hclk
  subst hb
  have h0 := tp_start hW hC (tolInit := tolInit) (m := 0) (by simpa using hti)
  have hD : TPD dims rk V (AllOrtho dims rk W) 0 ⟨W, W.map zerosLike, W.map zerosLike, [], [], core, core, tolInit⟩ :=
    ⟨⟨h0.W, h0.dW, h0.core, h0.prev, h0.ortho, h0.small⟩, tzeros_shape hW⟩
  obtain ⟨W', C, d, b1, b2, b3, b4, b5, b6, b7⟩ := tp_dtSweep h4 h5 (by omega) hr hk hl hD
  simp only at b1
  rw [hsw] at b1
  obtain ⟨rfl, rfl⟩ := Prod.mk.inj (Except.ok.inj b1)
  have hfr : TPF dims rk ⟨W, W.map zerosLike, W.map zerosLike, [], [], core, core, tolInit⟩ :=
    ⟨fun j x _ r _ => tzeros_mats j x r, hti⟩
  have hcl := ((tp_fresh h4 h5 h9 hr hk hl (AllOrtho dims rk W)).dtSweep _ hD hfr).of_ok b2
  unfold alsTuckerPP ppDriver
  cases fuel with
  | zero => rfl
  | succ fuel =>
    unfold ppDriverLoop
    rw [if_pos ⟨ht, by simp only; omega⟩]
    simp only [Bool.false_eq_true, if_false]
    unfold dtSub
    have hz : ¬ dtChecked ⟨true, tol, tl, mi, rp, false⟩ 0 := by
      unfold dtChecked
      simp
      omega
    have hone : dtChecked ⟨true, tol, tl, mi, rp, false⟩ 1 := by
      unfold dtChecked
      simp
    have hstep : ∀ f, dtSubLoop ⟨true, tol, tl, mi, rp, false⟩ (tuckPPHooks N kn V) clock (f + 1)
        ⟨0, 10, 0, ⟨W, W.map zerosLike, W.map zerosLike, [], [], core, core, tolInit⟩, [] ++ [.dtStart]⟩ =
        dtSubLoop ⟨true, tol, tl, mi, rp, false⟩ (tuckPPHooks N kn V) clock f
          ⟨1, 10, 0, ⟨W1, d, W1, [], [], C1, core, tolInit⟩, [] ++ [.dtStart] ++ [.dtSweep]⟩ := by
      intro f
      conv_lhs => unfold dtSubLoop
      rw [if_pos (by simp only; omega)]
      unfold ppTest
      simp only [hp, hz, if_false, bind, Except.bind]
      rw [if_neg Bool.false_ne_true]
      simp only [b2, hcl, Bool.false_eq_true, if_false]
    have hdb : (tuckPPHooks N kn V).dtBegin ⟨W, W.map zerosLike, [], [], [], core, core, tolInit⟩ =
      .ok ⟨W, W.map zerosLike, W.map zerosLike, [], [], core, core, tolInit⟩ := rfl
    rw [hdb]
    simp only [bind, Except.bind]
    rw [hstep]
    cases fuel with
    | zero => rfl
    | succ fuel =>
      have hI1 : TPI dims rk V False 0 ⟨W1, d, W1, [], [], C1, core, tolInit⟩ :=
        ⟨b3, b6, b5.1, hC, False.elim, by simpa using hti⟩
      obtain ⟨C2, c1, c2⟩ := tp_check (by omega) (by omega) hI1 (k := kn)
      have hdt : dtSubLoop ⟨true, tol, tl, mi, rp, false⟩ (tuckPPHooks N kn V) clock (fuel + 1)
          ⟨1, 10, 0, ⟨W1, d, W1, [], [], C1, core, tolInit⟩, [] ++ [.dtStart] ++ [.dtSweep]⟩ =
          .ok ⟨1, |coreNorm dims rk V W1 - norm2 core|, 1, ⟨W1, d, W1, [], [], C2, core, tolInit⟩,
            [] ++ [.dtStart] ++ [.dtSweep] ++ [.row 1 |coreNorm dims rk V W1 - norm2 core| false
              (Real.sqrt (Spec.tuckErrSq dims rk (arr V N) (mats W1)))]⟩ := by
        conv_lhs => unfold dtSubLoop
        rw [if_pos (by simp only; omega)]
        unfold ppTest
        simp only [hp, hone, if_false, if_true, bind, Except.bind, c1]
        rw [if_pos (.inr (.inl (hclk _)))]
        rfl
      rw [hdt]
      simp only
      -- the PP phase stops at its first test
      have hI2 : TPI dims rk V False 0 ⟨W1, d, W1, [], [], C2, core, tolInit⟩ :=
        ⟨b3, b6, c2.1, hC, False.elim, by simpa using hti⟩
      have hpp : ∃ r2, ppSubLoop ⟨true, tol, tl, mi, rp, false⟩ (tuckPPHooks N kn V) clock 1 (fuel + 1 + 1)
          ⟨1, |coreNorm dims rk V W1 - norm2 core|, 1, ⟨W1, d, W1, [], [], C2, core, tolInit⟩,
            [] ++ [.dtStart] ++ [.dtSweep] ++ [.row 1 |coreNorm dims rk V W1 - norm2 core| false
              (Real.sqrt (Spec.tuckErrSq dims rk (arr V N) (mats W1)))]⟩ = .ok r2 ∧ TPI dims rk V False 0 r2.st ∧
          r2.st.W = W1 ∧ r2.st.corePrev = core ∧ r2.iter = 1 ∧ tol < r2.grad := by
        unfold ppSubLoop
        rw [if_pos (by simp only; omega)]
        have hfb := tratioTests_ok b3 b6 fun a b => quotGt a b tolInit
        generalize List.ofFn _ = l at hfb
        have hfar : (tuckPPHooks N kn V).ppFar ⟨W1, d, W1, [], [], C2, core, tolInit⟩ = .ok (l.any id) := by
          simp only [tuckPPHooks, hfb, bind, Except.bind]
          rfl
        simp only [Bool.false_eq_true, if_false, hfar, bind, Except.bind]
        split
        · exact ⟨_, rfl, hI2, rfl, rfl, rfl, hgt⟩
        · obtain ⟨ops, _, o2, o3⟩ := tp_ppBegin (by omega) h9 hI2 (k := kn)
          obtain ⟨C3, d1, d2⟩ := tp_check (by omega) (by omega) o3.i (k := kn)
          simp only at d1
          simp only [ppEnter, if_true, o2, bind, Except.bind, pure, Except.pure]
          unfold ppTest
          have hch : ppChecked ⟨true, tol, tl, mi, rp, false⟩ 1 1 := .inr rfl
          simp only [hp, hch, if_false, if_true, bind, Except.bind, d1]
          rw [if_pos (.inr (.inl (hclk _)))]
          simp only [pure, Except.pure, if_true]
          refine ⟨_, rfl, ?_, ?_, ?_, ?_, ?_⟩
          · rw [benchInc_st]
            exact ⟨o3.i.W, o3.i.dW, d2.1, o3.i.prev, False.elim, o3.i.small⟩
          · rw [benchInc_st]
          · rw [benchInc_st]
          · rw [benchInc_iter]; rfl
          · rw [benchInc_grad]; exact hgt
      obtain ⟨r2, p1, p2, p3, p4, p5, p6⟩ := hpp
      rw [p1]
      simp only
      have hE : ∀ s : TuckPPState, ((tuckPPHooks N kn V).endRound s).W = s.W ∧ ((tuckPPHooks N kn V).endRound s).dW = s.dW ∧
          ((tuckPPHooks N kn V).endRound s).core = s.core ∧ ((tuckPPHooks N kn V).endRound s).corePrev = s.corePrev := by
        intro s
        simp only [tuckPPHooks]
        split <;> exact ⟨rfl, rfl, rfl, rfl⟩
      obtain ⟨e1, e2, e3, e4⟩ := hE r2.st
      rw [C54_livelock_later (dims := dims) (rk := rk) h4 h9 ⟨tk, tol, tl, mi, rp, false⟩ rfl hp { r2 with st := (tuckPPHooks N kn V).endRound r2.st }
        (by simp only [e1]; exact p2.W) (by simp only [e2]; exact p2.dW) (by simp only [e3]; exact p2.core)
        (by simp only [e4]; exact p2.prev) p6 (by simp only [e1, e4, p3, p4]; exact hgt) (by simp only [p5]; omega)
        (.inr (.inl p5)) clock (fun t _ => hclk t)]

/-! Non-vacuity: the order-4 problem `exTuckV`, `exTuckW`. -/

example : ∃ k r ret, alsTuckerPP 4 k exTuckV (1 / 10) ⟨true, 1 / 1000, 60, 100, 10, false⟩ (fun _ => 1) 103
    ⟨[1, 2, 1, 3], fun _ => 1⟩ exTuckW = .ok (r, ret) := by
  obtain ⟨k, hl, hk⟩ := exists_svdLeading
  obtain ⟨r, ret, h, _⟩ := C54_terminates (by norm_num) (by norm_num) (by norm_num) exTuckRank exTuckShaped
    (core := ⟨[1, 2, 1, 3], fun _ => 1⟩) rfl hk hl (1 / 10) 0 (by norm_num) ⟨true, 1 / 1000, 60, 100, 10, false⟩
    (by norm_num) (by norm_num) (by norm_num) (fun _ => 1) (fun _ => by norm_num) 103 (by norm_num)
  exact ⟨k, r, ret, h⟩

/-- A `tol_init` above 1 needs more rounds. -/
example : ∃ k r ret, alsTuckerPP 4 k exTuckV (11 / 10) ⟨true, 1 / 1000, 60, 100, 10, true⟩ (fun _ => 1) 104
    ⟨[1, 2, 1, 3], fun _ => 1⟩ exTuckW = .ok (r, ret) := by
  obtain ⟨k, hl, hk⟩ := exists_svdLeading
  obtain ⟨r, ret, h, _⟩ := C54_terminates (by norm_num) (by norm_num) (by norm_num) exTuckRank exTuckShaped
    (core := ⟨[1, 2, 1, 3], fun _ => 1⟩) rfl hk hl (11 / 10) 1 (by norm_num) ⟨true, 1 / 1000, 60, 100, 10, true⟩
    (by norm_num) (by norm_num) (by norm_num) (fun _ => 1) (fun _ => by norm_num) 104 (by norm_num)
  exact ⟨k, r, ret, h⟩

/-- The livelock occurs: some core makes the norms differ. -/
example : ∃ k core, ∀ fuel, alsTuckerPP 4 k exTuckV (1 / 10) ⟨true, 1 / 1000, 0, 100, 10, false⟩ (fun _ => 1) fuel core exTuckW =
    .error .diverge := by
  obtain ⟨k, hl, hk⟩ := exists_svdLeading
  have hS := exTuckShaped
  obtain ⟨W1, C1, b1, _⟩ := tuckSweepDTsub_ok (by norm_num) (by norm_num) (by norm_num) exTuckRank (tzeros_shape hS) hS hk hl
  obtain ⟨t, ht⟩ : ∃ t, t = coreNorm (N := 4) ![2, 3, 1, 4] ![1, 2, 1, 3] exTuckV W1 + 1 := ⟨_, rfl⟩
  have h0 : 0 ≤ coreNorm (N := 4) ![2, 3, 1, 4] ![1, 2, 1, 3] exTuckV W1 := Real.sqrt_nonneg _
  have hn : t ≤ norm2 (⟨[1, 2, 1, 3], fun _ => t⟩ : Tensor ℝ) := by
    unfold norm2
    apply Real.le_sqrt_of_sq_le
    rw [sqNorm_eq (N := 4) (dims := ![1, 2, 1, 3]) (by simp [List.ofFn_succ])]
    refine le_trans ?_ (single_le_sum (a := fun _ => 0) (fun z _ => sq_nonneg _) (Spec.mem_Box.2 fun j => by fin_cases j <;> norm_num))
    exact le_rfl
  refine ⟨k, ⟨[1, 2, 1, 3], fun _ => t⟩, fun fuel => ?_⟩
  refine C54_livelock (by norm_num) (by norm_num) (by norm_num) exTuckRank hS rfl hk hl (1 / 10) (by norm_num) _ rfl (by norm_num)
    (by norm_num) (by norm_num) W1 C1 b1 ?_ _ (fun _ => by norm_num) fuel
  rw [abs_sub_comm]
  refine lt_of_lt_of_le ?_ (le_abs_self _)
  norm_num
  linarith

end Properties
