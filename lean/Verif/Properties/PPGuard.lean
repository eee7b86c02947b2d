import Verif.Proofs.PPGuard
import Verif.Properties.TuckPP
import Verif.Properties.PPDriver

/-! # C55: pairwise perturbation is only used while the factors are close to the point of the operators

The statements compare a driver with an instrumented one, in which a PP sweep started outside the condition aborts: both give the
same outcome on all inputs, so no such sweep is ever started. -/

namespace Properties

open Model Finset

variable {N : ℕ} {dims rk : Fin N → ℕ} {R : ℕ} {V : Tensor ℝ} {W G : List (Tensor ℝ)} {kn : Kern ℝ}

theorem quotGt_false {a b t : ℝ} (hb : 0 ≤ b) (h : quotGt a b t = false) : a ≤ t * b := by
  simp only [quotGt, decide_eq_false_iff_not, not_or, not_and, not_lt, not_not] at h
  rcases eq_or_lt_of_le hb with e | e
  · rw [h.2 e.symm, ← e]; simp
  · exact (div_le_iff₀ e).1 (h.1 e.ne')

theorem quotGt_zero {b t : ℝ} (ht : 0 ≤ t) : quotGt 0 b t = false := by
  simp only [quotGt, decide_eq_false_iff_not, not_or, not_and, not_lt, not_not, zero_div]
  exact ⟨fun _ => ht, fun _ => trivial⟩

theorem Shaped.tuck (h : Shaped dims R V W) : TuckShaped dims (fun _ => R) V W := ⟨h.lensV, h.count, h.lensW⟩

theorem tfacNorm_zeros (W : List (Tensor ℝ)) (j : Fin N) : tfacNorm dims rk (W.map zerosLike) j = 0 := by
  unfold tfacNorm
  simp [tzeros_mats]

theorem any_false_of {l : List Bool} (h : ∀ b ∈ l, b = false) : l.any id = false := by
  rw [List.any_eq_false]
  intro b hb
  simp [h b hb]

/-! ## `alsCP_PP` -/

/-- The condition for `alsCP_PP`: the operators are those of `W_init`, and for every mode the norm of `dW` is at most `tol_init`
times the norm of the factor. -/
def CPSafe (dims : Fin N → ℕ) (R : ℕ) (V : Tensor ℝ) (same : Bool) (tolInit : ℝ) (s : CPPPState) : Prop :=
  ppOperators same N V s.Winit = .ok s.ops ∧
    ∀ j : Fin N, tfacNorm dims (fun _ => R) s.dW j ≤ tolInit * tfacNorm dims (fun _ => R) s.W j

/-- State in a PP phase. -/
def CPQ' (dims : Fin N → ℕ) (R : ℕ) (V : Tensor ℝ) (same : Bool) (s : CPPPState) : Prop :=
  CPQ dims R V s ∧ ppOperators same N V s.Winit = .ok s.ops

theorem cp_hooks' (h4 : 4 ≤ N) (h5 : N ≠ 5) (h9 : N ≤ 9) (same : Bool) (lam ratio tolInit : ℝ) {k : Kern ℝ} (hk : KernOk k) :
    HooksOk (cpPPHooks same N R lam ratio tolInit k V) (CPI dims R V) (CPD dims R V) (CPQ' dims R V same) := by
  have h := cp_hooks (dims := dims) (R := R) (V := V) h4 h5 h9 same lam ratio tolInit hk
  refine ⟨h.DI, fun s hs => h.QI s hs.1, h.dtBegin, h.dtSweep, h.dtClose, h.ppFar, ?_, ?_, h.checkD, ?_, h.acceptD, ?_, h.endRound⟩
  · intro s hs
    obtain ⟨ops, o1, o2⟩ := ppOperators_ok (by omega) h9 same hs.W
    refine ⟨{ s with Winit := s.W, dW := s.dW.map zerosLike, ops := ops }, ?_, ⟨⟨hs.W, hs.G, zeros_shape hs.dW⟩, hs.W, o2⟩, o1⟩
    simp only [cpPPHooks, o1, bind, Except.bind]
    rfl
  · intro s hs
    obtain ⟨t, t1, t2⟩ := ppSweep_shape (by omega) hs.1.ops hs.1.init (s := ⟨s.W, s.G, s.dW⟩) ⟨hs.1.i.W, hs.1.i.G, hs.1.i.dW⟩ hk
      (lam := lam) (ratio := ratio)
    refine ⟨{ s with W := t.W, G := t.G, dW := t.dW }, ?_, ⟨⟨t2.W, t2.G, t2.dW⟩, hs.1.init, hs.1.ops⟩, hs.2⟩
    simp only [cpPPHooks, t1, bind, Except.bind]
    rfl
  · intro s hs
    obtain ⟨g, d, _, e⟩ := cp_check (by omega) (by omega) hs.1.i (same := same) (lam := lam) (ratio := ratio)
      (tolInit := tolInit) (k := k)
    exact ⟨_, e, hs⟩
  · exact fun s hs => ⟨s, rfl, hs⟩

theorem cp_far (same : Bool) (lam ratio tolInit : ℝ) {k : Kern ℝ} {s : CPPPState} (h : CPI dims R V s) :
    (cpPPHooks same N R lam ratio tolInit k V).ppFar s = .ok ((List.ofFn fun j : Fin N =>
      quotGt (tfacNorm dims (fun _ => R) s.dW j) (tfacNorm dims (fun _ => R) s.W j) tolInit).any id) := by
  simp only [cpPPHooks, tratioTests_ok (Shaped.tuck h.W) (Shaped.tuck h.dW), bind, Except.bind]
  rfl

/-- **C55 (`alsCP_PP`).** Orders 4, 6..9, dense kernels satisfying their contract, any clock, outside `bench` mode,
`tol_init >= 0`: every PP sweep is made with operators that are exactly those computed at `W_init`, and with `‖dW‖ <= tol_init ‖W‖`
for every mode. -/
theorem C55_cp (h4 : 4 ≤ N) (h5 : N ≠ 5) (h9 : N ≤ 9) (same : Bool) (lam ratio tolInit : ℝ) (ht : 0 ≤ tolInit) (hk : KernOk kn)
    (hW : Shaped dims R V W) (hG : G.length = N) (c : PPCfg) (hb : c.bench = false) (clock : ℕ → ℝ)
    (fuel : ℕ) :
    ppDriver { c with tucker := false } ((cpPPHooks same N R lam ratio tolInit kn V).guardSweep (CPSafe dims R V same tolInit))
        clock fuel ⟨W, G, W.map zerosLike, [], [], []⟩ =
      alsCPPP same N R lam ratio tolInit kn V c clock fuel W G := by
  refine ppDriver_guard (c := { c with tucker := false }) (cp_hooks' (dims := dims) h4 h5 h9 same lam ratio tolInit hk).keep
    ⟨?_, ?_, ?_⟩ hb ?_ (cp_start hW hG)
  · intro s hs hfar
    obtain ⟨g, d, _, e⟩ := cp_check (by omega) (by omega) hs.1.i (same := same) (lam := lam) (ratio := ratio)
      (tolInit := tolInit) (k := kn)
    exact Succ.ifOk ⟨_, e, hfar⟩
  · exact fun s hs hfar => Succ.ifOk ⟨s, rfl, hfar⟩
  · intro s hs
    obtain ⟨ops, o1, o2⟩ := ppOperators_ok (by omega) h9 same hs.W
    have hq : CPI dims R V { s with Winit := s.W, dW := s.dW.map zerosLike, ops := ops } := ⟨hs.W, hs.G, zeros_shape hs.dW⟩
    refine Succ.ifOk ⟨_, by simp only [cpPPHooks, o1, bind, Except.bind]; rfl, ?_⟩
    have := cp_far same lam ratio tolInit (k := kn) hq
    rw [any_false_of] at this
    · exact this
    · intro b hb
      obtain ⟨j, rfl⟩ := (List.mem_ofFn' _ _).1 hb
      simp only [tfacNorm_zeros]
      exact quotGt_zero ht
  · intro s hs hfar
    refine ⟨hs.2, fun j => ?_⟩
    rw [cp_far same lam ratio tolInit (k := kn) hs.1.i, Except.ok.injEq, List.any_eq_false] at hfar
    have := hfar _ ((List.mem_ofFn' _ _).2 ⟨j, rfl⟩)
    exact quotGt_false (Real.sqrt_nonneg _) (by simpa using this)

/-! ## `alsTucker_PP` -/

/-- The condition for `alsTucker_PP`: the operators are those of `W_init`, `dW = W - W_init`, and for every mode the norm of
`W - W_init` is at most the current tolerance times the norm of the factor, where the tolerance is at most `tol_init`. -/
def TuckSafe (dims rk : Fin N → ℕ) (V : Tensor ℝ) (tolInit : ℝ) (s : TuckPPState) : Prop :=
  tuckOperators N V s.Winit = .ok s.ops ∧
    (∀ j : Fin N, ∀ x < dims j, ∀ r < rk j, mats s.dW j x r = mats s.W j x r - mats s.Winit j x r) ∧ s.tolInit ≤ tolInit ∧
    ∀ j : Fin N, Real.sqrt (∑ x ∈ range (dims j), ∑ r ∈ range (rk j), (mats s.W j x r - mats s.Winit j x r) ^ 2) ≤
      s.tolInit * tfacNorm dims rk s.W j

theorem tp_far {o : Prop} {m : ℕ} {k : Kern ℝ} {s : TuckPPState} (h : TPI dims rk V o m s) :
    (tuckPPHooks N k V).ppFar s = .ok ((List.ofFn fun j : Fin N =>
      quotGt (tfacNorm dims rk s.dW j) (tfacNorm dims rk s.W j) s.tolInit).any id) := by
  simp only [tuckPPHooks, tratioTests_ok h.W h.dW, bind, Except.bind]
  rfl

/-- Bounds on the current tolerance. -/
def TolIn (t : ℝ) (s : TuckPPState) : Prop := 0 ≤ s.tolInit ∧ s.tolInit ≤ t

theorem tp_hooks' (h4 : 4 ≤ N) (h5 : N ≠ 5) (h9 : N ≤ 9) (hr : ∀ j, rk j ≤ dims j) {k : Kern ℝ} (hk : SvdShape k)
    (hl : SvdLeading k) (o : Prop) (m : ℕ) (t : ℝ) :
    HooksOk (tuckPPHooks N k V) (fun s => TPI dims rk V o m s ∧ TolIn t s) (fun s => TPD dims rk V o m s ∧ TolIn t s)
      (fun s => TPQ dims rk V o m s ∧ TolIn t s) where
  DI _ h := ⟨h.1.i, h.2⟩
  QI _ h := ⟨h.1.i, h.2⟩
  dtBegin s h := ⟨_, rfl, ((tp_hooks h4 h5 h9 hr hk hl o m).dtBegin s h.1).of_ok rfl, h.2⟩
  dtSweep s h := by
    obtain ⟨W', C, d, _, b2, _⟩ := tp_dtSweep h4 h5 (by omega) hr hk hl h.1
    exact ⟨_, b2, ((tp_hooks h4 h5 h9 hr hk hl o m).dtSweep s h.1).of_ok b2, h.2⟩
  dtClose s h := (tp_hooks h4 h5 h9 hr hk hl o m).dtClose s h.1
  ppFar s h := (tp_hooks h4 h5 h9 hr hk hl o m).ppFar s h.1
  ppBegin s h := by
    obtain ⟨ops, _, o2, o3⟩ := tp_ppBegin (by omega) h9 h.1 (k := k)
    exact ⟨_, o2, o3, h.2⟩
  ppSweep s h := by
    obtain ⟨s', e, q⟩ := (tp_hooks h4 h5 h9 hr hk hl o m).ppSweep s h.1
    refine ⟨s', e, q, ?_⟩
    have : s'.tolInit = s.tolInit := by
      simp only [tuckPPHooks, bind, Except.bind] at e
      split at e
      · cases e
      · rw [← Except.ok.inj e]
    unfold TolIn
    rw [this]
    exact h.2
  checkD s h := by
    obtain ⟨C, c1, c2⟩ := tp_check (by omega) (by omega) h.1.i (k := k)
    exact ⟨_, c1, ((tp_hooks h4 h5 h9 hr hk hl o m).checkD s h.1).of_ok c1, h.2⟩
  checkQ s h := by
    obtain ⟨C, c1, c2⟩ := tp_check (by omega) (by omega) h.1.i (k := k)
    exact ⟨_, c1, ((tp_hooks h4 h5 h9 hr hk hl o m).checkQ s h.1).of_ok c1, h.2⟩
  acceptD s h := by
    obtain ⟨P, p1, p2, _⟩ := tp_accept (by omega) h.1.i (k := k)
    exact ⟨_, p1, ((tp_hooks h4 h5 h9 hr hk hl o m).acceptD s h.1).of_ok p1, h.2⟩
  acceptQ s h := by
    obtain ⟨P, p1, p2, _⟩ := tp_accept (by omega) h.1.i (k := k)
    exact ⟨_, p1, ((tp_hooks h4 h5 h9 hr hk hl o m).acceptQ s h.1).of_ok p1, h.2⟩
  endRound s h := by
    refine ⟨(tp_hooks h4 h5 h9 hr hk hl o m).endRound s h.1, ?_⟩
    have h2 := h.2
    unfold TolIn at h2 ⊢
    simp only [tuckPPHooks]
    split
    · simp only
      constructor <;> linarith
    · exact h2

theorem tp_farOk (h4 : 4 ≤ N) (h9 : N ≤ 9) (o : Prop) (m : ℕ) (t : ℝ) :
    FarOk (tuckPPHooks N kn V) (fun s => TPI dims rk V o m s ∧ TolIn t s) (fun s => TPQ dims rk V o m s ∧ TolIn t s) := by
  refine ⟨?_, ?_, ?_⟩
  · rintro s ⟨hs, hs'⟩ hfar
    obtain ⟨C, c1, c2⟩ := tp_check (by omega) (by omega) hs.i (k := kn)
    refine Succ.ifOk ⟨_, c1, ?_⟩
    rw [tp_far hs.i] at hfar
    rw [tp_far (o := o) (m := m) (s := { s with core := C }) ⟨hs.i.W, hs.i.dW, c2.1, hs.i.prev, hs.i.ortho, hs.i.small⟩]
    exact hfar
  · rintro s ⟨hs, hs'⟩ hfar
    obtain ⟨P, p1, p2, _⟩ := tp_accept (by omega) hs.i (k := kn)
    refine Succ.ifOk ⟨_, p1, ?_⟩
    rw [tp_far hs.i] at hfar
    rw [tp_far (o := o) (m := m) (s := { s with corePrev := P }) ⟨hs.i.W, hs.i.dW, hs.i.core, p2, hs.i.ortho, hs.i.small⟩]
    exact hfar
  · rintro s ⟨hs, hs'⟩
    obtain ⟨ops, _, o2, o3⟩ := tp_ppBegin (by omega) h9 hs (k := kn)
    refine Succ.ifOk ⟨_, o2, ?_⟩
    beta_reduce
    rw [tp_far o3.i, any_false_of]
    intro b hb
    obtain ⟨j, rfl⟩ := (List.mem_ofFn' _ _).1 hb
    simp only [tfacNorm_zeros]
    exact quotGt_zero hs'.1

theorem tp_safe {o : Prop} {m : ℕ} {t : ℝ} {s : TuckPPState} (hs : TPQ dims rk V o m s) (hs' : TolIn t s)
    (hfar : (tuckPPHooks N kn V).ppFar s = .ok false) : TuckSafe dims rk V t s := by
  refine ⟨hs.ops, hs.disp, hs'.2, fun j => ?_⟩
  rw [tp_far hs.i, Except.ok.injEq, List.any_eq_false] at hfar
  have := hfar _ ((List.mem_ofFn' _ _).2 ⟨j, rfl⟩)
  refine le_trans (le_of_eq ?_) (quotGt_false (Real.sqrt_nonneg _) (by simpa using this))
  unfold tfacNorm
  congr 1
  exact sum_congr rfl fun x hx => sum_congr rfl fun r hr => by rw [hs.disp j x (mem_range.1 hx) r (mem_range.1 hr)]

/-- **C55 (`alsTucker_PP`).** Orders 4, 6..9, an SVD satisfying its contract, any clock, outside `bench` mode, `tol_init >= 0`: every
PP sweep is made with operators that are exactly those computed at `W_init`, with `dW = W - W_init`, and with
`‖W - W_init‖ <= tol_init ‖W‖` for every mode. -/
theorem C55_tucker (h4 : 4 ≤ N) (h5 : N ≠ 5) (h9 : N ≤ 9) (hrk : ∀ j, rk j ≤ dims j) (hW : TuckShaped dims rk V W)
    {core : Tensor ℝ} (hC : core.lens = List.ofFn rk) (hk : SvdShape kn) (hl : SvdLeading kn) (tolInit : ℝ) (ht : 0 ≤ tolInit)
    (c : PPCfg) (hb : c.bench = false) (clock : ℕ → ℝ) (fuel : ℕ) :
    ppDriver { c with tucker := true } ((tuckPPHooks N kn V).guardSweep (TuckSafe dims rk V tolInit)) clock fuel
        ⟨W, W.map zerosLike, [], [], [], core, core, tolInit⟩ =
      alsTuckerPP N kn V tolInit c clock fuel core W := by
  obtain ⟨m, hm⟩ := tol_decay tolInit
  refine ppDriver_guard (c := { c with tucker := true }) (tp_hooks' (dims := dims) h4 h5 h9 hrk hk hl (AllOrtho dims rk W) m tolInit).keep
    (tp_farOk h4 h9 _ m tolInit) hb ?_ ⟨tp_start hW hC hm, ht, le_rfl⟩
  rintro s ⟨hs, hs'⟩ hfar
  exact tp_safe hs hs' hfar

/-! Non-vacuity. -/

example : ∃ kn, ppDriver ⟨false, 1 / 1000, 60, 100, 10, false⟩ ((cpPPHooks true 4 2 (1 / 2) 1 (1 / 10) kn exVR).guardSweep
      (CPSafe (N := 4) ![2, 3, 1, 4] 2 exVR true (1 / 10))) (fun _ => 1) 104 ⟨exFacR.W, exGR, exFacR.W.map zerosLike, [], [], []⟩ =
    alsCPPP true 4 2 (1 / 2) 1 (1 / 10) kn exVR ⟨false, 1 / 1000, 60, 100, 10, false⟩ (fun _ => 1) 104 exFacR.W exGR := by
  obtain ⟨kn, hk⟩ := exists_kernOk
  exact ⟨kn, C55_cp (N := 4) (by norm_num) (by norm_num) (by norm_num) true (1 / 2) 1 (1 / 10) (by norm_num) hk
    exShapedR (G := exGR) rfl ⟨false, 1 / 1000, 60, 100, 10, false⟩ rfl (fun _ => 1) 104⟩

example : ∃ kn, ppDriver ⟨true, 1 / 1000, 60, 100, 10, false⟩ ((tuckPPHooks 4 kn exTuckV).guardSweep
      (TuckSafe (N := 4) ![2, 3, 1, 4] ![1, 2, 1, 3] exTuckV (1 / 10))) (fun _ => 1) 104
      ⟨exTuckW, exTuckW.map zerosLike, [], [], [], ⟨[1, 2, 1, 3], fun _ => 1⟩, ⟨[1, 2, 1, 3], fun _ => 1⟩, 1 / 10⟩ =
    alsTuckerPP 4 kn exTuckV (1 / 10) ⟨true, 1 / 1000, 60, 100, 10, false⟩ (fun _ => 1) 104 ⟨[1, 2, 1, 3], fun _ => 1⟩ exTuckW := by
  obtain ⟨kn, hl, hk⟩ := exists_svdLeading
  exact ⟨kn, C55_tucker (by norm_num) (by norm_num) (by norm_num) exTuckRank exTuckShaped (core := ⟨[1, 2, 1, 3], fun _ => 1⟩) rfl
    hk hl (1 / 10) (by norm_num) ⟨true, 1 / 1000, 60, 100, 10, false⟩ rfl (fun _ => 1) 104⟩

end Properties
