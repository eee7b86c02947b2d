import Verif.Proofs.PPDriverT
import Verif.Proofs.PPDriverCP
import Verif.Model.TuckPP
import Verif.Properties.TuckLoop
import Verif.Properties.TuckerPP

/-! # The computations of `alsTucker_PP` -/

namespace Model

open Finset Properties

variable {N : ℕ} {dims rk : Fin N → ℕ} {V : Tensor ℝ}

theorem tzeros_shape {W : List (Tensor ℝ)} (hS : TuckShaped dims rk V W) : TuckShaped dims rk V (W.map zerosLike) where
  lensV := hS.lensV
  count := by simp [hS.count]
  lensW := by
    intro j M h
    rw [List.getElem?_map] at h
    obtain ⟨M0, _, m1, m2, _⟩ := tmats_get hS j
    rw [m1] at h
    cases h
    exact m2

theorem tzeros_mats {W : List (Tensor ℝ)} (j : Fin N) (x r : ℕ) : mats (W.map zerosLike) j x r = 0 := by
  unfold mats
  cases h : (W.map zerosLike)[j.1]? with
  | none => rfl
  | some M =>
    rw [List.getElem?_map] at h
    cases h' : W[j.1]? with
    | none => rw [h'] at h; cases h
    | some M0 => rw [h'] at h; cases h; rfl

theorem tdiffs_shape {W Wp : List (Tensor ℝ)} (hS : TuckShaped dims rk V W) (hP : TuckShaped dims rk V Wp) :
    ∃ d, diffs N W Wp = .ok d ∧ TuckShaped dims rk V d ∧ ∀ j : Fin N, ∀ x < dims j, ∀ r < rk j,
      mats d j x r = mats W j x r - mats Wp j x r := by
  have key : ∀ i : ℕ, ∃ D : Tensor ℝ, ∀ h : i < N, (do
      let a ← rd W i
      let b ← rd Wp i
      zipT (fun x y : ℝ => x - y) a b) = .ok D ∧ D.lens = [dims ⟨i, h⟩, rk ⟨i, h⟩] ∧ ∀ x < dims ⟨i, h⟩, ∀ r < rk ⟨i, h⟩,
        mat D x r = mats W ⟨i, h⟩ x r - mats Wp ⟨i, h⟩ x r := by
    intro i
    by_cases h : i < N
    · obtain ⟨A, a1, _, a2, a3⟩ := tmats_get hS ⟨i, h⟩
      obtain ⟨B, b1, _, b2, b3⟩ := tmats_get hP ⟨i, h⟩
      obtain ⟨D, d1, d2, d3, d4⟩ := zipT_ok (fun x y : ℝ => x - y) (A := A) (B := B) (by rw [a2, b2])
      refine ⟨D, fun _ => ⟨?_, by rw [d3, a2], fun x hx r hr => ?_⟩⟩
      · simp only at a1 b1
        simp only [bind, Except.bind, a1, b1, d1]
      · rw [← a3, ← b3]
        exact d4 _ (by rw [a2]; exact fits_two.2 ⟨hx, hr⟩)
    · exact ⟨⟨[], fun _ => 0⟩, fun h' => absurd h' h⟩
  choose D hD using key
  have hget : ∀ j : Fin N, ((List.range N).map D)[j.1]? = some (D j.1) := by
    intro j
    simp
  refine ⟨(List.range N).map D, mapM_ok fun i hi => (hD i (List.mem_range.1 hi)).1, ⟨hS.lensV, by simp, ?_⟩, ?_⟩
  · intro j M h
    rw [hget] at h
    cases h
    exact (hD j.1 j.2).2.1
  · intro j x hx r hr
    rw [← (hD j.1 j.2).2.2 x hx r hr]
    simp [mats, hget]

/-- The Frobenius norm of factor `j`. -/
noncomputable def tfacNorm (dims rk : Fin N → ℕ) (W : List (Tensor ℝ)) (j : Fin N) : ℝ :=
  Real.sqrt (∑ x ∈ range (dims j), ∑ r ∈ range (rk j), mats W j x r ^ 2)

/-- The tests of all modes. -/
theorem tratioTests_ok {W dW : List (Tensor ℝ)} (hS : TuckShaped dims rk V W) (hD : TuckShaped dims rk V dW)
    (test : ℝ → ℝ → Bool) : ratioTests N test W dW =
      .ok (List.ofFn fun j : Fin N => test (tfacNorm dims rk dW j) (tfacNorm dims rk W j)) := by
  unfold ratioTests
  rw [mapM_ok (g := fun i => if h : i < N then test (tfacNorm dims rk dW ⟨i, h⟩) (tfacNorm dims rk W ⟨i, h⟩) else false)]
  · congr 1
    apply List.ext_getElem
    · simp
    · intro i h1 h2
      simp at h1
      simp [h1]
  · intro i hi
    have hi := List.mem_range.1 hi
    obtain ⟨A, a0, _, a2, a3⟩ := tmats_get hS ⟨i, hi⟩
    obtain ⟨B, b0, _, b2, b3⟩ := tmats_get hD ⟨i, hi⟩
    simp only at a0 b0
    simp only [a0, b0, bind, Except.bind, pure, Except.pure, hi, dif_pos, tfacNorm, ← a3, ← b3, norm2, sqNorm_mat a2, sqNorm_mat b2]

/-- State between the phases; `o`: the factors passed in had orthonormal columns; `m`: rounds until `tol_init <= 1`. -/
structure TPI (dims rk : Fin N → ℕ) (V : Tensor ℝ) (o : Prop) (m : ℕ) (s : TuckPPState) : Prop where
  W : TuckShaped dims rk V s.W
  dW : TuckShaped dims rk V s.dW
  core : s.core.lens = List.ofFn rk
  prev : s.corePrev.lens = List.ofFn rk
  ortho : o → AllOrtho dims rk s.W
  small : s.tolInit * (9 / 10) ^ m ≤ 1

/-- State in a dimension tree phase. -/
structure TPD (dims rk : Fin N → ℕ) (V : Tensor ℝ) (o : Prop) (m : ℕ) (s : TuckPPState) : Prop where
  i : TPI dims rk V o m s
  prevW : TuckShaped dims rk V s.Wprev

/-- State in a PP phase. -/
structure TPQ (dims rk : Fin N → ℕ) (V : Tensor ℝ) (o : Prop) (m : ℕ) (s : TuckPPState) : Prop where
  i : TPI dims rk V o m s
  init : TuckShaped dims rk V s.Winit
  ops : tuckOperators N V s.Winit = .ok s.ops
  disp : ∀ j : Fin N, ∀ x < dims j, ∀ r < rk j, mats s.dW j x r = mats s.W j x r - mats s.Winit j x r

/-- Fresh: the reference of the dimension tree phase is zero and `tol_init <= 1`. -/
structure TPF (dims rk : Fin N → ℕ) (s : TuckPPState) : Prop where
  zero : ∀ j : Fin N, ∀ x < dims j, ∀ r < rk j, mats s.Wprev j x r = 0
  small : s.tolInit ≤ 1

theorem tp_check (h1 : 1 ≤ N) (hN : N ≤ 10) {o : Prop} {m : ℕ} {k : Kern ℝ} {s : TuckPPState} (h : TPI dims rk V o m s) :
    ∃ C, (tuckPPHooks N k V).check s = .ok ({ s with core := C }, |coreNorm dims rk V s.W - norm2 s.corePrev|,
      Real.sqrt (Spec.tuckErrSq dims rk (arr V N) (mats s.W))) ∧ IsCore dims rk V s.W C := by
  obtain ⟨C, c1, c2, c3⟩ := C38_check h1 hN h.W s.core s.corePrev
  refine ⟨C, ?_, c2, c3⟩
  simp only [tuckPPHooks, c1, bind, Except.bind]
  rfl

theorem tp_accept (hN : N ≤ 31) {o : Prop} {m : ℕ} {k : Kern ℝ} {s : TuckPPState} (h : TPI dims rk V o m s) :
    ∃ P : Tensor ℝ, (tuckPPHooks N k V).accept s = .ok { s with corePrev := P } ∧ P.lens = List.ofFn rk ∧ norm2 P = norm2 s.core := by
  obtain ⟨s', a1, a2, _, _, a5⟩ := keepCore_ok hN (dims := dims) (rk := rk) (V := V) (s := ⟨s.W, s.core, s.corePrev⟩) ⟨h.W, h.core, h.prev⟩
  refine ⟨s'.corePrev, ?_, a2.prev, a5⟩
  simp only [tuckPPHooks, a1, bind, Except.bind]
  rfl

theorem tp_dtSweep (h4 : 4 ≤ N) (h5 : N ≠ 5) (hN : N ≤ 10) (hr : ∀ j, rk j ≤ dims j) {o : Prop} {m : ℕ} {k : Kern ℝ}
    (hk : SvdShape k) (hl : SvdLeading k) {s : TuckPPState} (h : TPD dims rk V o m s) :
    ∃ W' C d, tuckSweepDTsub k V (List.ofFn rk) s.Wprev s.W = .ok (W', C) ∧
      (tuckPPHooks N k V).dtSweep s = .ok { s with W := W', core := C, dW := d, Wprev := W' } ∧
      TuckShaped dims rk V W' ∧ AllOrtho dims rk W' ∧ IsCore dims rk V W' C ∧ TuckShaped dims rk V d ∧
      ∀ j : Fin N, ∀ x < dims j, ∀ r < rk j, mats d j x r = mats W' j x r - mats s.Wprev j x r := by
  obtain ⟨W', C, b1, b2, b3, _, ⟨e1, e2⟩, _⟩ := tuckSweepDTsub_ok h4 h5 (by omega) hr h.prevW h.i.W hk hl
  have e' : klens dims rk ∅ = rk := by funext j; simp [klens]
  rw [e'] at e1 e2
  obtain ⟨d, d1, d2, d3⟩ := tdiffs_shape b2 h.prevW
  refine ⟨W', C, d, b1, ?_, b2, ?_, ⟨e1, e2⟩, d2, d3⟩
  · simp only [tuckPPHooks, h.i.core, bind, Except.bind, b1, d1]
    rfl
  · exact fun j => (b3.spec le_rfl h.i.W).2.1 j j.2

theorem tp_ppBegin (h3 : 3 ≤ N) (h9 : N ≤ 9) {o : Prop} {m : ℕ} {k : Kern ℝ} {s : TuckPPState} (h : TPI dims rk V o m s) :
    ∃ ops, tuckOperators N V s.W = .ok ops ∧
      (tuckPPHooks N k V).ppBegin s = .ok { s with Winit := s.W, dW := s.W.map zerosLike, ops := ops } ∧
      TPQ dims rk V o m { s with Winit := s.W, dW := s.W.map zerosLike, ops := ops } := by
  obtain ⟨ops, o1, _⟩ := tuckOperators_ok h3 h9 h.W
  refine ⟨ops, o1, ?_, ⟨h.W, tzeros_shape h.W, h.core, h.prev, h.ortho, h.small⟩, h.W, o1, ?_⟩
  · simp only [tuckPPHooks, o1, bind, Except.bind]
    rfl
  · intro j x _ r _
    simp only [tzeros_mats, sub_self]

theorem tp_hooks (h4 : 4 ≤ N) (h5 : N ≠ 5) (h9 : N ≤ 9) (hr : ∀ j, rk j ≤ dims j) {k : Kern ℝ} (hk : SvdShape k)
    (hl : SvdLeading k) (o : Prop) (m : ℕ) :
    HooksOk (tuckPPHooks N k V) (TPI dims rk V o m) (TPD dims rk V o m) (TPQ dims rk V o m) where
  DI _ h := h.i
  QI _ h := h.i
  dtBegin s h := ⟨_, rfl, ⟨h.W, h.dW, h.core, h.prev, h.ortho, h.small⟩, tzeros_shape h.W⟩
  dtSweep s h := by
    obtain ⟨W', C, d, _, b2, b3, b4, b5, b6, _⟩ := tp_dtSweep h4 h5 (by omega) hr hk hl h
    exact ⟨_, b2, ⟨b3, b6, b5.1, h.i.prev, fun _ => b4, h.i.small⟩, b3⟩
  dtClose s h := by
    have hb := tratioTests_ok h.i.W h.i.dW fun a b => quotLt a b s.tolInit
    generalize List.ofFn _ = l at hb
    exact ⟨_, by simp only [tuckPPHooks, hb, bind, Except.bind]; rfl, trivial⟩
  ppFar s h := by
    have hb := tratioTests_ok h.W h.dW fun a b => quotGt a b s.tolInit
    generalize List.ofFn _ = l at hb
    exact ⟨_, by simp only [tuckPPHooks, hb, bind, Except.bind]; rfl, trivial⟩
  ppBegin s h := by
    obtain ⟨ops, _, o2, o3⟩ := tp_ppBegin (by omega) h9 h (k := k)
    exact ⟨_, o2, o3⟩
  ppSweep s h := by
    obtain ⟨ops, W', dW', C, a1, a2, a3, a4, _⟩ := C36_sweep (by omega) h9 hr h.init h.i.W h.i.dW hl ⟨N - 1, by omega⟩ rfl
    rw [h.ops] at a1
    cases a1
    refine ⟨{ s with W := W', dW := dW', core := C }, ?_, ⟨a3.shW, a3.shD, a4, h.i.prev, fun _ => a3.ortho, h.i.small⟩, h.init,
      h.ops, a3.disp⟩
    simp only [tuckPPHooks, h.i.core, a2, bind, Except.bind]
    rfl
  checkD s h := by
    obtain ⟨C, c1, c2⟩ := tp_check (by omega) (by omega) h.i (k := k)
    exact ⟨_, c1, ⟨h.i.W, h.i.dW, c2.1, h.i.prev, h.i.ortho, h.i.small⟩, h.prevW⟩
  checkQ s h := by
    obtain ⟨C, c1, c2⟩ := tp_check (by omega) (by omega) h.i (k := k)
    exact ⟨_, c1, ⟨h.i.W, h.i.dW, c2.1, h.i.prev, h.i.ortho, h.i.small⟩, h.init, h.ops, h.disp⟩
  acceptD s h := by
    obtain ⟨P, p1, p2, _⟩ := tp_accept (by omega) h.i (k := k)
    exact ⟨_, p1, ⟨h.i.W, h.i.dW, h.i.core, p2, h.i.ortho, h.i.small⟩, h.prevW⟩
  acceptQ s h := by
    obtain ⟨P, p1, p2, _⟩ := tp_accept (by omega) h.i (k := k)
    exact ⟨_, p1, ⟨h.i.W, h.i.dW, h.i.core, p2, h.i.ortho, h.i.small⟩, h.init, h.ops, h.disp⟩
  endRound s h := by
    simp only [tuckPPHooks]
    split
    · next ht =>
      refine ⟨h.W, h.dW, h.core, h.prev, h.ortho, ?_⟩
      have := h.small
      have hp : (0 : ℝ) < (9 / 10) ^ m := by positivity
      have : s.tolInit * (9 / 10) * (9 / 10) ^ m = s.tolInit * (9 / 10) ^ m * (9 / 10) := by ring
      rw [this]
      have : 0 < s.tolInit * (9 / 10) ^ m := mul_pos (by linarith) hp
      linarith [h.small]
    · exact h

theorem tp_dec {k : Kern ℝ} {o : Prop} (m : ℕ) (s : TuckPPState) (h : TPI dims rk V o (m + 1) s) :
    TPI dims rk V o m ((tuckPPHooks N k V).endRound s) := by
  simp only [tuckPPHooks]
  split
  · refine ⟨h.W, h.dW, h.core, h.prev, h.ortho, ?_⟩
    have := h.small
    rw [pow_succ] at this
    linarith
  · next ht =>
    refine ⟨h.W, h.dW, h.core, h.prev, h.ortho, ?_⟩
    have h1 : (9 / 10 : ℝ) ^ m ≤ 1 := pow_le_one₀ (by norm_num) (by norm_num)
    have h0 : (0 : ℝ) ≤ (9 / 10) ^ m := by positivity
    nlinarith

theorem tp_exact (h4 : 4 ≤ N) (h5 : N ≠ 5) (h9 : N ≤ 9) (hr : ∀ j, rk j ≤ dims j) {k : Kern ℝ} (hk : SvdShape k)
    (hl : SvdLeading k) (o : Prop) (m : ℕ) :
    ExactOk (tuckPPHooks N k V) (TPI dims rk V o m) (TPD dims rk V o m) (TPQ dims rk V o m)
      (fun s => IsCore dims rk V s.W s.core) where
  dtSweep s h := by
    obtain ⟨W', C, d, _, b2, b3, b4, b5, b6, _⟩ := tp_dtSweep h4 h5 (by omega) hr hk hl h
    exact ⟨_, b2, b5⟩
  checkD s h := by
    obtain ⟨C, c1, c2⟩ := tp_check (by omega) (by omega) h.i (k := k)
    exact ⟨_, c1, c2⟩
  checkQ s h := by
    obtain ⟨C, c1, c2⟩ := tp_check (by omega) (by omega) h.i (k := k)
    exact ⟨_, c1, c2⟩
  acceptD s h he := by
    obtain ⟨P, p1, p2, _⟩ := tp_accept (by omega) h.i (k := k)
    exact ⟨_, p1, he⟩
  acceptQ s h he := by
    obtain ⟨P, p1, p2, _⟩ := tp_accept (by omega) h.i (k := k)
    exact ⟨_, p1, he⟩
  ppBegin s h he := by
    obtain ⟨ops, _, o2, o3⟩ := tp_ppBegin (by omega) h9 h (k := k)
    exact ⟨_, o2, he⟩
  endRound s he := by
    simp only [tuckPPHooks]
    split <;> exact he

theorem tp_close {k : Kern ℝ} {o : Prop} {m : ℕ} {s : TuckPPState} (h : TPD dims rk V o m s)
    (hc : (tuckPPHooks N k V).dtClose s = .ok true) : (tuckPPHooks N k V).ppFar s = .ok false := by
  simp only [tuckPPHooks, tratioTests_ok h.i.W h.i.dW, bind, Except.bind, pure, Except.pure, Except.ok.injEq] at hc ⊢
  rw [List.all_eq_true] at hc
  rw [List.any_eq_false]
  intro b hb
  obtain ⟨i, rfl⟩ := (List.mem_ofFn' _ _).1 hb
  have := hc _ ((List.mem_ofFn' _ _).2 ⟨i, rfl⟩)
  simp only [id_eq] at this ⊢
  rw [quot_excl this]
  exact Bool.false_ne_true

theorem facNorm_congr {W W' : List (Tensor ℝ)} {j : Fin N} (h : ∀ x < dims j, ∀ r < rk j, mats W j x r = mats W' j x r) :
    tfacNorm dims rk W j = tfacNorm dims rk W' j := by
  unfold tfacNorm
  congr 1
  exact sum_congr rfl fun x hx => sum_congr rfl fun r hr => by rw [h x (mem_range.1 hx) r (mem_range.1 hr)]

theorem tp_fresh (h4 : 4 ≤ N) (h5 : N ≠ 5) (h9 : N ≤ 9) (hr : ∀ j, rk j ≤ dims j) {k : Kern ℝ} (hk : SvdShape k)
    (hl : SvdLeading k) (o : Prop) :
    FreshOk (tuckPPHooks N k V) (TPI dims rk V o 0) (TPD dims rk V o 0) (TPF dims rk) where
  dtBegin s h := ⟨_, rfl, fun j x _ r _ => tzeros_mats j x r, by simpa using h.small⟩
  check s h hf := by
    obtain ⟨C, c1, c2⟩ := tp_check (by omega) (by omega) h.i (k := k)
    exact ⟨_, c1, hf.zero, hf.small⟩
  accept s h hf := by
    obtain ⟨P, p1, p2, _⟩ := tp_accept (by omega) h.i (k := k)
    exact ⟨_, p1, hf.zero, hf.small⟩
  dtSweep s h hf := by
    obtain ⟨W', C, d, _, b2, b3, b4, b5, b6, b7⟩ := tp_dtSweep h4 h5 (by omega) hr hk hl h
    refine ⟨_, b2, ?_⟩
    simp only [tuckPPHooks, tratioTests_ok b3 b6, bind, Except.bind, pure, Except.pure]
    congr 1
    rw [List.all_eq_false]
    refine ⟨_, (List.mem_ofFn' _ _).2 ⟨⟨0, by omega⟩, rfl⟩, ?_⟩
    have e : tfacNorm dims rk d ⟨0, by omega⟩ = tfacNorm dims rk W' ⟨0, by omega⟩ :=
      facNorm_congr fun x hx r hr => by rw [b7 _ x hx r hr, hf.zero _ x hx r hr, sub_zero]
    beta_reduce
    rw [e]
    simp only [id_eq, quotLt, decide_eq_true_eq, not_and, not_lt]
    intro hne
    rw [div_self hne]
    exact hf.small

theorem tp_stable (h3 : 3 ≤ N) (h9 : N ≤ 9) {k : Kern ℝ} (o : Prop) (m : ℕ) : Stable (tuckPPHooks N k V) (TPD dims rk V o m) := by
  intro s q s' q' hs e1 e2 e3
  obtain ⟨C, c1, c2⟩ := tp_check (by omega) (by omega) hs.i (k := k)
  rw [c1] at e1
  rw [← Except.ok.inj e1] at e2 ⊢
  have hI : TPI dims rk V o m { s with core := C } := ⟨hs.i.W, hs.i.dW, c2.1, hs.i.prev, hs.i.ortho, hs.i.small⟩
  obtain ⟨ops, _, o2, o3⟩ := tp_ppBegin h3 h9 hI (k := k)
  rw [o2] at e2
  rw [← Except.ok.inj e2] at e3
  obtain ⟨C', c1', c2'⟩ := tp_check (by omega) (by omega) o3.i (k := k)
  rw [c1'] at e3
  rw [← Except.ok.inj e3]

end Model
