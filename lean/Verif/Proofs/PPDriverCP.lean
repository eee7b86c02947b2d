import Verif.Proofs.PPDriver
import Verif.Properties.PPSweep
import Verif.Properties.Legacy
import Verif.Properties.AlsLoop

/-! # The computations of `alsCP_PP` succeed -/

namespace Model

open Finset Properties

section Shape

variable {K : Type} [Field K]

theorem svdSolve_shape {k : Kern K} {n R : ℕ} {M S : Tensor K} (hM : M.lens = [n, R]) (hSl : S.lens = [R, R])
    (hS : LRShape (k.svd S R) R R R) : ∃ W, svdSolve k [n, R] M S = .ok W ∧ W.lens = [n, R] := by
  obtain ⟨Sr, r1, r2, r3, r4⟩ := einsum_rev (n := R) (m := R) hS.VT
    (s := invVec (k.svd S R).s) (by simp [invVec, hS.s]) hS.U
  obtain ⟨W, w1, w2, w3, w4⟩ := einsum_mul hM r3
  refine ⟨W, ?_, w3⟩
  unfold svdSolve
  simp only [show ncol S = R by simp [ncol, hSl], hSl, r1, bind, Except.bind, w1]

theorem svdSolveMod_shape [DecidableEq K] {k : Kern K} {n R : ℕ} {M Winit S : Tensor K} (hM : M.lens = [n, R])
    (hW : Winit.lens = [n, R]) (hSl : S.lens = [R, R]) (hS : LRShape (k.svd S R) R R R) (ratio : K) :
    ∃ W dW, svdSolveMod k M Winit S ratio = .ok (W, dW) ∧ W.lens = [n, R] ∧ dW.lens = [n, R] := by
  obtain ⟨X, x1, x3⟩ := svdSolve_shape hM hSl hS
  obtain ⟨D, d1, d2, d3, d4⟩ := zipT_ok (fun a b : K => ratio * (a - b)) (A := X) (B := Winit) (by rw [x3, hW])
  rw [x3] at d3
  obtain ⟨W, w1, w2, w3, w4⟩ := zipT_ok (· + ·) (A := Winit) (B := D) (by rw [d3, hW])
  rw [hW] at w3
  by_cases hr : ratio = 1
  · refine ⟨X, D, ?_, x3, d3⟩
    unfold svdSolveMod
    simp only [hW, x1, d1, bind, Except.bind, hr, ne_eq, not_true, if_false]
    rw [hr] at d1
    simp only [d1]
    rfl
  · refine ⟨W, D, ?_, w3, d3⟩
    unfold svdSolveMod
    simp only [hW, x1, d1, bind, Except.bind, ne_eq, hr, not_false_eq_true, if_true, w1]
    rfl

end Shape

variable {N : ℕ} {dims : Fin N → ℕ} {R : ℕ} {V : Tensor ℝ}

theorem normalMat_symm {lam : ℝ} {W : Fin N → ℕ → ℕ → ℝ} {i : Fin N} (a : ℕ) (ha : a < R) (b : ℕ) (hb : b < R) :
    Spec.normalMat dims R lam W i a b = Spec.normalMat dims R lam W i b a := by
  simp only [Spec.normalMat, Spec.clip, ha, hb, and_self, if_true, Spec.gramExcept_symm a b, eq_comm (a := a)]

theorem ppUpdate_shape {Winit : List (Tensor ℝ)} {ops : Cache ℝ} (h2 : 2 ≤ N) (ho : PPOps dims R V Winit ops)
    (hI : Shaped dims R V Winit) {s : PPState ℝ} (hs : PPShaped dims R V s) {lam ratio : ℝ} {kn : Kern ℝ}
    (hk : KernOk kn) (i : Fin N) :
    ∃ s', ppUpdate N R lam ratio kn ops Winit s i.1 = .ok s' ∧ PPShaped dims R V s' := by
  obtain ⟨M, m1, m2, m3, m4⟩ := ppM_ok ho hs.dW i
  obtain ⟨S, s1, s2, s3, s4⟩ := gramS_ok h2 hs.W lam i (index := swapIdx N i.1) (fun m => mem_swapIdx i.2) (swapIdx_nodup i.1)
  obtain ⟨Wi, w1, _, w2, w3⟩ := mats_get hs.W i
  obtain ⟨T, t1, _, t3, t4⟩ := einsum_matmul w2 s3
  obtain ⟨g, g1, g2, g3, g4⟩ := zipT_ok (fun a b : ℝ => -a + b) (A := M) (B := T) (by rw [m3, t3])
  obtain ⟨W0, a1, _, a2, a3⟩ := mats_get hI i
  have hu := hk.svd R S s3 (by rw [s4]; exact fun a ha b hb => normalMat_symm a ha b hb)
  obtain ⟨X0, D, x1, x2, x3⟩ := svdSolveMod_shape m3 a2 s3 hu.shape ratio
  refine ⟨⟨s.W.set i.1 X0, s.G.set i.1 g, s.dW.set i.1 D⟩, ?_, hs.W.set i x2, by simp [hs.G], hs.dW.set i x3⟩
  unfold ppUpdate
  simp only [bind, Except.bind]
  rw [m1]; simp only
  rw [s1]; simp only
  rw [w1]; simp only
  rw [m3, t1]; simp only
  rw [g1]; simp only
  rw [a1]; simp only
  rw [x1]
  rfl

theorem normalize_shape {W : List (Tensor ℝ)} (hS : Shaped dims R V W) :
    ∃ W', normalize W N = .ok W' ∧ Shaped dims R V W' := by
  obtain ⟨W', h1, h2, h3⟩ := normalize_eq (N := N) (W := W) (T := fun j => W.getD j ⟨[], fun _ => 0⟩) (fun j hj => by
    rw [List.getD_eq_getElem?_getD, List.getElem?_eq_getElem (by rw [hS.count]; omega)]
    rfl)
  refine ⟨W', h1, hS.lensV, by rw [h2, hS.count], fun j M hM => ?_⟩
  obtain ⟨M0, m1, m2⟩ := hS.get j
  have := h3 j.1 j.2
  rw [hM] at this
  rw [Option.some.inj this]
  simp [scaleT, List.getD_eq_getElem?_getD, m1, m2]

theorem ppSweep_shape {Winit : List (Tensor ℝ)} {ops : Cache ℝ} (h2 : 2 ≤ N) (ho : PPOps dims R V Winit ops)
    (hI : Shaped dims R V Winit) {s : PPState ℝ} (hs : PPShaped dims R V s) {lam ratio : ℝ} {kn : Kern ℝ}
    (hk : KernOk kn) : ∃ s', ppSweep N R lam ratio kn ops Winit s = .ok s' ∧ PPShaped dims R V s' := by
  obtain ⟨s1, h1, h4⟩ := foldlM_range'_inv (s := 0) (n := N) (a := s)
    (f := ppUpdate N R lam ratio kn ops Winit) (P := fun _ (s : PPState ℝ) => PPShaped dims R V s) hs
    (fun i s _ hi a1 => ppUpdate_shape h2 ho hI a1 hk ⟨i, by omega⟩)
  obtain ⟨W', w1, w2⟩ := normalize_shape h4.W
  refine ⟨⟨W', s1.G, s1.dW⟩, ?_, w2, h4.G, h4.dW⟩
  unfold ppSweep ppUpdates
  rw [List.range_eq_range', h1]
  simp only [bind, Except.bind, w1]
  rfl

theorem zeros_shape {W : List (Tensor ℝ)} (hS : Shaped dims R V W) : Shaped dims R V (W.map zerosLike) where
  lensV := hS.lensV
  count := by simp [hS.count]
  lensW := by
    intro j M h
    rw [List.getElem?_map] at h
    obtain ⟨M0, m1, m2⟩ := hS.get j
    rw [m1] at h
    cases h
    exact m2

theorem legacySweep_shape (h4 : 4 ≤ N) (h5 : N ≠ 5) (hN : N ≤ 31) {F : List (Tensor ℝ)} (hF : Shaped dims R V F)
    {f : Fac ℝ} (hS : Shaped dims R V f.W) (hG : f.G.length = N) (lam : ℝ) (solve : Spec.Solver ℝ) :
    ∃ f', legacySweep N R lam solve V F f = .ok f' ∧ Shaped dims R V f'.W ∧ f'.G.length = N := by
  obtain ⟨f1, h1, h2, h3, _⟩ := C25_sweep_exact h4 h5 hN hF hS hG lam solve
  obtain ⟨W', w1, w2⟩ := normalize_shape h2
  refine ⟨⟨W', f1.G⟩, ?_, w2, h3⟩
  unfold legacySweep
  simp only [bind, Except.bind, h1, w1]
  rfl

theorem diffs_shape {W Wp : List (Tensor ℝ)} (hS : Shaped dims R V W) (hP : Shaped dims R V Wp) :
    ∃ d, diffs N W Wp = .ok d ∧ Shaped dims R V d ∧ ∀ j : Fin N, ∀ x < dims j, ∀ r < R,
      mats d j x r = mats W j x r - mats Wp j x r := by
  have key : ∀ i : ℕ, ∃ D : Tensor ℝ, ∀ h : i < N, (do
      let a ← rd W i
      let b ← rd Wp i
      zipT (fun x y : ℝ => x - y) a b) = .ok D ∧ D.lens = [dims ⟨i, h⟩, R] ∧ ∀ x < dims ⟨i, h⟩, ∀ r < R,
        mat D x r = mats W ⟨i, h⟩ x r - mats Wp ⟨i, h⟩ x r := by
    intro i
    by_cases h : i < N
    · obtain ⟨A, a1, _, a2, a3⟩ := mats_get hS ⟨i, h⟩
      obtain ⟨B, b1, _, b2, b3⟩ := mats_get hP ⟨i, h⟩
      obtain ⟨D, d1, d2, d3, d4⟩ := zipT_ok (fun x y : ℝ => x - y) (A := A) (B := B) (by rw [a2, b2])
      refine ⟨D, fun _ => ⟨?_, by rw [d3, a2], fun x hx r hr => ?_⟩⟩
      · simp only at a1 b1
        simp only [bind, Except.bind, a1, b1, d1]
      · rw [a3, b3]
        exact d4 _ (by rw [a2]; exact fits_two.2 ⟨hx, hr⟩)
    · exact ⟨⟨[], fun _ => 0⟩, fun h' => absurd h' h⟩
  choose D hD using key
  have hget : ∀ j : Fin N, ((List.range N).map D)[j.1]? = some (D j.1) := by
    intro j
    simp
  refine ⟨(List.range N).map D, mapM_ok fun i hi => (hD i (List.mem_range.1 hi)).1, ⟨hS.lensV, by simp, ?_⟩, ?_⟩
  · intro j M h
    rw [hget] at h
    cases h
    exact (hD j.1 j.2).2.1
  · intro j x hx r hr
    rw [← (hD j.1 j.2).2.2 x hx r hr]
    simp [mats, hget]

/-- The tests of all modes, as a list. -/
theorem ratioTests_ok {W dW : List (Tensor ℝ)} (hS : Shaped dims R V W) (hD : Shaped dims R V dW)
    (test : ℝ → ℝ → Bool) : ratioTests N test W dW =
      .ok ((List.range N).map fun i => test (norm2 (dW.getD i ⟨[], fun _ => 0⟩)) (norm2 (W.getD i ⟨[], fun _ => 0⟩))) := by
  unfold ratioTests
  refine mapM_ok fun i hi => ?_
  have hi := List.mem_range.1 hi
  obtain ⟨A, a1, a2⟩ := hS.get ⟨i, hi⟩
  obtain ⟨B, b1, b2⟩ := hD.get ⟨i, hi⟩
  simp only at a1 b1
  simp [rd, a1, b1, bind, Except.bind, pure, Except.pure, List.getD_eq_getElem?_getD]

theorem quot_excl {a b t : ℝ} (h : quotLt a b t = true) : quotGt a b t = false := by
  simp only [quotLt, quotGt, decide_eq_true_eq, decide_eq_false_iff_not] at h ⊢
  rintro (⟨_, h1⟩ | ⟨h1, _⟩)
  · exact absurd h.2 (not_lt.2 h1.le)
  · exact h.1 h1

/-- State between the phases. -/
structure CPI (dims : Fin N → ℕ) (R : ℕ) (V : Tensor ℝ) (s : CPPPState) : Prop where
  W : Shaped dims R V s.W
  G : s.G.length = N
  dW : Shaped dims R V s.dW

/-- State in a dimension tree phase. -/
structure CPD (dims : Fin N → ℕ) (R : ℕ) (V : Tensor ℝ) (s : CPPPState) : Prop where
  i : CPI dims R V s
  prev : Shaped dims R V s.Wprev

/-- State in a PP phase. -/
structure CPQ (dims : Fin N → ℕ) (R : ℕ) (V : Tensor ℝ) (s : CPPPState) : Prop where
  i : CPI dims R V s
  init : Shaped dims R V s.Winit
  ops : PPOps dims R V s.Winit s.ops

theorem cp_check (h2 : 2 ≤ N) (hN : N ≤ 18) {same : Bool} {lam ratio tolInit : ℝ} {k : Kern ℝ} {s : CPPPState}
    (h : CPI dims R V s) : ∃ g d, gradnorm s.G N = .ok g ∧
      (cpPPHooks same N R lam ratio tolInit k V).check s = .ok (s, g, d) := by
  obtain ⟨g, hg⟩ := gradnorm_ok h.G
  have hr := C16_residual h2 hN h.W
  generalize Real.sqrt _ = d at hr
  refine ⟨g, d, hg, ?_⟩
  simp only [cpPPHooks, hg, hr, bind, Except.bind]
  rfl

theorem cp_hooks (h4 : 4 ≤ N) (h5 : N ≠ 5) (h9 : N ≤ 9) (same : Bool) (lam ratio tolInit : ℝ) {k : Kern ℝ}
    (hk : KernOk k) : HooksOk (cpPPHooks same N R lam ratio tolInit k V) (CPI dims R V) (CPD dims R V) (CPQ dims R V) where
  DI _ h := h.i
  QI _ h := h.i
  dtBegin s h := ⟨_, rfl, ⟨h.W, h.G, h.dW⟩, zeros_shape h.W⟩
  dtSweep s h := by
    obtain ⟨f, f1, f2, f3⟩ := legacySweep_shape h4 h5 (by omega) (zeros_shape h.i.W) (f := ⟨s.W, s.G⟩) h.i.W h.i.G lam
      (svdSolver k)
    obtain ⟨d, d1, d2, _⟩ := diffs_shape f2 h.prev
    refine ⟨⟨f.W, f.G, d, f.W, s.Winit, s.ops⟩, ?_, ⟨f2, f3, d2⟩, f2⟩
    simp only [cpPPHooks, f1, d1, bind, Except.bind]
    rfl
  dtClose s h := by
    have hb := ratioTests_ok h.i.W h.i.dW fun a b => quotLt a b tolInit
    generalize List.map _ _ = l at hb
    refine ⟨l.all id, ?_, trivial⟩
    simp only [cpPPHooks, hb, bind, Except.bind]
    rfl
  ppFar s h := by
    have hb := ratioTests_ok h.W h.dW fun a b => quotGt a b tolInit
    generalize List.map _ _ = l at hb
    refine ⟨l.any id, ?_, trivial⟩
    simp only [cpPPHooks, hb, bind, Except.bind]
    rfl
  ppBegin s h := by
    obtain ⟨ops, o1, o2⟩ := ppOperators_ok (by omega) h9 same h.W
    refine ⟨{ s with Winit := s.W, dW := s.dW.map zerosLike, ops := ops }, ?_, ⟨h.W, h.G, zeros_shape h.dW⟩, h.W, o2⟩
    simp only [cpPPHooks, o1, bind, Except.bind]
    rfl
  ppSweep s h := by
    obtain ⟨t, t1, t2⟩ := ppSweep_shape (by omega) h.ops h.init (s := ⟨s.W, s.G, s.dW⟩) ⟨h.i.W, h.i.G, h.i.dW⟩ hk
      (lam := lam) (ratio := ratio)
    refine ⟨{ s with W := t.W, G := t.G, dW := t.dW }, ?_, ⟨t2.W, t2.G, t2.dW⟩, h.init, h.ops⟩
    simp only [cpPPHooks, t1, bind, Except.bind]
    rfl
  checkD s h := by
    obtain ⟨g, d, _, e⟩ := cp_check (by omega) (by omega) h.i (same := same) (lam := lam) (ratio := ratio)
      (tolInit := tolInit) (k := k)
    exact ⟨_, e, h⟩
  checkQ s h := by
    obtain ⟨g, d, _, e⟩ := cp_check (by omega) (by omega) h.i (same := same) (lam := lam) (ratio := ratio)
      (tolInit := tolInit) (k := k)
    exact ⟨_, e, h⟩
  acceptD s h := ⟨s, rfl, h⟩
  acceptQ s h := ⟨s, rfl, h⟩
  endRound s h := h

theorem cp_close {same : Bool} {lam ratio tolInit : ℝ} {k : Kern ℝ} {s : CPPPState} (h : CPD dims R V s)
    (hc : (cpPPHooks same N R lam ratio tolInit k V).dtClose s = .ok true) :
    (cpPPHooks same N R lam ratio tolInit k V).ppFar s = .ok false := by
  simp only [cpPPHooks, ratioTests_ok h.i.W h.i.dW, bind, Except.bind, pure, Except.pure, Except.ok.injEq] at hc ⊢
  rw [List.all_eq_true] at hc
  rw [List.any_eq_false]
  intro b hb
  obtain ⟨i, hi, rfl⟩ := List.mem_map.1 hb
  have := hc _ (List.mem_map.2 ⟨i, hi, rfl⟩)
  simp only [id_eq] at this ⊢
  rw [quot_excl this]
  exact Bool.false_ne_true

end Model
