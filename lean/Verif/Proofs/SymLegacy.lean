import Verif.Proofs.PPDriverCP
import Verif.Proofs.PPPart
import Verif.Model.PartDriver
import Verif.Proofs.GradShape
import Verif.Proofs.Sim
import Verif.Properties.Symmetry

/-! # The computations of `alsCP_DT` and `alsCP_PP` commute with changes of coordinates -/

namespace Spec

open Finset

variable {N : ℕ} {n m : Fin N → ℕ} {R : ℕ} {k : Coord N} {V : (Fin N → ℕ) → ℝ} {W dW : Fin N → ℕ → ℕ → ℝ} {i : Fin N} {lam : ℝ}

theorem Coord.fac_update (j : Fin N) : Function.update (k.fac n W) j (k.fac n dW j) = k.fac n (Function.update W j (dW j)) := by
  funext l
  by_cases h : l = j
  · subst h
    rw [Function.update_self]
    funext x r
    unfold Coord.fac
    rw [Function.update_self]
  · rw [Function.update_of_ne h]
    funext x r
    unfold Coord.fac
    rw [Function.update_of_ne h]

/-- The first-order right-hand side is transformed like an MTTKRP. -/
theorem Coord.Ok.ppMttkrp (h : k.Ok n m R) {x r : ℕ} (hx : x < m i) :
    Spec.ppMttkrp m (k.tensor n V) (k.fac n W) (k.fac n dW) i x r =
      k.c * k.e i r * ∑ y ∈ range (n i), k.Q i x y * Spec.ppMttkrp n V W dW i y (k.σ r) := by
  unfold Spec.ppMttkrp
  simp only [Coord.fac_update, h.mttkrp hx]
  change k.c * k.e i r * _ + ∑ j ∈ univ.erase i, k.c * k.e i r * _ = _
  rw [← mul_sum, ← mul_add]
  congr 1
  rw [sum_comm, ← sum_add_distrib]
  refine sum_congr rfl fun y _ => ?_
  rw [mul_add, mul_sum]

/-- `Coord.Ok.solves` for any right-hand side that is transformed like an MTTKRP. -/
theorem Coord.Ok.solves_rhs (h : k.Ok n m R) (hc : k.Compat R lam) {X M M' : ℕ → ℕ → ℝ}
    (hM : ∀ x < m i, ∀ r < R, M' x r = k.c * k.e i r * ∑ y ∈ range (n i), k.Q i x y * M y (k.σ r))
    (hX : Solves (n i) R X (Spec.normalMat n R lam W i) M) :
    Solves (m i) R (k.one n i X) (Spec.normalMat m R lam (k.fac n W) i) M' := by
  intro x hx b hb
  rw [hM x hx b hb]
  have e1 : ∀ a ∈ range R, k.one n i X x a * Spec.normalMat m R lam (k.fac n W) i a b =
      k.c * k.e i b * ∑ y ∈ range (n i), k.Q i x y * (X y (k.σ a) * Spec.normalMat n R lam W i (k.σ a) (k.σ b)) := by
    intro a ha
    rw [h.normalMat hc (mem_range.1 ha) hb, ← h.d_mul_e (i := i) (mem_range.1 ha)]
    unfold Coord.one
    rw [mul_sum, sum_mul, mul_sum]
    exact sum_congr rfl fun y _ => by ring
  rw [sum_congr rfl e1, ← mul_sum]
  congr 1
  rw [sum_comm]
  refine sum_congr rfl fun y hy => ?_
  rw [← mul_sum, h.sum_perm (fun a => X y a * Spec.normalMat n R lam W i a (k.σ b)),
    hX y (mem_range.1 hy) _ ((h.perm b).2 hb)]

/-- `Coord.Ok.grad` for any right-hand side that is transformed like an MTTKRP. -/
theorem Coord.Ok.grad_rhs (h : k.Ok n m R) (hc : k.Compat R lam) {M M' : ℕ → ℕ → ℝ}
    (hM : ∀ x < m i, ∀ r < R, M' x r = k.c * k.e i r * ∑ y ∈ range (n i), k.Q i x y * M y (k.σ r)) {x r : ℕ} (hx : x < m i)
    (hr : r < R) : -M' x r + ∑ a ∈ range R, k.fac n W i x a * Spec.normalMat m R lam (k.fac n W) i a r =
      k.c * k.e i r * ∑ y ∈ range (n i), k.Q i x y *
        (-M y (k.σ r) + ∑ a ∈ range R, W i y a * Spec.normalMat n R lam W i a (k.σ r)) := by
  rw [hM x hx r hr]
  have e1 : ∀ a ∈ range R, k.fac n W i x a * Spec.normalMat m R lam (k.fac n W) i a r =
      k.c * k.e i r * ∑ y ∈ range (n i), k.Q i x y * (W i y (k.σ a) * Spec.normalMat n R lam W i (k.σ a) (k.σ r)) := by
    intro a ha
    rw [h.normalMat hc (mem_range.1 ha) hr, ← h.d_mul_e (i := i) (mem_range.1 ha)]
    unfold Coord.fac
    rw [mul_sum, sum_mul, mul_sum]
    exact sum_congr rfl fun y _ => by ring
  rw [sum_congr rfl e1, ← mul_sum, sum_comm, ← mul_neg, ← mul_add, ← sum_neg_distrib, ← sum_add_distrib]
  congr 1
  refine sum_congr rfl fun y hy => ?_
  rw [← mul_sum, h.sum_perm (fun a => W i y a * Spec.normalMat n R lam W i a (k.σ r))]
  ring

theorem ppMttkrp_congr {V' : (Fin N → ℕ) → ℝ} {W' dW' : Fin N → ℕ → ℕ → ℝ} (hV : ∀ idx ∈ Box m, V' idx = V idx)
    (hW : FacEq m R W' W) (hD : FacEq m R dW' dW) (x : ℕ) {r : ℕ} (hr : r < R) :
    Spec.ppMttkrp m V' W' dW' i x r = Spec.ppMttkrp m V W dW i x r := by
  unfold Spec.ppMttkrp
  simp only [mttkrp_tensor_congr hV]
  congr 1
  · exact mttkrp_congr (fun j _ y hy => hW j y hy r hr) x
  · refine sum_congr rfl fun j _ => mttkrp_congr (fun l _ y hy => ?_) x
    by_cases e : l = j
    · subst e
      rw [Function.update_self, Function.update_self]
      exact hD l y hy r hr
    · rw [Function.update_of_ne e, Function.update_of_ne e]
      exact hW l y hy r hr

end Spec

namespace Model

open Finset Properties

variable {N : ℕ} {n m : Fin N → ℕ} {R : ℕ} {V V' : Tensor ℝ} {k : Spec.Coord N}

/-- `A'` are the matrices `A` after the change of coordinates. -/
structure Moved (k : Spec.Coord N) (n m : Fin N → ℕ) (R : ℕ) (V V' : Tensor ℝ) (A A' : List (Tensor ℝ)) : Prop where
  old : Shaped n R V A
  new : Shaped m R V' A'
  eq : ∀ j, ∀ x < m j, ∀ r < R, mats A' j x r = k.fac n (mats A) j x r

theorem norm2_of_lens {T : Tensor ℝ} {a b : ℕ} (h : T.lens = [a, b]) :
    norm2 T = Real.sqrt (∑ x ∈ range a, ∑ r ∈ range b, mat T x r ^ 2) := by
  unfold norm2
  rw [sqNorm_mat h]

theorem Moved.norm {A A' : List (Tensor ℝ)} (h : Moved k n m R V V' A A') (hok : k.Ok n m R) (hd : ∀ j, ∀ r < R, k.d j r ^ 2 = 1)
    (j : ℕ) (hj : j < N) : norm2 (A'.getD j ⟨[], fun _ => 0⟩) = norm2 (A.getD j ⟨[], fun _ => 0⟩) := by
  obtain ⟨T, t1, _, t2, t3⟩ := mats_get h.old ⟨j, hj⟩
  obtain ⟨T', s1, _, s2, s3⟩ := mats_get h.new ⟨j, hj⟩
  have g1 : A.getD j ⟨[], fun _ => 0⟩ = T := by
    obtain ⟨T0, u1, _⟩ := h.old.get ⟨j, hj⟩
    simp only at u1 t1
    simp only [rd, Int.toNat_natCast] at t1
    simp [List.getD_eq_getElem?_getD, u1] at t1 ⊢
    exact t1
  have g2 : A'.getD j ⟨[], fun _ => 0⟩ = T' := by
    obtain ⟨T0, u1, _⟩ := h.new.get ⟨j, hj⟩
    simp only at u1 s1
    simp only [rd, Int.toNat_natCast] at s1
    simp [List.getD_eq_getElem?_getD, u1] at s1 ⊢
    exact s1
  rw [g1, g2, norm2_of_lens t2, norm2_of_lens s2]
  congr 1
  rw [← t3, ← s3, ← hok.fac_norm hd ⟨j, hj⟩]
  exact sum_congr rfl fun x hx => sum_congr rfl fun r hr => by rw [h.eq _ x (mem_range.1 hx) r (mem_range.1 hr)]

theorem Moved.zeros {A A' : List (Tensor ℝ)} (h : Moved k n m R V V' A A') :
    Moved k n m R V V' (A.map zerosLike) (A'.map zerosLike) where
  old := zeros_shape h.old
  new := zeros_shape h.new
  eq := by
    intro j x hx r hr
    have e : ∀ (B : List (Tensor ℝ)) (i : Fin N) (x r : ℕ), mats (B.map zerosLike) i x r = 0 := by
      intro B i x r
      unfold mats
      rw [List.getElem?_map]
      rcases B[i.1]? with _ | T <;> rfl
    unfold Spec.Coord.fac
    simp only [e, mul_zero, sum_const_zero]

theorem zeros_mats (B : List (Tensor ℝ)) (i : Fin N) (x r : ℕ) : mats (B.map zerosLike) i x r = 0 := by
  unfold mats
  rw [List.getElem?_map]
  rcases B[i.1]? with _ | T <;> rfl

theorem Moved.diffs {A A' B B' : List (Tensor ℝ)} (h : Moved k n m R V V' A A') (h' : Moved k n m R V V' B B') (hok : k.Ok n m R) :
    ∃ D D', Model.diffs N A B = .ok D ∧ Model.diffs N A' B' = .ok D' ∧ Moved k n m R V V' D D' := by
  obtain ⟨D, d1, d2, d3⟩ := diffs_shape h.old h'.old
  obtain ⟨D', e1, e2, e3⟩ := diffs_shape h.new h'.new
  refine ⟨D, D', d1, e1, d2, e2, fun j x hx r hr => ?_⟩
  rw [e3 j x hx r hr, h.eq j x hx r hr, h'.eq j x hx r hr]
  unfold Spec.Coord.fac
  rw [← mul_sub, ← sum_sub_distrib]
  congr 1
  refine sum_congr rfl fun y hy => ?_
  rw [d3 j y (mem_range.1 hy) _ ((hok.perm r).2 hr), mul_sub]

theorem Moved.ratioTests {W W' D D' : List (Tensor ℝ)} (h : Moved k n m R V V' W W') (h' : Moved k n m R V V' D D') (hok : k.Ok n m R)
    (hd : ∀ j, ∀ r < R, k.d j r ^ 2 = 1) (test : ℝ → ℝ → Bool) :
    ∃ l, Model.ratioTests N test W D = .ok l ∧ Model.ratioTests N test W' D' = .ok l := by
  refine ⟨_, ratioTests_ok h.old h'.old test, ?_⟩
  rw [ratioTests_ok h.new h'.new test]
  congr 1
  refine List.map_congr_left fun i hi => ?_
  rw [h.norm hok hd i (List.mem_range.1 hi), h'.norm hok hd i (List.mem_range.1 hi)]

theorem Moved.gradnorm {G G' : List (Tensor ℝ)} (h : Moved k n m R V V' G G') (hok : k.Ok n m R)
    (hd : ∀ j, ∀ r < R, k.d j r ^ 2 = 1) : ∃ g, Model.gradnorm G N = .ok g ∧ Model.gradnorm G' N = .ok g := by
  refine ⟨_, C16_gradnorm (dims := n) (R := R) (fun j => h.old.get j), ?_⟩
  rw [C16_gradnorm (dims := m) (R := R) (fun j => h.new.get j)]
  congr 2
  refine sum_congr rfl fun j _ => ?_
  rw [← hok.fac_norm hd j]
  exact sum_congr rfl fun x hx => sum_congr rfl fun r hr => by rw [h.eq j x (mem_range.1 hx) r (mem_range.1 hr)]

theorem Moved.residual (h2 : 2 ≤ N) (hN : N ≤ 18) (hR0 : 0 < R) {W W' : List (Tensor ℝ)} (h : Moved k n m R V V' W W')
    (hok : k.Ok n m R) (hd : ∀ j, ∀ r < R, k.d j r ^ 2 = 1)
    (hV : ∀ idx ∈ Spec.Box m, arr V' N idx = k.tensor n (arr V N) idx) :
    ∃ d, Model.residual V W N = .ok d ∧ Model.residual V' W' N = .ok d := by
  refine ⟨_, C16_residual h2 hN h.old, ?_⟩
  rw [C16_residual h2 hN h.new]
  have hc2 : k.c ^ 2 = 1 := by
    rw [← hok.prod 0 hR0, ← prod_pow]
    exact prod_eq_one fun j _ => hd j 0 hR0
  have e1 : ∑ idx ∈ Spec.Box m, (arr V' N idx - Spec.recon R (mats W') idx) ^ 2 =
      Spec.resid2 m R (k.tensor n (arr V N)) (k.fac n (mats W)) := by
    refine sum_congr rfl fun idx hidx => ?_
    rw [hV idx hidx]
    congr 2
    exact sum_congr rfl fun r hr => prod_congr rfl fun j _ => h.eq j _ (Spec.mem_Box.1 hidx j) r (mem_range.1 hr)
  rw [e1, hok.resid, hc2, one_mul]
  rfl

theorem normalize_get {W : List (Tensor ℝ)} (hS : Shaped n R V W) : ∃ W', Model.normalize W N = .ok W' ∧ Shaped n R V W' ∧
    ∀ j : Fin N, ∀ x < n j, ∀ r < R, mats W' j x r = (∏ j ∈ range N, norm2 (W.getD j ⟨[], fun _ => 0⟩)) ^ ((1 : ℝ) / N) /
      norm2 (W.getD j ⟨[], fun _ => 0⟩) * mats W j x r := by
  obtain ⟨W', h1, h2, h3⟩ := normalize_eq (N := N) (W := W) (T := fun j => W.getD j ⟨[], fun _ => 0⟩) (fun j hj => by
    rw [List.getD_eq_getElem?_getD, List.getElem?_eq_getElem (by rw [hS.count]; omega)]
    rfl)
  obtain ⟨W0, w1, w2⟩ := normalize_shape hS
  rw [h1] at w1
  cases w1
  refine ⟨W', h1, w2, fun j x hx r hr => ?_⟩
  obtain ⟨M0, m1, m2⟩ := hS.get j
  have g : W.getD j.1 ⟨[], fun _ => 0⟩ = M0 := by simp [List.getD_eq_getElem?_getD, m1]
  have := h3 j.1 j.2
  simp only [g] at this ⊢
  unfold mats
  rw [this, m1]
  simp only [Option.getD_some, mat, scaleT, m2]
  rw [if_pos (fits_two.2 ⟨hx, hr⟩)]

theorem Moved.normalize {W W' : List (Tensor ℝ)} (h : Moved k n m R V V' W W') (hok : k.Ok n m R)
    (hd : ∀ j, ∀ r < R, k.d j r ^ 2 = 1) :
    ∃ X X', Model.normalize W N = .ok X ∧ Model.normalize W' N = .ok X' ∧ Moved k n m R V V' X X' := by
  obtain ⟨X, x1, x2, x3⟩ := normalize_get h.old
  obtain ⟨X', y1, y2, y3⟩ := normalize_get h.new
  refine ⟨X, X', x1, y1, x2, y2, fun j x hx r hr => ?_⟩
  rw [y3 j x hx r hr, h.norm hok hd j j.2, prod_congr rfl fun i hi => h.norm hok hd i (mem_range.1 hi), h.eq j x hx r hr]
  unfold Spec.Coord.fac
  rw [mul_left_comm, mul_sum]
  congr 1
  refine sum_congr rfl fun y hy => ?_
  rw [x3 j y (mem_range.1 hy) _ ((hok.perm r).2 hr)]
  ring

/-- A sweep of the legacy dimension tree. -/
theorem Moved.legacySweep (h4 : 4 ≤ N) (h5 : N ≠ 5) (hN : N ≤ 31) (hn : ∀ j, 0 < n j) {lam : ℝ} (hl : 0 < lam)
    {solve solve' : Spec.Solver ℝ} (hs : Spec.SolvesPosDef solve) (hs' : Spec.SolvesPosDef solve') {F F' : List (Tensor ℝ)}
    (hF : Shaped n R V F) (hF' : Shaped m R V' F') (hF0 : ∀ i x r, mats (N := N) F i x r = 0)
    (hF0' : ∀ i x r, mats (N := N) F' i x r = 0) {f f' : Fac ℝ} (hW : Moved k n m R V V' f.W f'.W)
    (hG : Moved k n m R V V' f.G f'.G) (hok : k.Ok n m R) (hd : ∀ j, ∀ r < R, k.d j r ^ 2 = 1)
    (hV : ∀ idx ∈ Spec.Box m, arr V' N idx = k.tensor n (arr V N) idx) :
    ∃ g g', Model.legacySweep N R lam solve V F f = .ok g ∧ Model.legacySweep N R lam solve' V' F' f' = .ok g' ∧
      Moved k n m R V V' g.W g'.W ∧ Moved k n m R V V' g.G g'.G := by
  obtain ⟨g, g1, g2, g3, g4⟩ := C25_sweep_is_als h4 h5 hN hF hF0 hW.old hG.old.count lam solve
  obtain ⟨g', k1, k2, k3, k4⟩ := C25_sweep_is_als h4 h5 hN hF' hF0' hW.new hG.new.count lam solve'
  have gG := legacyUpdates_G h4 h5 hN lam solve hF hW.old hG.old g1
  have kG := legacyUpdates_G h4 h5 hN lam solve' hF' hW.new hG.new k1
  have key := hok.run (.inr hd) hs hs' hV (List.finRange N) (facs N f) (facs N f') hW.eq (by
    intro j x hx r hr
    rw [hok.c_mul_e hd hr]
    exact hG.eq j x hx r hr) fun l i _ => Spec.normalMat_posDef hl (hn i)
  obtain ⟨kW, kGr⟩ := key
  change Spec.FacEq m R (Spec.alsSweep m R lam solve' (arr V' N) (facs N f')).W
    (k.fac n (Spec.alsSweep n R lam solve (arr V N) (facs N f)).W) at kW
  change ∀ j, ∀ x < m j, ∀ r < R, (Spec.alsSweep m R lam solve' (arr V' N) (facs N f')).G j x r = k.c * k.e j r *
    ∑ y ∈ range (n j), k.Q j x y * (Spec.alsSweep n R lam solve (arr V N) (facs N f)).G j y (k.σ r) at kGr
  rw [← g4, ← k4] at kW kGr
  have mW : Moved k n m R V V' g.W g'.W := ⟨g2, k2, kW⟩
  have mG : Moved k n m R V V' g.G g'.G := ⟨gG, kG, fun j x hx r hr => by
    have := kGr j x hx r hr
    rw [hok.c_mul_e hd hr] at this
    exact this⟩
  obtain ⟨X, X', x1, x2, x3⟩ := mW.normalize hok hd
  refine ⟨⟨X, g.G⟩, ⟨X', g'.G⟩, ?_, ?_, x3, mG⟩
  · unfold Model.legacySweep
    simp only [bind, Except.bind, g1, x1]
    rfl
  · unfold Model.legacySweep
    simp only [bind, Except.bind, k1, x2]
    rfl

/-- The gradients keep their shapes in a PP update. -/
theorem ppUpdate_G {Winit : List (Tensor ℝ)} {ops : Cache ℝ} (h2 : 2 ≤ N) (ho : PPOps n R V Winit ops)
    (hI : Shaped n R V Winit) {s s' : PPState ℝ} (hs : PPShaped n R V s) (hG : Shaped n R V s.G) {lam ratio : ℝ} {kn : Kern ℝ}
    (hk : KernOk kn) (i : Fin N) (h : ppUpdate N R lam ratio kn ops Winit s i.1 = .ok s') : Shaped n R V s'.G := by
  obtain ⟨M, m1, m2, m3, m4⟩ := ppM_ok ho hs.dW i
  obtain ⟨S, s1, s2, s3, s4⟩ := gramS_ok h2 hs.W lam i (index := swapIdx N i.1) (fun m => mem_swapIdx i.2) (swapIdx_nodup i.1)
  obtain ⟨Wi, w1, _, w2, w3⟩ := mats_get hs.W i
  obtain ⟨T, t1, _, t3, t4⟩ := einsum_matmul w2 s3
  obtain ⟨g, g1, g2, g3, g4⟩ := zipT_ok (fun a b : ℝ => -a + b) (A := M) (B := T) (by rw [m3, t3])
  obtain ⟨W0, a1, _, a2, a3⟩ := mats_get hI i
  have hu := hk.svd R S s3 (by rw [s4]; exact fun a ha b hb => normalMat_symm a ha b hb)
  obtain ⟨X0, D, x1, x2, x3⟩ := svdSolveMod_shape m3 a2 s3 hu.shape ratio
  unfold ppUpdate at h
  simp only [bind, Except.bind] at h
  rw [m1] at h; simp only at h
  rw [s1] at h; simp only at h
  rw [w1] at h; simp only at h
  rw [m3, t1] at h; simp only at h
  rw [g1] at h; simp only at h
  rw [a1] at h; simp only at h
  rw [x1] at h
  rw [← Except.ok.inj h]
  exact hG.set i (by rw [g3, m3])

/-- State of a PP phase in both problems. -/
structure MovedPP (k : Spec.Coord N) (n m : Fin N → ℕ) (R : ℕ) (V V' : Tensor ℝ) (s s' : PPState ℝ) : Prop where
  W : Moved k n m R V V' s.W s'.W
  G : Moved k n m R V V' s.G s'.G
  dW : Moved k n m R V V' s.dW s'.dW

theorem MovedPP.update {Winit Winit' : List (Tensor ℝ)} {ops ops' : Cache ℝ} (h2 : 2 ≤ N) (ho : PPOps n R V Winit ops)
    (ho' : PPOps m R V' Winit' ops') (hI : Moved k n m R V V' Winit Winit') {s s' : PPState ℝ} (hs : MovedPP k n m R V V' s s')
    {lam ratio : ℝ} (hl : 0 < lam) {kn kn' : Kern ℝ} (hk : KernOk kn) (hk' : KernOk kn') (hn : ∀ j, 0 < n j) (hm : ∀ j, 0 < m j)
    (hok : k.Ok n m R) (hd : ∀ j, ∀ r < R, k.d j r ^ 2 = 1)
    (hV : ∀ idx ∈ Spec.Box m, arr V' N idx = k.tensor n (arr V N) idx) (i : Fin N) :
    ∃ t t', ppUpdate N R lam ratio kn ops Winit s i.1 = .ok t ∧ ppUpdate N R lam ratio kn' ops' Winit' s' i.1 = .ok t' ∧
      MovedPP k n m R V V' t t' := by
  have hps : PPShaped n R V s := ⟨hs.W.old, hs.G.old.count, hs.dW.old⟩
  have hps' : PPShaped m R V' s' := ⟨hs.W.new, hs.G.new.count, hs.dW.new⟩
  have hpd : Spec.PosDef R (Spec.normalMat n R lam (mats s.W) i) := Spec.normalMat_posDef hl (hn i)
  have hpd' : Spec.PosDef R (Spec.normalMat m R lam (mats s'.W) i) := Spec.normalMat_posDef hl (hm i)
  obtain ⟨t, t1, t2⟩ := ppUpdate_ok h2 ho hI.old hps hk i hpd (ratio := ratio)
  obtain ⟨t', u1, u2⟩ := ppUpdate_ok h2 ho' hI.new hps' hk' i hpd' (ratio := ratio)
  have tG := ppUpdate_G h2 ho hI.old hps hs.G.old hk i t1
  have uG := ppUpdate_G h2 ho' hI.new hps' hs.G.new hk' i u1
  have hM : ∀ x < m i, ∀ r < R, Spec.ppMttkrp m (arr V' N) (mats Winit') (mats s'.dW) i x r = k.c * k.e i r *
      ∑ y ∈ range (n i), k.Q i x y * Spec.ppMttkrp n (arr V N) (mats Winit) (mats s.dW) i y (k.σ r) := by
    intro x hx r hr
    rw [Spec.ppMttkrp_congr hV hI.eq hs.dW.eq x hr, hok.ppMttkrp hx]
  have hS : Spec.normalMat m R lam (mats s'.W) i = Spec.normalMat m R lam (k.fac n (mats s.W)) i := Spec.normalMat_congr hs.W.eq
  obtain ⟨X, x1, x2⟩ := t2.solved
  obtain ⟨X', y1, y2⟩ := u2.solved
  have hX : ∀ x < m i, ∀ r < R, X' x r = k.one n i X x r := by
    refine Spec.solves_unique hpd' y1 ?_
    rw [hS]
    exact hok.solves_rhs (.inr hd) hM x1
  have hD : ∀ x < m i, ∀ r < R, mats t'.dW i x r = k.fac n (mats t.dW) i x r := by
    intro x hx r hr
    rw [y2 x hx r hr, hX x hx r hr, hI.eq i x hx r hr]
    unfold Spec.Coord.one Spec.Coord.fac
    rw [← mul_sub, ← sum_sub_distrib, mul_left_comm, mul_sum]
    congr 1
    refine sum_congr rfl fun y hy => ?_
    rw [x2 y (mem_range.1 hy) _ ((hok.perm r).2 hr)]
    ring
  have hW : ∀ x < m i, ∀ r < R, mats t'.W i x r = k.fac n (mats t.W) i x r := by
    intro x hx r hr
    rw [u2.disp x hx r hr, hD x hx r hr, hI.eq i x hx r hr]
    unfold Spec.Coord.fac
    rw [← mul_add, ← sum_add_distrib]
    congr 1
    refine sum_congr rfl fun y hy => ?_
    rw [t2.disp y (mem_range.1 hy) _ ((hok.perm r).2 hr)]
    ring
  have hG : ∀ x < m i, ∀ r < R, mats t'.G i x r = k.fac n (mats t.G) i x r := by
    intro x hx r hr
    rw [u2.grad x hx r hr, hS, sum_congr rfl fun a ha => by rw [hs.W.eq i x hx a (mem_range.1 ha)],
      hok.grad_rhs (.inr hd) hM hx hr, hok.c_mul_e hd hr]
    unfold Spec.Coord.fac
    congr 1
    refine sum_congr rfl fun y hy => ?_
    rw [t2.grad y (mem_range.1 hy) _ ((hok.perm r).2 hr)]
  refine ⟨t, t', t1, u1, ⟨t2.shaped.W, u2.shaped.W, fun j => ?_⟩, ⟨tG, uG, fun j => ?_⟩, ⟨t2.shaped.dW, u2.shaped.dW, fun j => ?_⟩⟩
  · by_cases e : j = i
    · subst e; exact hW
    · intro x hx r hr
      have := hs.W.eq j x hx r hr
      rw [u2.otherW j e, this]
      unfold Spec.Coord.fac
      rw [t2.otherW j e]
  · by_cases e : j = i
    · subst e; exact hG
    · intro x hx r hr
      have := hs.G.eq j x hx r hr
      rw [u2.otherG j e, this]
      unfold Spec.Coord.fac
      rw [t2.otherG j e]
  · by_cases e : j = i
    · subst e; exact hD
    · intro x hx r hr
      have := hs.dW.eq j x hx r hr
      rw [u2.otherD j e, this]
      unfold Spec.Coord.fac
      rw [t2.otherD j e]

theorem MovedPP.sweep {Winit Winit' : List (Tensor ℝ)} {ops ops' : Cache ℝ} (h2 : 2 ≤ N) (ho : PPOps n R V Winit ops)
    (ho' : PPOps m R V' Winit' ops') (hI : Moved k n m R V V' Winit Winit') {s s' : PPState ℝ} (hs : MovedPP k n m R V V' s s')
    {lam ratio : ℝ} (hl : 0 < lam) {kn kn' : Kern ℝ} (hk : KernOk kn) (hk' : KernOk kn') (hn : ∀ j, 0 < n j) (hm : ∀ j, 0 < m j)
    (hok : k.Ok n m R) (hd : ∀ j, ∀ r < R, k.d j r ^ 2 = 1)
    (hV : ∀ idx ∈ Spec.Box m, arr V' N idx = k.tensor n (arr V N) idx) :
    Alike (MovedPP k n m R V V') (ppSweep N R lam ratio kn ops Winit s) (ppSweep N R lam ratio kn' ops' Winit' s') := by
  unfold ppSweep ppUpdates
  refine (Alike.foldlM (r := MovedPP k n m R V V') _ (fun i hi a b hab => ?_) hs).bind fun a b hab => ?_
  · obtain ⟨t, t', t1, t2, t3⟩ := MovedPP.update h2 ho ho' hI hab hl hk hk' hn hm hok hd hV ⟨i, List.mem_range.1 hi⟩ (ratio := ratio)
    simp only at t1 t2
    rw [t1, t2]
    exact t3
  · obtain ⟨X, X', x1, x2, x3⟩ := hab.W.normalize hok hd
    rw [x1, x2]
    exact ⟨x3, hab.G, hab.dW⟩

/-- The gradients keep their shapes in an update of the partial-update variant. -/
theorem partUpdate_G {Winit : List (Tensor ℝ)} {ops : Cache ℝ} (h2 : 2 ≤ N) (ho : PPOps n R V Winit ops) (hI : Shaped n R V Winit)
    {s s' : PartState} (hs : PartShaped n R V s) (hG : Shaped n R V s.G) {lam ratio : ℝ} {kn : Kern ℝ} (hk : KernOk kn) (i : Fin N)
    (hp : PartStep n R V Winit lam ratio s s' i) (h : partUpdate N R lam ratio kn ops Winit s i.1 = .ok s') : Shaped n R V s'.G := by
  obtain ⟨M0, o1, o2⟩ := ho.1 i
  have hv := o2.2
  rw [compl_ex1] at hv
  obtain ⟨o3, o4⟩ := valid_single hv
  obtain ⟨Di, d1, _, d2, d3⟩ := mats_get hs.dM i
  obtain ⟨M, m1, m2, m3, m4⟩ := zipT_ok (· + ·) (A := M0) (B := Di) (by rw [o3, d2])
  rw [o3] at m3
  obtain ⟨S, s1, s2, s3, s4⟩ := gramS_ok h2 hs.W lam i (index := swapIdx N i.1) (fun m => mem_swapIdx i.2) (swapIdx_nodup i.1)
  obtain ⟨Wi, w1, _, w2, w3⟩ := mats_get hs.W i
  obtain ⟨T, t1, _, t3, t4⟩ := einsum_matmul w2 s3
  obtain ⟨g, g1, g2, g3, g4⟩ := zipT_ok (fun a b : ℝ => -a + b) (A := M) (B := T) (by rw [m3, t3])
  rw [m3] at g3
  obtain ⟨W0, a1, _, a2, a3⟩ := mats_get hI i
  have hu := hk.svd R S s3 (by rw [s4]; exact fun a ha b hb => normalMat_symm a ha b hb)
  obtain ⟨X0, D, x1, x2, x3⟩ := svdSolveMod_shape m3 a2 s3 hu.shape ratio
  unfold partUpdate at h
  simp only [o1] at h
  simp only [bind, Except.bind] at h
  rw [d1] at h; simp only at h
  rw [m1] at h; simp only at h
  rw [s1] at h; simp only at h
  rw [w1] at h; simp only at h
  rw [m3, t1] at h; simp only at h
  rw [g1] at h; simp only at h
  rw [a1] at h; simp only at h
  rw [x1] at h; simp only at h
  split at h
  · cases h
  · rw [← Except.ok.inj h]
    exact hG.set i g3

/-- State of a phase with partial updates in both problems. -/
structure MovedPart (k : Spec.Coord N) (n m : Fin N → ℕ) (R : ℕ) (V V' : Tensor ℝ) (s s' : PartState) : Prop where
  W : Moved k n m R V V' s.W s'.W
  G : Moved k n m R V V' s.G s'.G
  dW : Moved k n m R V V' s.dW s'.dW
  dM : Moved k n m R V V' s.dM s'.dM
  M : Moved k n m R V V' s.M s'.M
  rel : s'.rel = s.rel
  len : s.rel.length = N

theorem fac_congr {A B : Fin N → ℕ → ℕ → ℝ} {j : Fin N} (h : A j = B j) (x r : ℕ) : k.fac n A j x r = k.fac n B j x r := by
  unfold Spec.Coord.fac
  rw [h]

theorem mats_of_get {A B : List (Tensor ℝ)} {j : Fin N} (h : A[j.1]? = B[j.1]?) : (mats A j : ℕ → ℕ → ℝ) = mats B j := by
  unfold mats
  simp only [h]

theorem MovedPart.update {Winit Winit' : List (Tensor ℝ)} {ops ops' : Cache ℝ} (h2 : 2 ≤ N) (ho : PPOps n R V Winit ops)
    (ho' : PPOps m R V' Winit' ops') (hI : Moved k n m R V V' Winit Winit') {s s' : PartState} (hs : MovedPart k n m R V V' s s')
    {lam ratio : ℝ} (hl : 0 < lam) {kn kn' : Kern ℝ} (hk : KernOk kn) (hk' : KernOk kn') (hn : ∀ j, 0 < n j) (hm : ∀ j, 0 < m j)
    (hok : k.Ok n m R) (hd : ∀ j, ∀ r < R, k.d j r ^ 2 = 1)
    (hV : ∀ idx ∈ Spec.Box m, arr V' N idx = k.tensor n (arr V N) idx) (i : Fin N) :
    ∃ t t', partUpdate N R lam ratio kn ops Winit s i.1 = .ok t ∧ partUpdate N R lam ratio kn' ops' Winit' s' i.1 = .ok t' ∧
      MovedPart k n m R V V' t t' := by
  have hps : PartShaped n R V s := ⟨hs.W.old, hs.G.old.count, hs.dW.old, hs.dM.old, hs.M.old, hs.len⟩
  have hps' : PartShaped m R V' s' := ⟨hs.W.new, hs.G.new.count, hs.dW.new, hs.dM.new, hs.M.new, by rw [hs.rel, hs.len]⟩
  have hpd : Spec.PosDef R (Spec.normalMat n R lam (mats s.W) i) := Spec.normalMat_posDef hl (hn i)
  have hpd' : Spec.PosDef R (Spec.normalMat m R lam (mats s'.W) i) := Spec.normalMat_posDef hl (hm i)
  obtain ⟨t, t1, t2⟩ := partUpdate_ok h2 ho hI.old hps hk i hpd (ratio := ratio)
  obtain ⟨t', u1, u2⟩ := partUpdate_ok h2 ho' hI.new hps' hk' i hpd' (ratio := ratio)
  have tG := partUpdate_G h2 ho hI.old hps hs.G.old hk i t2 t1
  have uG := partUpdate_G h2 ho' hI.new hps' hs.G.new hk' i u2 u1
  have hmt : ∀ (A A' : Fin N → ℕ → ℕ → ℝ), Spec.FacEq m R A' (k.fac n A) → ∀ j, ∀ x < m j, ∀ r < R,
      Spec.mttkrp m (arr V' N) A' j x r = k.d j r * ∑ y ∈ range (n j), k.Q j x y * Spec.mttkrp n (arr V N) A j y (k.σ r) := by
    intro A A' hA j x hx r hr
    rw [Spec.mttkrp_tensor_congr hV, Spec.mttkrp_congr (fun l _ y hy => hA l y hy r hr) x, hok.mttkrp hx]
    change k.c * k.e j r * _ = _
    rw [hok.c_mul_e hd hr]
  have hMi : ∀ x < m i, ∀ r < R, mats t'.M i x r = k.fac n (mats t.M) i x r := by
    intro x hx r hr
    rw [u2.rhs x hx r hr, hmt _ _ hI.eq i x hx r hr, hs.dM.eq i x hx r hr]
    unfold Spec.Coord.fac
    rw [← mul_add, ← sum_add_distrib]
    congr 1
    refine sum_congr rfl fun y hy => ?_
    rw [t2.rhs y (mem_range.1 hy) _ ((hok.perm r).2 hr), mul_add]
  have hM : ∀ x < m i, ∀ r < R, mats t'.M i x r = k.c * k.e i r * ∑ y ∈ range (n i), k.Q i x y * mats t.M i y (k.σ r) := by
    intro x hx r hr
    rw [hMi x hx r hr, hok.c_mul_e hd hr]
    rfl
  have hS : Spec.normalMat m R lam (mats s'.W) i = Spec.normalMat m R lam (k.fac n (mats s.W)) i := Spec.normalMat_congr hs.W.eq
  obtain ⟨X, x1, x2⟩ := t2.solved
  obtain ⟨X', y1, y2⟩ := u2.solved
  have hX : ∀ x < m i, ∀ r < R, X' x r = k.one n i X x r := by
    refine Spec.solves_unique hpd' y1 ?_
    rw [hS]
    exact hok.solves_rhs (.inr hd) hM x1
  have hD : ∀ x < m i, ∀ r < R, mats t'.dW i x r = k.fac n (mats t.dW) i x r := by
    intro x hx r hr
    rw [y2 x hx r hr, hX x hx r hr, hI.eq i x hx r hr]
    unfold Spec.Coord.one Spec.Coord.fac
    rw [← mul_sub, ← sum_sub_distrib, mul_left_comm, mul_sum]
    congr 1
    refine sum_congr rfl fun y hy => ?_
    rw [x2 y (mem_range.1 hy) _ ((hok.perm r).2 hr)]
    ring
  have hW : ∀ x < m i, ∀ r < R, mats t'.W i x r = k.fac n (mats t.W) i x r := by
    intro x hx r hr
    rw [u2.disp x hx r hr, hD x hx r hr, hI.eq i x hx r hr]
    unfold Spec.Coord.fac
    rw [← mul_add, ← sum_add_distrib]
    congr 1
    refine sum_congr rfl fun y hy => ?_
    rw [t2.disp y (mem_range.1 hy) _ ((hok.perm r).2 hr)]
    ring
  have hG : ∀ x < m i, ∀ r < R, mats t'.G i x r = k.fac n (mats t.G) i x r := by
    intro x hx r hr
    rw [u2.grad x hx r hr, hS, sum_congr rfl fun a ha => by rw [hs.W.eq i x hx a (mem_range.1 ha)],
      hok.grad_rhs (.inr hd) hM hx hr, hok.c_mul_e hd hr]
    unfold Spec.Coord.fac
    congr 1
    refine sum_congr rfl fun y hy => ?_
    rw [t2.grad y (mem_range.1 hy) _ ((hok.perm r).2 hr)]
  have hupd : Spec.FacEq m R (Function.update (mats Winit') i (mats t'.dW i))
      (k.fac n (Function.update (mats Winit) i (mats t.dW i))) := by
    intro j x hx r hr
    by_cases e : j = i
    · subst e
      rw [Function.update_self, hD x hx r hr]
      refine fac_congr (A := mats t.dW) (B := Function.update (mats Winit) j (mats t.dW j)) ?_ x r
      rw [Function.update_self]
    · rw [Function.update_of_ne e, hI.eq j x hx r hr]
      refine fac_congr (A := mats Winit) (B := Function.update (mats Winit) i (mats t.dW i)) ?_ x r
      rw [Function.update_of_ne e]
  have hdM : ∀ j, ∀ x < m j, ∀ r < R, mats t'.dM j x r = k.fac n (mats t.dM) j x r := by
    intro j x hx r hr
    by_cases e : j = i
    · subst e
      rw [u2.reset x hx r hr]
      unfold Spec.Coord.fac
      rw [sum_eq_zero, mul_zero]
      intro y hy
      rw [t2.reset y (mem_range.1 hy) _ ((hok.perm r).2 hr), mul_zero]
    · rw [u2.acc j e x hx r hr, hs.dM.eq j x hx r hr, hmt _ _ hupd j x hx r hr]
      unfold Spec.Coord.fac
      rw [← mul_add, ← sum_add_distrib]
      congr 1
      refine sum_congr rfl fun y hy => ?_
      rw [t2.acc j e y (mem_range.1 hy) _ ((hok.perm r).2 hr), mul_add]
  refine ⟨t, t', t1, u1, ⟨t2.shaped.W, u2.shaped.W, fun j => ?_⟩, ⟨tG, uG, fun j => ?_⟩, ⟨t2.shaped.dW, u2.shaped.dW, fun j => ?_⟩,
    ⟨t2.shaped.dM, u2.shaped.dM, hdM⟩, ⟨t2.shaped.M, u2.shaped.M, fun j => ?_⟩, by rw [t2.rel, u2.rel, hs.rel], by rw [t2.rel, hs.len]⟩
  · by_cases e : j = i
    · subst e; exact hW
    · intro x hx r hr
      rw [mats_of_get (u2.otherW j e), hs.W.eq j x hx r hr, fac_congr (mats_of_get (t2.otherW j e))]
  · by_cases e : j = i
    · subst e; exact hG
    · intro x hx r hr
      rw [mats_of_get (u2.otherG j e), hs.G.eq j x hx r hr, fac_congr (mats_of_get (t2.otherG j e))]
  · by_cases e : j = i
    · subst e; exact hD
    · intro x hx r hr
      rw [mats_of_get (u2.otherD j e), hs.dW.eq j x hx r hr, fac_congr (mats_of_get (t2.otherD j e))]
  · by_cases e : j = i
    · subst e; exact hMi
    · intro x hx r hr
      rw [mats_of_get (u2.otherM j e), hs.M.eq j x hx r hr, fac_congr (mats_of_get (t2.otherM j e))]

theorem Moved.relatives {A A' B B' : List (Tensor ℝ)} (hA : Moved k n m R V V' A A') (hB : Moved k n m R V V' B B')
    (hok : k.Ok n m R) (hd : ∀ j, ∀ r < R, k.d j r ^ 2 = 1) :
    ∃ l, Model.relatives N A B = .ok l ∧ Model.relatives N A' B' = .ok l ∧ l.length = N := by
  have key : ∀ {n : Fin N → ℕ} {V : Tensor ℝ} {A B : List (Tensor ℝ)}, Shaped n R V A → Shaped n R V B → Model.relatives N A B =
      .ok ((List.range N).map fun i => relQuot (norm2 (A.getD i ⟨[], fun _ => 0⟩)) (norm2 (B.getD i ⟨[], fun _ => 0⟩))) := by
    intro n V A B h1 h2
    unfold Model.relatives
    refine mapM_ok fun i hi => ?_
    rw [List.mem_range] at hi
    simp [rd, bind, Except.bind, pure, Except.pure, List.getElem?_eq_getElem (h1.count.symm ▸ hi : i < A.length),
      List.getElem?_eq_getElem (h2.count.symm ▸ hi : i < B.length)]
  refine ⟨_, key hA.old hB.old, ?_, by simp⟩
  rw [key hA.new hB.new]
  congr 1
  refine List.map_congr_left fun i hi => ?_
  rw [hA.norm hok hd i (List.mem_range.1 hi), hB.norm hok hd i (List.mem_range.1 hi)]

theorem Alike.refl {α : Type} {x : Except Fault α} : Alike (fun a b => b = a) x x := by
  cases x <;> rfl

theorem MovedPart.sweep {Winit Winit' : List (Tensor ℝ)} {ops ops' : Cache ℝ} (h2 : 2 ≤ N) (ho : PPOps n R V Winit ops)
    (ho' : PPOps m R V' Winit' ops') (hI : Moved k n m R V V' Winit Winit') {s s' : PartState} (hs : MovedPart k n m R V V' s s')
    {lam ratio p : ℝ} (hl : 0 < lam) {kn kn' : Kern ℝ} (hk : KernOk kn) (hk' : KernOk kn') {srt : List Rel → List ℕ}
    (hsrt : SortSpec srt) (hn : ∀ j, 0 < n j) (hm : ∀ j, 0 < m j) (hok : k.Ok n m R) (hd : ∀ j, ∀ r < R, k.d j r ^ 2 = 1)
    (hV : ∀ idx ∈ Spec.Box m, arr V' N idx = k.tensor n (arr V N) idx) :
    Alike (MovedPart k n m R V V') (partSweep N R lam ratio p kn srt ops Winit s) (partSweep N R lam ratio p kn' srt ops' Winit' s') := by
  unfold partSweep
  rw [hs.rel]
  unfold sortIndexes
  by_cases hw : StrictWeak s.rel
  · rw [if_pos hw]
    have hperm := (hsrt s.rel hw).1
    rw [hs.len] at hperm
    refine Alike.bind (r := fun a b => b = a ∧ a = srt s.rel) ⟨rfl, rfl⟩ ?_
    rintro so _ ⟨rfl, rfl⟩
    unfold partUpdates
    refine (Alike.foldlM (r := MovedPart k n m R V V') _ (fun q _ a b hab => ?_) hs).bind fun a b hab => ?_
    · by_cases hq : q < (srt s.rel).length
      · have hi : (srt s.rel)[q] < N := List.mem_range.1 (hperm.mem_iff.1 (List.getElem_mem hq))
        have hrd : rd (srt s.rel) (q : ℤ) = .ok (srt s.rel)[q] := by simp [rd, hq]
        rw [hrd]
        obtain ⟨t, t', t1, t2, t3⟩ := MovedPart.update h2 ho ho' hI hab hl hk hk' hn hm hok hd hV ⟨_, hi⟩ (ratio := ratio)
        simp only at t1 t2
        simp only [bind, Except.bind, t1, t2]
        exact t3
      · have hrd : rd (srt s.rel) (q : ℤ) = .error .ub := by simp [rd, hq]
        rw [hrd]
        rfl
    · obtain ⟨l, l1, l2, l3⟩ := hab.dM.relatives hab.M hok hd
      obtain ⟨X, X', x1, x2, x3⟩ := hab.W.normalize hok hd
      simp only [l1, l2, x1, x2, bind, Except.bind]
      exact ⟨x3, hab.G, hab.dW, hab.dM, hab.M, rfl, l3⟩
  · rw [if_neg hw]
    rfl

end Model
