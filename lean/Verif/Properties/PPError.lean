import Verif.Proofs.PPError
import Verif.Spec.PPError
import Verif.Properties.PPGuard
import Verif.Properties.PPSweep
import Verif.Properties.Hosvd

/-! # C70: the error of pairwise perturbation is of second order, with explicit constants -/

namespace Properties

open Model Finset

variable {N : ℕ} {dims rk : Fin N → ℕ} {R : ℕ} {V : Tensor ℝ}

theorem mnorm_l2 (n m : ℕ) (A : ℕ → ℕ → ℝ) : Spec.mnorm n m A = l2 (cells n m) fun p => A p.1 p.2 := by
  unfold Spec.mnorm l2
  rw [sum_product]

theorem tnorm_l2 (dims : Fin N → ℕ) (V : (Fin N → ℕ) → ℝ) : Spec.tnorm dims V = l2 (Spec.Box dims) V := rfl

theorem mnorm_congr {n m : ℕ} {A B : ℕ → ℕ → ℝ} (h : ∀ x < n, ∀ r < m, A x r = B x r) : Spec.mnorm n m A = Spec.mnorm n m B := by
  unfold Spec.mnorm
  congr 1
  exact sum_congr rfl fun x hx => sum_congr rfl fun r hr => by rw [h x (mem_range.1 hx) r (mem_range.1 hr)]

theorem tnorm_congr {U V : (Fin N → ℕ) → ℝ} (h : ∀ z : Fin N → ℕ, (∀ j, z j < dims j) → U z = V z) :
    Spec.tnorm dims U = Spec.tnorm dims V := by
  unfold Spec.tnorm
  congr 1
  exact sum_congr rfl fun z hz => by rw [h z (Spec.mem_Box.1 hz)]

/-- The constant is of second order: at most `2 ^ (N-1) eps ^ 2` if all `e_j <= eps <= 1`. -/
theorem C70_second_order {e : Fin N → ℝ} {eps : ℝ} (h0 : ∀ j, 0 ≤ e j) (he : ∀ j, e j ≤ eps) (h1 : eps ≤ 1) (i : Fin N) :
    0 ≤ Spec.tail2 e i ∧ Spec.tail2 e i ≤ 2 ^ (N - 1) * eps ^ 2 := by
  have hep : 0 ≤ eps := (h0 i).trans (he i)
  unfold Spec.tail2
  rw [← sum_two_or_more]
  refine ⟨sum_nonneg fun S _ => prod_nonneg fun j _ => h0 j, ?_⟩
  calc _ ≤ ∑ S ∈ (univ.erase i).powerset with 2 ≤ S.card, eps ^ 2 := by
        refine sum_le_sum fun S hS => ?_
        have hc := (mem_filter.1 hS).2
        calc ∏ j ∈ S, e j ≤ ∏ _j ∈ S, eps := prod_le_prod (fun j _ => h0 j) fun j _ => he j
          _ = eps ^ S.card := by rw [prod_const]
          _ ≤ eps ^ 2 := pow_le_pow_of_le_one hep h1 hc
    _ ≤ ∑ S ∈ (univ.erase i).powerset, eps ^ 2 := sum_le_sum_of_subset_of_nonneg (filter_subset _ _) fun _ _ _ => sq_nonneg _
    _ = _ := by
      rw [sum_const, card_powerset, card_erase_of_mem (mem_univ i), card_univ, Fintype.card_fin, nsmul_eq_mul]
      push_cast
      rfl

theorem tail2_mono {e e' : Fin N → ℝ} (h0 : ∀ j, 0 ≤ e j) (he : ∀ j, e j ≤ e' j) (i : Fin N) : Spec.tail2 e i ≤ Spec.tail2 e' i := by
  unfold Spec.tail2
  rw [← sum_two_or_more, ← sum_two_or_more]
  exact sum_le_sum fun S _ => prod_le_prod (fun j _ => h0 j) fun j _ => he j

/-- The neglected terms of an MTTKRP. -/
theorem pp_frob_bound (h2 : 2 ≤ N) (A : (Fin N → ℕ) → ℝ) (W D : Fin N → ℕ → ℕ → ℝ) (i : Fin N) {e : Fin N → ℝ} (he0 : ∀ j ≠ i, 0 ≤ e j)
    (he : ∀ j ≠ i, Spec.mnorm (dims j) R (D j) ≤ e j * Spec.mnorm (dims j) R (W j)) :
    Spec.mnorm (dims i) R (fun x r => Spec.ppMttkrp dims A W D i x r - Spec.mttkrp dims A (Spec.displace W D) i x r) ≤
      Spec.tnorm dims A * (∏ j ∈ univ.erase i, Spec.mnorm (dims j) R (W j)) * Spec.tail2 e i := by
  have h := mttkrp_mix_l2 h2 dims R A W D i he0 (fun j hj => by rw [← mnorm_l2, ← mnorm_l2]; exact he j hj)
  rw [mul_assoc]
  refine le_trans (le_of_eq ?_) (h.trans (le_of_eq ?_))
  · rw [← mnorm_l2 (dims i) R fun x r => Spec.mttkrp dims A (Spec.displace W D) i x r - Spec.ppMttkrp dims A W D i x r]
    unfold Spec.mnorm
    congr 1
    exact sum_congr rfl fun x _ => sum_congr rfl fun r _ => by ring
  · rw [tnorm_l2, prod_congr rfl fun j _ => (mnorm_l2 (dims j) R (W j)).symm]
    rfl

/-- **C70 (CP, right-hand sides).** Orders 3..9, any tensor, factors and displacements with `‖dW_j‖ <= e_j ‖W_init,j‖`: the right-hand
side that a PP phase uses for mode `i` differs from the exact MTTKRP at the displaced factors by at most
`‖V‖ ∏_{j≠i} ‖W_init,j‖ (∏_{j≠i} (1 + e_j) - 1 - ∑_{j≠i} e_j)` (Frobenius norms). -/
theorem C70_cp (h3 : 3 ≤ N) (h9 : N ≤ 9) (same : Bool) {Winit dW : List (Tensor ℝ)} (hS : Shaped dims R V Winit)
    (hD : Shaped dims R V dW) (i : Fin N) {e : Fin N → ℝ} (he0 : ∀ j ≠ i, 0 ≤ e j)
    (he : ∀ j ≠ i, Spec.mnorm (dims j) R (mats dW j) ≤ e j * Spec.mnorm (dims j) R (mats Winit j)) :
    ∃ ops M, ppOperators same N V Winit = .ok ops ∧ ppM N ops dW i.1 = .ok M ∧ M.lens = [dims i, R] ∧
      Spec.mnorm (dims i) R (fun x r => mat M x r - Spec.mttkrp dims (arr V N) (Spec.displace (mats Winit) (mats dW)) i x r) ≤
        Spec.tnorm dims (arr V N) * (∏ j ∈ univ.erase i, Spec.mnorm (dims j) R (mats Winit j)) * Spec.tail2 e i := by
  obtain ⟨ops, M, h1, h2, h4, h5⟩ := C27_first_order h3 h9 same hS hD i
  refine ⟨ops, M, h1, h2, h4, le_trans (le_of_eq (mnorm_congr fun x hx r hr => ?_)) (pp_frob_bound (by omega) (arr V N) _ _ i he0 he)⟩
  rw [(h5 x hx r hr).1]

/-- **C70 (CP, updates).** If moreover `lam > 0`, the kernels satisfy their contract, the modes are nonempty and the factors are
`W = W_init + dW`: a PP update of mode `i` with damping `ratio` succeeds; let `X` be the new factor exact ALS would choose at `W`
(the exact minimiser).  The new factor is as close to `W_init + ratio (X - W_init)` (to `X` for `ratio = 1`) as the bound of the
right-hand side times `|ratio| / lam`, and the recorded gradient as close to the exact one as that bound. -/
theorem C70_cp_update (h3 : 3 ≤ N) (h9 : N ≤ 9) (same : Bool) {Winit : List (Tensor ℝ)} (hI : Shaped dims R V Winit) {s : PPState ℝ}
    (hs : PPShaped dims R V s) {lam ratio : ℝ} (hl : 0 < lam) {kn : Kern ℝ} (hk : KernOk kn) (i : Fin N) (hd : ∀ j, 0 < dims j)
    (hW : ∀ j : Fin N, ∀ x < dims j, ∀ r < R, mats s.W j x r = mats Winit j x r + mats s.dW j x r)
    {e : Fin N → ℝ} (he0 : ∀ j ≠ i, 0 ≤ e j)
    (he : ∀ j ≠ i, Spec.mnorm (dims j) R (mats s.dW j) ≤ e j * Spec.mnorm (dims j) R (mats Winit j)) :
    ∃ ops s', ppOperators same N V Winit = .ok ops ∧ ppUpdate N R lam ratio kn ops Winit s i.1 = .ok s' ∧
      (∀ X, Spec.Solves (dims i) R X (Spec.normalMat dims R lam (mats s.W) i) (Spec.mttkrp dims (arr V N) (mats s.W) i) →
        Spec.mnorm (dims i) R (fun x r => mats s'.W i x r - (mats Winit i x r + ratio * (X x r - mats Winit i x r))) ≤ |ratio| / lam *
          (Spec.tnorm dims (arr V N) * (∏ j ∈ univ.erase i, Spec.mnorm (dims j) R (mats Winit j)) * Spec.tail2 e i)) ∧
      Spec.mnorm (dims i) R (fun x r => mats s'.G i x r - Spec.alsGrad dims R lam (arr V N) (mats s.W) i x r) ≤
        Spec.tnorm dims (arr V N) * (∏ j ∈ univ.erase i, Spec.mnorm (dims j) R (mats Winit j)) * Spec.tail2 e i := by
  obtain ⟨ops, s', h1, h2, hp⟩ := C27_update h3 h9 same hI hs hl hk i hd (ratio := ratio)
  have hm : ∀ x r, r < R → Spec.mttkrp dims (arr V N) (mats s.W) i x r =
      Spec.mttkrp dims (arr V N) (Spec.displace (mats Winit) (mats s.dW)) i x r := by
    intro x r hr
    unfold Spec.mttkrp
    refine sum_congr rfl fun idx hidx => ?_
    congr 1
    refine prod_congr rfl fun j _ => ?_
    exact hW j _ (Spec.mem_Box.1 (mem_filter.1 hidx).1 j) r hr
  have hb : Spec.mnorm (dims i) R (fun x r => Spec.ppMttkrp dims (arr V N) (mats Winit) (mats s.dW) i x r -
      Spec.mttkrp dims (arr V N) (mats s.W) i x r) ≤
      Spec.tnorm dims (arr V N) * (∏ j ∈ univ.erase i, Spec.mnorm (dims j) R (mats Winit j)) * Spec.tail2 e i := by
    refine le_trans (le_of_eq (mnorm_congr fun x hx r hr => ?_)) (pp_frob_bound (by omega) (arr V N) _ _ i he0 he)
    rw [hm x r hr]
  refine ⟨ops, s', h1, h2, fun X hX => ?_, ?_⟩
  · obtain ⟨Y, y1, y2⟩ := hp.solved
    have hc := solve_close hl y1 hX
    rw [← mnorm_l2 (dims i) R fun x r => Y x r - X x r, ← mnorm_l2 (dims i) R fun x r =>
      Spec.ppMttkrp dims (arr V N) (mats Winit) (mats s.dW) i x r - Spec.mttkrp dims (arr V N) (mats s.W) i x r] at hc
    have e1 : Spec.mnorm (dims i) R (fun x r => mats s'.W i x r - (mats Winit i x r + ratio * (X x r - mats Winit i x r))) =
        |ratio| * Spec.mnorm (dims i) R (fun x r => Y x r - X x r) := by
      rw [mnorm_congr (B := fun x r => ratio * (Y x r - X x r)) fun x hx r hr => by rw [hp.disp x hx r hr, y2 x hx r hr]; ring]
      unfold Spec.mnorm
      rw [← Real.sqrt_sq_eq_abs, ← Real.sqrt_mul (sq_nonneg _), mul_sum]
      congr 1
      refine sum_congr rfl fun x _ => ?_
      rw [mul_sum]
      exact sum_congr rfl fun r _ => by ring
    rw [e1, div_mul_eq_mul_div, mul_div_assoc]
    exact mul_le_mul_of_nonneg_left (hc.trans (div_le_div_of_nonneg_right hb hl.le)) (abs_nonneg _)
  · refine le_trans (le_of_eq ?_) hb
    unfold Spec.mnorm
    congr 1
    refine sum_congr rfl fun x hx => sum_congr rfl fun r hr => ?_
    beta_reduce
    rw [hp.grad x (mem_range.1 hx) r (mem_range.1 hr)]
    unfold Spec.alsGrad Spec.clip
    rw [if_pos ⟨mem_range.1 hx, mem_range.1 hr⟩]
    ring

/-- **C70 (Tucker, right-hand sides).** Orders 3..9, orthonormal `W_init` and any displacements: the tensor a PP phase uses for mode `i`
differs from the exact multi-mode product at the displaced factors by at most `‖V‖ (∏_{j≠i} (1 + ‖dW_j‖) - 1 - ∑_{j≠i} ‖dW_j‖)`. -/
theorem C70_tucker (h3 : 3 ≤ N) (h9 : N ≤ 9) {Winit dW : List (Tensor ℝ)} (hS : TuckShaped dims rk V Winit)
    (hD : TuckShaped dims rk V dW) (hO : ∀ j : Fin N, Spec.Orthonormal (dims j) (rk j) (mats Winit j)) (i : Fin N) :
    ∃ ops Y, tuckOperators N V Winit = .ok ops ∧ tuckPPY N ops dW i.1 = .ok Y ∧ Y.lens = List.ofFn (Spec.ttmShape dims rk {i}) ∧
      Spec.tnorm (Spec.ttmShape dims rk {i})
        (fun z => arr Y N z - Spec.multiTTM dims (arr V N) (Spec.displace (mats Winit) (mats dW)) {i} z) ≤
        Spec.tnorm dims (arr V N) * Spec.tail2 (fun j => Spec.mnorm (dims j) (rk j) (mats dW j)) i := by
  obtain ⟨ops, Y, h1, h2, h4, h5⟩ := C36_first_order h3 h9 hS hD i
  refine ⟨ops, Y, h1, h2, h4, ?_⟩
  have h := ttm_mix_l2 (arr V N) (D := mats dW) i hO
  refine le_trans (le_of_eq ?_) (h.trans (le_of_eq ?_))
  · unfold Spec.tnorm l2
    congr 1
    refine sum_congr rfl fun z hz => ?_
    beta_reduce
    rw [(h5 z (Spec.mem_Box.1 hz)).1]
    ring
  · unfold Spec.tail2
    simp only [mnorm_l2]
    rfl

/-- The tensors a PP sweep of `alsTucker_PP` would use in state `s` are close to the exact ones at the current factors. -/
def TuckAccurate (dims rk : Fin N → ℕ) (V : Tensor ℝ) (tolInit : ℝ) (s : TuckPPState) : Prop :=
  ∀ i : Fin N, ∃ Y, tuckPPY N s.ops s.dW i.1 = .ok Y ∧
    Spec.tnorm (Spec.ttmShape dims rk {i}) (fun z => arr Y N z - Spec.multiTTM dims (arr V N) (mats s.W) {i} z) ≤
      Spec.tnorm dims (arr V N) * Spec.tail2 (fun j => tolInit * Real.sqrt (rk j)) i

theorem mnorm_orthonormal {n m : ℕ} {A : ℕ → ℕ → ℝ} (h : Spec.Orthonormal n m A) : Spec.mnorm n m A = Real.sqrt m := by
  unfold Spec.mnorm
  congr 1
  rw [sum_comm]
  have : ∀ r ∈ range m, ∑ x ∈ range n, A x r ^ 2 = 1 := by
    intro r hr
    have := h r (mem_range.1 hr) r (mem_range.1 hr)
    rw [if_pos rfl] at this
    rw [← this]
    exact sum_congr rfl fun x _ => sq _
  rw [sum_congr rfl this]
  simp

theorem tuck_accurate (h3 : 3 ≤ N) (h9 : N ≤ 9) {tolInit : ℝ} {s : TuckPPState} (hW : AllOrtho dims rk s.W)
    (hO : AllOrtho dims rk s.Winit) (hS : TuckShaped dims rk V s.Winit) (hD : TuckShaped dims rk V s.dW) (h : TuckSafe dims rk V tolInit s) :
    TuckAccurate dims rk V tolInit s := by
  intro i
  obtain ⟨ops, Y, a1, a2, a3, a4⟩ := C70_tucker h3 h9 hS hD hO i
  rw [h.1] at a1
  cases a1
  refine ⟨Y, a2, ?_⟩
  have e1 : Spec.tnorm (Spec.ttmShape dims rk {i}) (fun z => arr Y N z - Spec.multiTTM dims (arr V N) (mats s.W) {i} z) =
      Spec.tnorm (Spec.ttmShape dims rk {i})
        (fun z => arr Y N z - Spec.multiTTM dims (arr V N) (Spec.displace (mats s.Winit) (mats s.dW)) {i} z) := by
    refine tnorm_congr fun z hz => ?_
    congr 1
    unfold Spec.multiTTM
    refine sum_congr rfl fun idx hidx => ?_
    congr 1
    refine prod_congr rfl fun j hj => ?_
    have hj' : z j < rk j := by
      have := hz j
      unfold Spec.ttmShape at this
      rwa [if_neg (by simpa using hj)] at this
    unfold Spec.displace
    rw [h.2.1 j _ (Spec.mem_Box.1 (mem_filter.1 hidx).1 j) _ hj']
    ring
  rw [e1]
  refine a4.trans (mul_le_mul_of_nonneg_left (tail2_mono (fun j => Real.sqrt_nonneg _) (fun j => ?_) i) (Real.sqrt_nonneg _))
  have h1 := h.2.2.2 j
  have h2 : tfacNorm dims rk s.W j = Real.sqrt (rk j) := mnorm_orthonormal (hW j)
  rw [h2] at h1
  refine le_trans (le_of_eq ?_) (h1.trans (mul_le_mul_of_nonneg_right h.2.2.1 (Real.sqrt_nonneg _)))
  exact mnorm_congr fun x hx r hr => h.2.1 j x hx r hr

/-- The state in a PP phase, and `W_init` has orthonormal columns. -/
def TPQO (dims rk : Fin N → ℕ) (V : Tensor ℝ) (o : Prop) (m : ℕ) (t : ℝ) (s : TuckPPState) : Prop :=
  (TPQ dims rk V o m s ∧ TolIn t s) ∧ AllOrtho dims rk s.Winit

/-- **C70 (`alsTucker_PP`).** Orders 4, 6..9, an SVD satisfying its contract, a start with orthonormal factors (such as that of
`hosvd`), any clock, outside `bench` mode, `tol_init >= 0`: whenever a PP sweep is started, the tensor PP computes for any mode `i`
differs from the exact product with the current factors by at most
`‖V‖ (∏_{j≠i} (1 + tol_init √r_j) - 1 - ∑_{j≠i} tol_init √r_j)`.  (As in C55, by comparison with a driver that aborts otherwise.) -/
theorem C70_tucker_driver (h4 : 4 ≤ N) (h5 : N ≠ 5) (h9 : N ≤ 9) (hrk : ∀ j, rk j ≤ dims j) {W : List (Tensor ℝ)}
    (hW : TuckShaped dims rk V W) (hO : ∀ j : Fin N, Spec.Orthonormal (dims j) (rk j) (mats W j)) {core : Tensor ℝ}
    (hC : core.lens = List.ofFn rk) {kn : Kern ℝ} (hk : SvdShape kn) (hl : SvdLeading kn) (tolInit : ℝ) (ht : 0 ≤ tolInit)
    (c : PPCfg) (hb : c.bench = false) (clock : ℕ → ℝ) (fuel : ℕ) :
    ppDriver { c with tucker := true } ((tuckPPHooks N kn V).guardSweep (TuckAccurate dims rk V tolInit)) clock fuel
        ⟨W, W.map zerosLike, [], [], [], core, core, tolInit⟩ =
      alsTuckerPP N kn V tolInit c clock fuel core W := by
  obtain ⟨m, hm⟩ := tol_decay tolInit
  have H := (tp_hooks' (V := V) (dims := dims) h4 h5 h9 hrk hk hl True m tolInit).keep
  have H' : HooksKeep (tuckPPHooks N kn V) (fun s => TPI dims rk V True m s ∧ TolIn tolInit s)
      (fun s => TPD dims rk V True m s ∧ TolIn tolInit s) (TPQO dims rk V True m tolInit) := by
    refine ⟨H.DI, fun s hs => H.QI s hs.1, H.dtBegin, H.dtSweep, ?_, ?_, H.checkD, ?_, H.acceptD, ?_, H.endRound⟩
    · intro s hs s' e
      refine ⟨H.ppBegin s hs s' e, ?_⟩
      have e2 := e
      simp only [tuckPPHooks, bind, Except.bind, pure, Except.pure] at e2
      split at e2
      · cases e2
      · rw [← Except.ok.inj e2]
        exact hs.1.ortho trivial
    · intro s hs s' e
      refine ⟨H.ppSweep s hs.1 s' e, ?_⟩
      have e2 := e
      simp only [tuckPPHooks, bind, Except.bind, pure, Except.pure] at e2
      split at e2
      · cases e2
      · rw [← Except.ok.inj e2]
        exact hs.2
    · intro s hs q e
      refine ⟨H.checkQ s hs.1 q e, ?_⟩
      have e2 := e
      simp only [tuckPPHooks, bind, Except.bind, pure, Except.pure] at e2
      split at e2
      · cases e2
      · rw [← Except.ok.inj e2]
        exact hs.2
    · intro s hs s' e
      refine ⟨H.acceptQ s hs.1 s' e, ?_⟩
      have e2 := e
      simp only [tuckPPHooks, bind, Except.bind, pure, Except.pure] at e2
      split at e2
      · cases e2
      · rw [← Except.ok.inj e2]
        exact hs.2
  have F := tp_farOk (V := V) (dims := dims) (rk := rk) h4 h9 True m tolInit (kn := kn)
  refine ppDriver_guard (c := { c with tucker := true }) H' ⟨fun s hs => F.check s hs.1, fun s hs => F.accept s hs.1, F.ppBegin⟩ hb ?_
    ⟨⟨hW, (tp_start hW hC hm).dW, hC, hC, fun _ => hO, hm⟩, ht, le_rfl⟩
  rintro s ⟨⟨hs, hs'⟩, ho⟩ hfar
  exact tuck_accurate (by omega) h9 (hs.i.ortho trivial) ho hs.init hs.i.dW (tp_safe hs hs' hfar)

/-! ## Non-vacuity -/

/-- Displacements as large as the factors. -/
example : ∃ ops M, ppOperators true 4 exVR exFacR.W = .ok ops ∧ ppM 4 ops exFacR.W 2 = .ok M ∧ M.lens = [1, 2] ∧
    Spec.mnorm 1 2 (fun x r => mat M x r -
        Spec.mttkrp ![2, 3, 1, 4] (arr exVR 4) (Spec.displace (mats exFacR.W) (mats exFacR.W)) (2 : Fin 4) x r) ≤
      Spec.tnorm (N := 4) ![2, 3, 1, 4] (arr exVR 4) *
        (∏ j ∈ univ.erase (2 : Fin 4), Spec.mnorm ((![2, 3, 1, 4] : Fin 4 → ℕ) j) 2 (mats exFacR.W j)) *
        Spec.tail2 (fun _ : Fin 4 => (1 : ℝ)) 2 :=
  C70_cp (by norm_num) (by norm_num) true exShapedR exShapedR 2 (fun _ _ => zero_le_one) (fun _ _ => by rw [one_mul])

/-- Twice the example factors. -/
noncomputable def exTwiceW : List (Tensor ℝ) :=
  [⟨[2, 2], fun idx => 2 * (idx.getD 0 0 + 1)⟩, ⟨[3, 2], fun idx => 2 * idx.getD 1 0⟩,
    ⟨[1, 2], fun idx => 2 * (idx.getD 1 0 + 5)⟩, ⟨[4, 2], fun idx => 2 * (3 - idx.getD 0 0)⟩]

theorem exTwice_shaped : Shaped (N := 4) ![2, 3, 1, 4] 2 exVR exTwiceW where
  lensV := rfl
  count := rfl
  lensW := by
    intro j M h
    fin_cases j <;> (simp [exTwiceW] at h; subst h; rfl)

example : ∃ kn ops s', ppOperators true 4 exVR exFacR.W = .ok ops ∧
    ppUpdate 4 2 (1 / 2) 1 kn ops exFacR.W ⟨exTwiceW, exGR, exFacR.W⟩ 2 = .ok s' := by
  obtain ⟨kn, hk⟩ := exists_kernOk
  obtain ⟨ops, s', h1, h2, -⟩ := C70_cp_update (N := 4) (R := 2) (V := exVR) (dims := ![2, 3, 1, 4]) (by norm_num) (by norm_num) true
    exShapedR (s := ⟨exTwiceW, exGR, exFacR.W⟩) ⟨exTwice_shaped, rfl, exShapedR⟩ (lam := 1 / 2) (ratio := 1) (by norm_num) hk 2
    (fun j => by fin_cases j <;> norm_num)
    (fun j x hx r hr => by fin_cases j <;> simp only [mats, mat, exTwiceW, exFacR] <;> norm_num <;> ring)
    (e := fun _ => 1) (fun _ _ => zero_le_one) (fun _ _ => by rw [one_mul])
  exact ⟨kn, ops, s', h1, h2⟩

example : ∃ kn C F, hosvd kn exTuckV [1, 2, 1, 3] = .ok (C, F) ∧ ∀ fuel,
    ppDriver ⟨true, 1 / 1000, 60, 100, 10, false⟩ ((tuckPPHooks 4 kn exTuckV).guardSweep
      (TuckAccurate (N := 4) ![2, 3, 1, 4] ![1, 2, 1, 3] exTuckV (1 / 10))) (fun _ => 1) fuel
      ⟨F, F.map zerosLike, [], [], [], C, C, 1 / 10⟩ =
    alsTuckerPP 4 kn exTuckV (1 / 10) ⟨true, 1 / 1000, 60, 100, 10, false⟩ (fun _ => 1) fuel C F := by
  obtain ⟨kn, hl, hk⟩ := exists_svdLeading
  obtain ⟨C, F, h1, h2, h3, h4, -⟩ := C69_hosvd (N := 4) (V := exTuckV) (dims := ![2, 3, 1, 4]) (rk := ![1, 2, 1, 3]) (by norm_num) (by norm_num)
    rfl exTuckRank hk hl
  exact ⟨kn, C, F, h1, fun fuel => C70_tucker_driver (by norm_num) (by norm_num) (by norm_num) exTuckRank h2 h4 h3.1
    hk hl (1 / 10) (by norm_num) ⟨true, 1 / 1000, 60, 100, 10, false⟩ rfl (fun _ => 1) fuel⟩

end Properties
