import Verif.Spec.Symmetry
import Verif.Proofs.Fixed

/-! # ALS commutes with changes of coordinates -/

namespace Spec

open Finset

variable {N : ℕ} {n m : Fin N → ℕ} {R : ℕ} {k : Coord N} {V : (Fin N → ℕ) → ℝ} {W : Fin N → ℕ → ℕ → ℝ} {i : Fin N} {lam : ℝ}

/-- `Q_jᵀ` undoes the change of a factor, up to scaling and column order. -/
theorem Coord.Ok.back (h : k.Ok n m R) (j : Fin N) {u : ℕ} (hu : u < n j) (r : ℕ) :
    ∑ z ∈ range (m j), k.Q j z u * k.fac n W j z r = k.d j r * W j u (k.σ r) := by
  unfold Coord.fac
  have e : ∀ z, k.Q j z u * (k.d j r * ∑ y ∈ range (n j), k.Q j z y * W j y (k.σ r)) =
      ∑ y ∈ range (n j), k.d j r * W j y (k.σ r) * (k.Q j z u * k.Q j z y) := by
    intro z
    rw [mul_sum, mul_sum]
    exact sum_congr rfl fun y _ => by ring
  simp_rw [e]
  rw [sum_comm]
  simp_rw [← mul_sum]
  rw [sum_eq_single_of_mem u (mem_range.2 hu)]
  · rw [h.orth j u hu u hu, if_pos rfl, mul_one]
  · intro y hy hne
    rw [h.orth j u hu y (mem_range.1 hy), if_neg (Ne.symm hne), mul_zero]

theorem Coord.Ok.mttkrp (h : k.Ok n m R) {x r : ℕ} (hx : x < m i) :
    Spec.mttkrp m (k.tensor n V) (k.fac n W) i x r =
      k.c * (∏ j ∈ univ.erase i, k.d j r) * ∑ y ∈ range (n i), k.Q i x y * Spec.mttkrp n V W i y (k.σ r) := by
  have e1 : ∀ idx ∈ (Box m).filter (fun idx => idx i = x), k.tensor n V idx * ∏ j ∈ univ.erase i, k.fac n W j (idx j) r =
      ∑ y ∈ Box n, k.c * (V y * k.Q i x (y i)) * ∏ j ∈ univ.erase i, k.Q j (idx j) (y j) * k.fac n W j (idx j) r := by
    intro idx hidx
    rw [mem_filter] at hidx
    unfold Coord.tensor
    rw [mul_sum, sum_mul]
    refine sum_congr rfl fun y _ => ?_
    rw [← mul_prod_erase univ _ (mem_univ i), hidx.2, prod_mul_distrib]
    ring
  unfold Spec.mttkrp
  rw [sum_congr rfl e1, sum_comm]
  have e2 : ∀ y ∈ Box n, (∑ idx ∈ (Box m).filter (fun idx => idx i = x), k.c * (V y * k.Q i x (y i)) *
      ∏ j ∈ univ.erase i, k.Q j (idx j) (y j) * k.fac n W j (idx j) r) =
      k.c * (∏ j ∈ univ.erase i, k.d j r) * (k.Q i x (y i) * (V y * ∏ j ∈ univ.erase i, W j (y j) (k.σ r))) := by
    intro y hy
    rw [← mul_sum, sum_slice_prod i hx (fun j z => k.Q j z (y j) * k.fac n W j z r)]
    rw [prod_congr rfl fun j _ => h.back j (mem_Box.1 hy j) r, prod_mul_distrib]
    ring
  rw [sum_congr rfl e2, ← mul_sum]
  congr 1
  rw [sum_box_slices i]
  refine sum_congr rfl fun u _ => ?_
  rw [mul_sum]
  refine sum_congr rfl fun y hy => ?_
  rw [(mem_filter.1 hy).2]

theorem Coord.Ok.gram (h : k.Ok n m R) (j : Fin N) (a b : ℕ) :
    Spec.gram (m j) (k.fac n W j) a b = k.d j a * k.d j b * Spec.gram (n j) (W j) (k.σ a) (k.σ b) := by
  unfold Spec.gram
  have e : ∀ z, k.fac n W j z a * k.fac n W j z b =
      ∑ y ∈ range (n j), k.d j a * W j y (k.σ a) * (k.Q j z y * k.fac n W j z b) := by
    intro z
    conv_lhs => rw [Coord.fac]
    rw [mul_sum, sum_mul]
    exact sum_congr rfl fun y _ => by ring
  simp_rw [e]
  rw [sum_comm, mul_sum]
  refine sum_congr rfl fun y hy => ?_
  rw [← mul_sum, h.back j (mem_range.1 hy)]
  ring

/-- The diagonal of the change of the normal equations of mode `i`. -/
noncomputable def Coord.e (k : Coord N) (i : Fin N) (r : ℕ) : ℝ := ∏ j ∈ univ.erase i, k.d j r

theorem Coord.Ok.d_mul_e (h : k.Ok n m R) {r : ℕ} (hr : r < R) : k.d i r * k.e i r = k.c := by
  unfold Coord.e
  rw [mul_prod_erase univ (fun j => k.d j r) (mem_univ i), h.prod r hr]

theorem Coord.Ok.e_ne (h : k.Ok n m R) {r : ℕ} (hr : r < R) : k.e i r ≠ 0 := fun h0 => h.nonzero (by
  rw [← h.d_mul_e (i := i) hr, h0, mul_zero])

/-- `lam = 0`, or all scalings are signs. -/
def Coord.Compat (k : Coord N) (R : ℕ) (lam : ℝ) : Prop := lam = 0 ∨ ∀ j, ∀ r < R, k.d j r ^ 2 = 1

theorem Coord.e_sq (hc : ∀ j, ∀ r < R, k.d j r ^ 2 = 1) {r : ℕ} (hr : r < R) : k.e i r ^ 2 = 1 := by
  unfold Coord.e
  rw [← prod_pow]
  exact prod_eq_one fun j _ => hc j r hr

theorem Coord.Ok.normalMat (h : k.Ok n m R) (hc : k.Compat R lam) {a b : ℕ} (ha : a < R) (hb : b < R) :
    Spec.normalMat m R lam (k.fac n W) i a b = k.e i a * k.e i b * Spec.normalMat n R lam W i (k.σ a) (k.σ b) := by
  unfold Spec.normalMat
  rw [clip_of ha hb, clip_of ((h.perm a).2 ha) ((h.perm b).2 hb)]
  unfold gramExcept
  rw [prod_congr rfl fun j _ => h.gram j a b, prod_mul_distrib, prod_mul_distrib]
  change k.e i a * k.e i b * _ + _ = _
  rw [mul_add]
  congr 1
  by_cases hab : a = b
  · subst hab
    rw [if_pos rfl, if_pos rfl]
    rcases hc with h0 | h1
    · rw [h0]; ring
    · have := Coord.e_sq (i := i) h1 ha
      rw [← sq, this, one_mul]
  · rw [if_neg hab, if_neg (fun h => hab (k.σ.injective h)), mul_zero]

/-- Sums over the columns do not depend on their order. -/
theorem Coord.Ok.sum_perm (h : k.Ok n m R) (f : ℕ → ℝ) : ∑ a ∈ range R, f (k.σ a) = ∑ a ∈ range R, f a :=
  sum_equiv k.σ (fun a => by simp [h.perm]) (fun _ _ => rfl)

theorem Coord.Ok.posDef (h : k.Ok n m R) (hc : k.Compat R lam) (hS : PosDef R (Spec.normalMat n R lam W i)) :
    PosDef R (Spec.normalMat m R lam (k.fac n W) i) := by
  refine ⟨fun a ha b hb => ?_, fun v hv => ?_⟩
  · rw [h.normalMat hc ha hb, h.normalMat hc hb ha, hS.1 _ ((h.perm a).2 ha) _ ((h.perm b).2 hb)]
    ring
  · have key : ∑ a ∈ range R, ∑ b ∈ range R, v a * Spec.normalMat m R lam (k.fac n W) i a b * v b =
        ∑ a ∈ range R, ∑ b ∈ range R, (k.e i (k.σ.symm a) * v (k.σ.symm a)) * Spec.normalMat n R lam W i a b *
          (k.e i (k.σ.symm b) * v (k.σ.symm b)) := by
      refine Eq.trans ?_ (h.sum_perm fun a => ∑ b ∈ range R, (k.e i (k.σ.symm a) * v (k.σ.symm a)) *
        Spec.normalMat n R lam W i a b * (k.e i (k.σ.symm b) * v (k.σ.symm b)))
      refine sum_congr rfl fun a ha => ?_
      refine Eq.trans ?_ (h.sum_perm fun b => (k.e i (k.σ.symm (k.σ a)) * v (k.σ.symm (k.σ a))) *
        Spec.normalMat n R lam W i (k.σ a) b * (k.e i (k.σ.symm b) * v (k.σ.symm b)))
      refine sum_congr rfl fun b hb => ?_
      rw [h.normalMat hc (mem_range.1 ha) (mem_range.1 hb), Equiv.symm_apply_apply, Equiv.symm_apply_apply]
      ring
    rw [key]
    obtain ⟨a, ha, hva⟩ := hv
    refine hS.2 _ ⟨k.σ a, (h.perm a).2 ha, ?_⟩
    rw [Equiv.symm_apply_apply]
    exact mul_ne_zero (h.e_ne ha) hva

/-- The image of a matrix of mode `i`. -/
noncomputable def Coord.one (k : Coord N) (n : Fin N → ℕ) (i : Fin N) (X : ℕ → ℕ → ℝ) (x r : ℕ) : ℝ :=
  k.d i r * ∑ y ∈ range (n i), k.Q i x y * X y (k.σ r)

theorem Coord.Ok.solves (h : k.Ok n m R) (hc : k.Compat R lam) {X : ℕ → ℕ → ℝ}
    (hX : Solves (n i) R X (Spec.normalMat n R lam W i) (Spec.mttkrp n V W i)) :
    Solves (m i) R (k.one n i X) (Spec.normalMat m R lam (k.fac n W) i) (Spec.mttkrp m (k.tensor n V) (k.fac n W) i) := by
  intro x hx b hb
  rw [h.mttkrp hx]
  have e1 : ∀ a ∈ range R, k.one n i X x a * Spec.normalMat m R lam (k.fac n W) i a b =
      k.c * k.e i b * ∑ y ∈ range (n i), k.Q i x y * (X y (k.σ a) * Spec.normalMat n R lam W i (k.σ a) (k.σ b)) := by
    intro a ha
    rw [h.normalMat hc (mem_range.1 ha) hb, ← h.d_mul_e (i := i) (mem_range.1 ha)]
    unfold Coord.one
    rw [mul_sum, sum_mul, mul_sum]
    exact sum_congr rfl fun y _ => by ring
  rw [sum_congr rfl e1, ← mul_sum]
  change _ = k.c * k.e i b * _
  congr 1
  rw [sum_comm]
  refine sum_congr rfl fun y hy => ?_
  rw [← mul_sum, h.sum_perm (fun a => X y a * Spec.normalMat n R lam W i a (k.σ b)),
    hX y (mem_range.1 hy) _ ((h.perm b).2 hb)]

theorem Coord.Ok.factor (h : k.Ok n m R) (hc : k.Compat R lam) {solve solve' : Solver ℝ} (hs : SolvesPosDef solve)
    (hs' : SolvesPosDef solve') (hS : PosDef R (Spec.normalMat n R lam W i)) :
    ∀ x < m i, ∀ r < R, alsFactor m R lam solve' (k.tensor n V) (k.fac n W) i x r =
      k.one n i (alsFactor n R lam solve V W i) x r := by
  have hX : Solves (n i) R (alsFactor n R lam solve V W i) (Spec.normalMat n R lam W i) (Spec.mttkrp n V W i) :=
    (hs (n i) R (clip (n i) R (Spec.mttkrp n V W i)) _ hS).congr (fun x hx r hr => clip_of hx hr)
      fun x hx r hr => (clip_of hx hr).symm
  have hS' := h.posDef hc hS
  have hX' : Solves (m i) R (alsFactor m R lam solve' (k.tensor n V) (k.fac n W) i) (Spec.normalMat m R lam (k.fac n W) i)
      (Spec.mttkrp m (k.tensor n V) (k.fac n W) i) :=
    (hs' (m i) R (clip (m i) R (Spec.mttkrp m (k.tensor n V) (k.fac n W) i)) _ hS').congr (fun x hx r hr => clip_of hx hr)
      fun x hx r hr => (clip_of hx hr).symm
  exact solves_unique hS' hX' (h.solves hc hX)

theorem Coord.Ok.grad (h : k.Ok n m R) (hc : k.Compat R lam) {x r : ℕ} (hx : x < m i) (hr : r < R) :
    alsGrad m R lam (k.tensor n V) (k.fac n W) i x r =
      k.c * k.e i r * ∑ y ∈ range (n i), k.Q i x y * alsGrad n R lam V W i y (k.σ r) := by
  unfold alsGrad
  rw [clip_of hx hr, h.mttkrp hx]
  have e1 : ∀ a ∈ range R, k.fac n W i x a * Spec.normalMat m R lam (k.fac n W) i a r =
      k.c * k.e i r * ∑ y ∈ range (n i), k.Q i x y * (W i y (k.σ a) * Spec.normalMat n R lam W i (k.σ a) (k.σ r)) := by
    intro a ha
    rw [h.normalMat hc (mem_range.1 ha) hr, ← h.d_mul_e (i := i) (mem_range.1 ha)]
    unfold Coord.fac
    rw [mul_sum, sum_mul, mul_sum]
    exact sum_congr rfl fun y _ => by ring
  rw [sum_congr rfl e1, ← mul_sum, sum_comm]
  change -(k.c * k.e i r * _) + _ = _
  rw [← mul_neg, ← mul_add, ← sum_neg_distrib, ← sum_add_distrib]
  congr 1
  refine sum_congr rfl fun y hy => ?_
  rw [clip_of (mem_range.1 hy) ((h.perm r).2 hr), ← mul_sum,
    h.sum_perm (fun a => W i y a * Spec.normalMat n R lam W i a (k.σ r))]
  ring

theorem Coord.Ok.c_mul_e (h : k.Ok n m R) (hd : ∀ j, ∀ r < R, k.d j r ^ 2 = 1) {r : ℕ} (hr : r < R) :
    k.c * k.e i r = k.d i r := by
  rw [← h.d_mul_e (i := i) hr, mul_assoc, ← sq, Coord.e_sq hd hr, mul_one]

/-! ## Reconstruction and norms -/

theorem Coord.Ok.recon (h : k.Ok n m R) (idx : Fin N → ℕ) :
    Spec.recon R (k.fac n W) idx = k.c * ∑ y ∈ Box n, (∏ j, k.Q j (idx j) (y j)) * Spec.recon R W y := by
  unfold Spec.recon
  have e1 : ∀ r ∈ range R, ∏ j, k.fac n W j (idx j) r =
      k.c * ∑ y ∈ Box n, (∏ j, k.Q j (idx j) (y j)) * ∏ j, W j (y j) (k.σ r) := by
    intro r hr
    unfold Coord.fac
    rw [prod_mul_distrib, h.prod r (mem_range.1 hr), prod_univ_sum]
    congr 1
    exact sum_congr rfl fun y _ => prod_mul_distrib
  rw [sum_congr rfl e1, ← mul_sum, sum_comm]
  congr 1
  refine sum_congr rfl fun y _ => ?_
  rw [← mul_sum, h.sum_perm (fun r => ∏ j, W j (y j) r)]

/-- The change of coordinates preserves norms of tensors, up to the scaling. -/
theorem Coord.Ok.tensor_norm (h : k.Ok n m R) (D : (Fin N → ℕ) → ℝ) :
    ∑ idx ∈ Box m, (k.tensor n D idx) ^ 2 = k.c ^ 2 * ∑ y ∈ Box n, D y ^ 2 := by
  have e1 : ∀ idx, (k.tensor n D idx) ^ 2 =
      ∑ y ∈ Box n, ∑ z ∈ Box n, k.c ^ 2 * (D y * D z) * ∏ j, k.Q j (idx j) (y j) * k.Q j (idx j) (z j) := by
    intro idx
    unfold Coord.tensor
    rw [mul_pow, sq (∑ y ∈ Box n, _), sum_mul_sum, mul_sum]
    refine sum_congr rfl fun y _ => ?_
    rw [mul_sum]
    refine sum_congr rfl fun z _ => ?_
    rw [prod_mul_distrib]
    ring
  simp_rw [e1]
  rw [sum_comm, mul_sum]
  refine sum_congr rfl fun y hy => ?_
  rw [sum_comm]
  have e2 : ∀ z ∈ Box n, ∑ idx ∈ Box m, k.c ^ 2 * (D y * D z) * ∏ j, k.Q j (idx j) (y j) * k.Q j (idx j) (z j) =
      k.c ^ 2 * (D y * D z) * ∏ j, if y j = z j then 1 else 0 := by
    intro z hz
    rw [← mul_sum]
    congr 1
    unfold Box
    refine (prod_univ_sum (fun j => range (m j)) (fun j x => k.Q j x (y j) * k.Q j x (z j))).symm.trans ?_
    exact prod_congr rfl fun j _ => h.orth j _ (mem_Box.1 hy j) _ (mem_Box.1 hz j)
  rw [sum_congr rfl e2, sum_eq_single_of_mem y hy]
  · simp only [if_true, prod_const_one]; ring
  · intro z _ hne
    obtain ⟨j, hj⟩ := Function.ne_iff.1 hne
    rw [prod_eq_zero (mem_univ j) (if_neg (Ne.symm hj)), mul_zero]

theorem Coord.Ok.resid (h : k.Ok n m R) : resid2 m R (k.tensor n V) (k.fac n W) = k.c ^ 2 * resid2 n R V W := by
  unfold resid2
  rw [← h.tensor_norm]
  refine sum_congr rfl fun idx _ => ?_
  congr 1
  rw [h.recon idx]
  unfold Coord.tensor
  rw [← mul_sub, ← sum_sub_distrib]
  congr 1
  exact sum_congr rfl fun y _ => by ring

theorem Coord.Ok.fac_norm (h : k.Ok n m R) (hd : ∀ j, ∀ r < R, k.d j r ^ 2 = 1) (j : Fin N) :
    ∑ x ∈ range (m j), ∑ r ∈ range R, k.fac n W j x r ^ 2 = ∑ x ∈ range (n j), ∑ r ∈ range R, W j x r ^ 2 := by
  rw [sum_comm]
  rw [sum_comm (s := range (n j))]
  have e : ∀ r ∈ range R, ∑ x ∈ range (m j), k.fac n W j x r ^ 2 = ∑ x ∈ range (n j), W j x (k.σ r) ^ 2 := by
    intro r hr
    have := h.gram (W := W) j r r
    unfold Spec.gram at this
    rw [← sq, hd j r (mem_range.1 hr), one_mul] at this
    simp_rw [← sq] at this
    exact this
  rw [sum_congr rfl e]
  exact h.sum_perm (fun r => ∑ x ∈ range (n j), W j x r ^ 2)

/-! ## Runs -/

theorem mttkrp_tensor_congr {V V' : (Fin N → ℕ) → ℝ} (hV : ∀ idx ∈ Box m, V' idx = V idx) (W : Fin N → ℕ → ℕ → ℝ) (i : Fin N) :
    Spec.mttkrp m V' W i = Spec.mttkrp m V W i := by
  funext x r
  unfold Spec.mttkrp
  exact sum_congr rfl fun idx hidx => by rw [hV idx (mem_filter.1 hidx).1]

theorem alsFactor_congr {V V' : (Fin N → ℕ) → ℝ} {W W' : Fin N → ℕ → ℕ → ℝ} {solve : Solver ℝ} (hV : ∀ idx ∈ Box m, V' idx = V idx)
    (hW : FacEq m R W' W) : alsFactor m R lam solve V' W' i = alsFactor m R lam solve V W i := by
  unfold alsFactor
  rw [normalMat_congr hW, mttkrp_tensor_congr hV]
  congr 2
  funext x r
  unfold clip
  split_ifs with hx
  · exact mttkrp_congr (fun j _ y hy => hW j y hy r hx.2) x
  · rfl

theorem alsGrad_congr' {V V' : (Fin N → ℕ) → ℝ} {W W' : Fin N → ℕ → ℕ → ℝ} (hV : ∀ idx ∈ Box m, V' idx = V idx)
    (hW : FacEq m R W' W) : alsGrad m R lam V' W' i = alsGrad m R lam V W i := by
  rw [alsGrad_congr hW]
  unfold alsGrad
  rw [mttkrp_tensor_congr hV]

/-- A run of updates commutes with the change of coordinates; `good` says that the normal matrices along the run are positive
definite. -/
theorem Coord.Ok.run (h : k.Ok n m R) (hc : k.Compat R lam) {solve solve' : Solver ℝ} (hs : SolvesPosDef solve)
    (hs' : SolvesPosDef solve') {V' : (Fin N → ℕ) → ℝ} (hV : ∀ idx ∈ Box m, V' idx = k.tensor n V idx)
    (modes : List (Fin N)) (st st' : AlsState N ℝ) (h0 : FacEq m R st'.W (k.fac n st.W))
    (hg0 : ∀ j, ∀ x < m j, ∀ r < R, st'.G j x r = k.c * k.e j r * ∑ y ∈ range (n j), k.Q j x y * st.G j y (k.σ r))
    (good : ∀ l i, l <+: modes → PosDef R (Spec.normalMat n R lam (alsRun n R lam solve V l st).W i)) :
    FacEq m R (alsRun m R lam solve' V' modes st').W (k.fac n (alsRun n R lam solve V modes st).W) ∧
      ∀ j, ∀ x < m j, ∀ r < R, (alsRun m R lam solve' V' modes st').G j x r =
        k.c * k.e j r * ∑ y ∈ range (n j), k.Q j x y * (alsRun n R lam solve V modes st).G j y (k.σ r) := by
  induction modes using List.reverseRecOn with
  | nil => exact ⟨h0, hg0⟩
  | append_singleton l i ih =>
    obtain ⟨i1, i2⟩ := ih fun l' j hl => good l' j (hl.trans (List.prefix_append _ _))
    have hS := good l i (List.prefix_append _ _)
    rw [alsRun_append, alsRun_append]
    set a := alsRun n R lam solve V l st
    set b := alsRun m R lam solve' V' l st'
    have ea : alsRun n R lam solve V [i] a = alsUpdate n R lam solve V a i := rfl
    have eb : alsRun m R lam solve' V' [i] b = alsUpdate m R lam solve' V' b i := rfl
    rw [ea, eb]
    have hfac : ∀ x < m i, ∀ r < R, alsFactor m R lam solve' V' b.W i x r = k.one n i (alsFactor n R lam solve V a.W i) x r := by
      rw [alsFactor_congr hV i1]
      exact h.factor hc hs hs' hS
    have hgr : ∀ x < m i, ∀ r < R, alsGrad m R lam V' b.W i x r =
        k.c * k.e i r * ∑ y ∈ range (n i), k.Q i x y * alsGrad n R lam V a.W i y (k.σ r) := by
      intro x hx r hr
      rw [alsGrad_congr' hV i1]
      exact h.grad hc hx hr
    refine ⟨?_, ?_⟩
    · intro j x hx r hr
      by_cases hj : j = i
      · subst hj
        simp only [alsUpdate, Function.update_self, Coord.fac]
        exact hfac x hx r hr
      · simp only [alsUpdate, Function.update_of_ne hj, Coord.fac]
        exact i1 j x hx r hr
    · intro j x hx r hr
      by_cases hj : j = i
      · subst hj
        simp only [alsUpdate, Function.update_self]
        exact hgr x hx r hr
      · simp only [alsUpdate, Function.update_of_ne hj]
        exact i2 j x hx r hr

/-- The same for the factors alone. -/
theorem Coord.Ok.run_W (h : k.Ok n m R) (hc : k.Compat R lam) {solve solve' : Solver ℝ} (hs : SolvesPosDef solve)
    (hs' : SolvesPosDef solve') {V' : (Fin N → ℕ) → ℝ} (hV : ∀ idx ∈ Box m, V' idx = k.tensor n V idx)
    (modes : List (Fin N)) (st st' : AlsState N ℝ) (h0 : FacEq m R st'.W (k.fac n st.W))
    (good : ∀ l i, l <+: modes → PosDef R (Spec.normalMat n R lam (alsRun n R lam solve V l st).W i)) :
    FacEq m R (alsRun m R lam solve' V' modes st').W (k.fac n (alsRun n R lam solve V modes st).W) := by
  induction modes using List.reverseRecOn with
  | nil => exact h0
  | append_singleton l i ih =>
    have i1 := ih fun l' j hl => good l' j (hl.trans (List.prefix_append _ _))
    have hS := good l i (List.prefix_append _ _)
    rw [alsRun_append, alsRun_append]
    set a := alsRun n R lam solve V l st
    set b := alsRun m R lam solve' V' l st'
    have ea : alsRun n R lam solve V [i] a = alsUpdate n R lam solve V a i := rfl
    have eb : alsRun m R lam solve' V' [i] b = alsUpdate m R lam solve' V' b i := rfl
    rw [ea, eb]
    have hfac : ∀ x < m i, ∀ r < R, alsFactor m R lam solve' V' b.W i x r = k.one n i (alsFactor n R lam solve V a.W i) x r := by
      rw [alsFactor_congr hV i1]
      exact h.factor hc hs hs' hS
    intro j x hx r hr
    by_cases hj : j = i
    · subst hj
      simp only [alsUpdate, Function.update_self, Coord.fac]
      exact hfac x hx r hr
    · simp only [alsUpdate, Function.update_of_ne hj, Coord.fac]
      exact i1 j x hx r hr

end Spec
