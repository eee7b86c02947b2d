import Verif.Properties.PPError
import Verif.Properties.Converge
import Verif.Proofs.RoundObjective
import Verif.Properties.Fixed
import Verif.Properties.PPDriver

/-! # C83: pairwise-perturbation sweeps are monotone up to the error of the perturbation -/

namespace Properties

open Model Finset

variable {N : ℕ} {dims rk : Fin N → ℕ} {R : ℕ} {V : Tensor ℝ}

theorem mnorm_sq (n m : ℕ) (A : ℕ → ℕ → ℝ) : Spec.mnorm n m A ^ 2 = Spec.frob n m A A := by
  unfold Spec.mnorm Spec.frob
  rw [Real.sq_sqrt (sum_nonneg fun _ _ => sum_nonneg fun _ _ => sq_nonneg _)]
  exact sum_congr rfl fun x _ => sum_congr rfl fun r _ => sq _

theorem mnorm_nonneg (n m : ℕ) (A : ℕ → ℕ → ℝ) : 0 ≤ Spec.mnorm n m A := Real.sqrt_nonneg _

/-- The objective is a convex function of one factor. -/
theorem fullObj2_convex {lam t : ℝ} (hl : 0 ≤ lam) (h0 : 0 ≤ t) (h1 : t ≤ 1) (A : (Fin N → ℕ) → ℝ) (W : Fin N → ℕ → ℕ → ℝ) (i : Fin N)
    (X Y : ℕ → ℕ → ℝ) :
    Spec.fullObj2 dims R lam A (Function.update W i fun x r => X x r + t * (Y x r - X x r)) ≤
      (1 - t) * Spec.fullObj2 dims R lam A (Function.update W i X) + t * Spec.fullObj2 dims R lam A (Function.update W i Y) := by
  set Z : ℕ → ℕ → ℝ := fun x r => X x r + t * (Y x r - X x r) with hZ
  have key : ∀ B : ℕ → ℕ → ℝ, Spec.fullObj2 dims R lam A (Function.update W i Z) +
      2 * Spec.frob (dims i) R (Spec.alsGrad dims R lam A (Function.update W i Z) i) (fun x r => B x r - Z x r) ≤
      Spec.fullObj2 dims R lam A (Function.update W i B) := by
    intro B
    have e := Spec.modeObj2_expand (dims := dims) (R := R) (V := A) (W := Function.update W i Z) (i := i) lam (fun x r => B x r - Z x r)
    rw [Function.update_self, Function.update_idem] at e
    have hB : (fun x r => Z x r + (B x r - Z x r)) = B := by funext x r; ring
    rw [hB] at e
    rw [Spec.fullObj2_eq lam _ i, Spec.fullObj2_eq lam (Function.update W i B) i]
    have e3 : ∑ j ∈ univ.erase i, Spec.frob (dims j) R (Function.update W i Z j) (Function.update W i Z j) =
        ∑ j ∈ univ.erase i, Spec.frob (dims j) R (Function.update W i B j) (Function.update W i B j) :=
      sum_congr rfl fun j hj => by rw [Function.update_of_ne (ne_of_mem_erase hj), Function.update_of_ne (ne_of_mem_erase hj)]
    rw [e3, e]
    have q1 : 0 ≤ ∑ idx ∈ Spec.Box dims, Spec.modelChange R (Function.update W i Z) i (fun x r => B x r - Z x r) idx ^ 2 :=
      sum_nonneg fun _ _ => sq_nonneg _
    have q2 : 0 ≤ lam * Spec.frob (dims i) R (fun x r => B x r - Z x r) (fun x r => B x r - Z x r) :=
      mul_nonneg hl (by rw [← mnorm_sq]; exact sq_nonneg _)
    linarith
  have kX := mul_le_mul_of_nonneg_left (key X) (sub_nonneg.2 h1)
  have kY := mul_le_mul_of_nonneg_left (key Y) h0
  have hg : (1 - t) * Spec.frob (dims i) R (Spec.alsGrad dims R lam A (Function.update W i Z) i) (fun x r => X x r - Z x r) +
      t * Spec.frob (dims i) R (Spec.alsGrad dims R lam A (Function.update W i Z) i) (fun x r => Y x r - Z x r) = 0 := by
    unfold Spec.frob
    rw [mul_sum, mul_sum, ← sum_add_distrib]
    refine sum_eq_zero fun x _ => ?_
    rw [mul_sum, mul_sum, ← sum_add_distrib]
    refine sum_eq_zero fun r _ => ?_
    rw [hZ]
    ring
  linarith

/-- The effect of one update on the objective. -/
theorem PPStepSpec.objective (h2 : 2 ≤ N) {Winit : List (Tensor ℝ)} {s s' : PPState ℝ} {lam ratio : ℝ} (hl : 0 < lam) (hr0 : 0 ≤ ratio)
    (hr1 : ratio ≤ 1) {i : Fin N} (hp : PPStepSpec dims R V Winit lam ratio s s' i)
    (hW : ∀ j ≠ i, ∀ x < dims j, ∀ r < R, mats s.W j x r = mats Winit j x r + mats s.dW j x r)
    {e : Fin N → ℝ} (he0 : ∀ j ≠ i, 0 ≤ e j)
    (he : ∀ j ≠ i, Spec.mnorm (dims j) R (mats s.dW j) ≤ e j * Spec.mnorm (dims j) R (mats Winit j)) (Y : ℕ → ℕ → ℝ) :
    Spec.fullObj2 dims R lam (arr V N) (mats s'.W) ≤
      (1 - ratio) * Spec.fullObj2 dims R lam (arr V N) (Function.update (mats s.W) i (mats Winit i)) +
      ratio * (Spec.fullObj2 dims R lam (arr V N) (Function.update (mats s.W) i Y) +
        Spec.neglected dims R (arr V N) (mats Winit) e i ^ 2 / lam) := by
  obtain ⟨X, x1, x2⟩ := hp.solved
  have hF : Spec.fullObj2 dims R lam (arr V N) (mats s'.W) = Spec.fullObj2 dims R lam (arr V N)
      (Function.update (mats s.W) i fun x r => mats Winit i x r + ratio * (X x r - mats Winit i x r)) := by
    refine Spec.fullObj2_congr fun j x hx r hr => ?_
    by_cases h : j = i
    · subst h
      rw [Function.update_self, hp.disp x hx r hr, x2 x hx r hr]
    · rw [Function.update_of_ne h, hp.otherW j h]
  have hm : ∀ x r, r < R → Spec.mttkrp dims (arr V N) (Function.update (mats s.W) i X) i x r =
      Spec.mttkrp dims (arr V N) (Spec.displace (mats Winit) (mats s.dW)) i x r := by
    intro x r hr
    unfold Spec.mttkrp
    refine sum_congr rfl fun idx hidx => ?_
    congr 1
    refine prod_congr rfl fun j hj => ?_
    rw [Function.update_of_ne (ne_of_mem_erase hj)]
    exact hW j (ne_of_mem_erase hj) _ (Spec.mem_Box.1 (mem_filter.1 hidx).1 j) r hr
  have h1 := Spec.obj_le_of_grad (dims := dims) (R := R) (V := arr V N) (W := mats s.W) (i := i) hl X Y
  have h4 : Spec.frob (dims i) R (Spec.alsGrad dims R lam (arr V N) (Function.update (mats s.W) i X) i)
      (Spec.alsGrad dims R lam (arr V N) (Function.update (mats s.W) i X) i) ≤ Spec.neglected dims R (arr V N) (mats Winit) e i ^ 2 := by
    rw [← mnorm_sq]
    refine pow_le_pow_left₀ (mnorm_nonneg _ _ _) (le_trans (le_of_eq ?_) (pp_frob_bound h2 (arr V N) (mats Winit) (mats s.dW) i he0 he)) 2
    refine mnorm_congr fun x hx r hr => ?_
    unfold Spec.alsGrad Spec.clip
    rw [if_pos ⟨hx, hr⟩]
    beta_reduce
    rw [hm x r hr, Spec.normalMat_update, Function.update_self, x1 x hx r hr]
    ring
  rw [hF]
  refine (fullObj2_convex hl.le hr0 hr1 _ _ i _ _).trans (add_le_add le_rfl (mul_le_mul_of_nonneg_left ?_ hr0))
  exact h1.trans (add_le_add le_rfl (div_le_div_of_nonneg_right h4 hl.le))

/-- **C83 (CP, one update).** Orders 3..9, `lam > 0`, kernels satisfying their contract, nonempty modes, damping `0 <= ratio <= 1`, factors
`W = W_init + dW` with `‖dW_j‖ <= e_j ‖W_init,j‖`: a PP update of mode `i` succeeds, and with `ratio = 1` the regularised objective is then
at most the smallest value over all choices of factor `i` (in particular at most the old one) plus `B² / lam`, where `B` bounds the terms
neglected in the MTTKRP, so the possible increase is of fourth order in the displacements.  With damping, the bound is the mean of that and
of the objective for `W_init,i`. -/
theorem C83_cp_update (h3 : 3 ≤ N) (h9 : N ≤ 9) (same : Bool) {Winit : List (Tensor ℝ)} (hI : Shaped dims R V Winit) {s : PPState ℝ}
    (hs : PPShaped dims R V s) {lam ratio : ℝ} (hl : 0 < lam) (hr0 : 0 ≤ ratio) (hr1 : ratio ≤ 1) {kn : Kern ℝ} (hk : KernOk kn) (i : Fin N)
    (hd : ∀ j, 0 < dims j) (hW : ∀ j : Fin N, ∀ x < dims j, ∀ r < R, mats s.W j x r = mats Winit j x r + mats s.dW j x r)
    {e : Fin N → ℝ} (he0 : ∀ j ≠ i, 0 ≤ e j)
    (he : ∀ j ≠ i, Spec.mnorm (dims j) R (mats s.dW j) ≤ e j * Spec.mnorm (dims j) R (mats Winit j)) :
    ∃ ops s', ppOperators same N V Winit = .ok ops ∧ ppUpdate N R lam ratio kn ops Winit s i.1 = .ok s' ∧
      ∀ Y, Spec.fullObj2 dims R lam (arr V N) (mats s'.W) ≤
        (1 - ratio) * Spec.fullObj2 dims R lam (arr V N) (Function.update (mats s.W) i (mats Winit i)) +
        ratio * (Spec.fullObj2 dims R lam (arr V N) (Function.update (mats s.W) i Y) +
          Spec.neglected dims R (arr V N) (mats Winit) e i ^ 2 / lam) := by
  obtain ⟨ops, s', h1, h2, hp⟩ := C27_update h3 h9 same hI hs hl hk i hd (ratio := ratio)
  exact ⟨ops, s', h1, h2, hp.objective (by omega) hl hr0 hr1 (fun j _ => hW j) he0 he⟩

/-- The updates of a sweep whose modes are undamped or not yet displaced. -/
theorem ppUpdates_objective (h2 : 2 ≤ N) {Winit : List (Tensor ℝ)} {ops : Cache ℝ} (ho : PPOps dims R V Winit ops) (hI : Shaped dims R V Winit)
    {s : PPState ℝ} (hs : PPShaped dims R V s) {lam ratio : ℝ} (hl : 0 < lam) (hr0 : 0 ≤ ratio) (hr1 : ratio ≤ 1) {kn : Kern ℝ}
    (hk : KernOk kn) (hd : ∀ j, 0 < dims j)
    (hW : ∀ j : Fin N, ∀ x < dims j, ∀ r < R, mats s.W j x r = mats Winit j x r + mats s.dW j x r)
    (hz : ratio = 1 ∨ ∀ j : Fin N, ∀ x < dims j, ∀ r < R, mats s.dW j x r = 0) :
    ∃ s', ppUpdates N R lam ratio kn ops Winit s = .ok s' ∧ PPShaped dims R V s' ∧
      (∀ j : Fin N, ∀ x < dims j, ∀ r < R, mats s'.W j x r = mats Winit j x r + mats s'.dW j x r) ∧
      ∀ e : Fin N → ℝ, (∀ j, 0 ≤ e j) →
        (∀ j : Fin N, Spec.mnorm (dims j) R (mats s.dW j) ≤ e j * Spec.mnorm (dims j) R (mats Winit j)) →
        (∀ j : Fin N, Spec.mnorm (dims j) R (mats s'.dW j) ≤ e j * Spec.mnorm (dims j) R (mats Winit j)) →
        Spec.fullObj2 dims R lam (arr V N) (mats s'.W) ≤ Spec.fullObj2 dims R lam (arr V N) (mats s.W) +
          ratio * ∑ i, Spec.neglected dims R (arr V N) (mats Winit) e i ^ 2 / lam := by
  obtain ⟨s', h1, h4, h5, h6, h7⟩ := foldlM_range'_inv (s := 0) (n := N) (a := s)
    (f := ppUpdate N R lam ratio kn ops Winit)
    (P := fun n (t : PPState ℝ) => PPShaped dims R V t ∧
      (∀ j : Fin N, ∀ x < dims j, ∀ r < R, mats t.W j x r = mats Winit j x r + mats t.dW j x r) ∧
      (∀ j : Fin N, n ≤ j.1 → (mats t.dW j : ℕ → ℕ → ℝ) = mats s.dW j) ∧
      ∀ e : Fin N → ℝ, (∀ j, 0 ≤ e j) →
        (∀ j : Fin N, Spec.mnorm (dims j) R (mats s.dW j) ≤ e j * Spec.mnorm (dims j) R (mats Winit j)) →
        (∀ j : Fin N, Spec.mnorm (dims j) R (mats t.dW j) ≤ e j * Spec.mnorm (dims j) R (mats Winit j)) →
        Spec.fullObj2 dims R lam (arr V N) (mats t.W) ≤ Spec.fullObj2 dims R lam (arr V N) (mats s.W) +
          ratio * ∑ i ∈ univ.filter (fun i : Fin N => i.1 < n), Spec.neglected dims R (arr V N) (mats Winit) e i ^ 2 / lam)
    ⟨hs, hW, fun _ _ => rfl, fun e _ _ _ => by simp⟩ (by
      rintro n t - hn ⟨a1, a2, a3, a4⟩
      have hn' : n < N := by omega
      obtain ⟨t', b1, b2⟩ := ppUpdate_ok h2 ho hI a1 hk ⟨n, hn'⟩ (Spec.normalMat_posDef hl (hd _)) (ratio := ratio)
      refine ⟨t', b1, b2.shaped, fun j x hx r hr => ?_, fun j hj => ?_, fun e e0 e1 e2 => ?_⟩
      · by_cases h : j = ⟨n, hn'⟩
        · rw [h] at hx ⊢
          exact b2.disp x hx r hr
        · rw [b2.otherW j h, b2.otherD j h]
          exact a2 j x hx r hr
      · have hj' : j ≠ ⟨n, hn'⟩ := fun h => by rw [h] at hj; simp only at hj; omega
        rw [b2.otherD j hj']
        exact a3 j (by omega)
      · have e3 : ∀ j : Fin N, Spec.mnorm (dims j) R (mats t.dW j) ≤ e j * Spec.mnorm (dims j) R (mats Winit j) := by
          intro j
          by_cases h : j = ⟨n, hn'⟩
          · rw [h, a3 _ le_rfl]
            exact e1 _
          · rw [← b2.otherD j h]
            exact e2 j
        have ih := a4 e e0 e1 e3
        have hb := b2.objective h2 hl hr0 hr1 (fun j _ => a2 j) (fun j _ => e0 j) (fun j _ => e3 j) (mats t.W ⟨n, hn'⟩)
        rw [Function.update_eq_self] at hb
        have hA : (1 - ratio) * Spec.fullObj2 dims R lam (arr V N) (Function.update (mats t.W) ⟨n, hn'⟩ (mats Winit ⟨n, hn'⟩)) =
            (1 - ratio) * Spec.fullObj2 dims R lam (arr V N) (mats t.W) := by
          rcases hz with hz | hz
          · rw [hz]; ring
          · congr 1
            refine Spec.fullObj2_congr fun j x hx r hr => ?_
            by_cases h : j = ⟨n, hn'⟩
            · subst h
              rw [Function.update_self, a2 _ x hx r hr, a3 _ le_rfl, hz _ x hx r hr, add_zero]
            · rw [Function.update_of_ne h]
        rw [hA] at hb
        have hset : univ.filter (fun i : Fin N => i.1 < n + 1) = insert ⟨n, hn'⟩ (univ.filter fun i : Fin N => i.1 < n) := by
          ext j
          simp only [mem_filter, mem_univ, true_and, mem_insert, Fin.ext_iff]
          omega
        rw [Nat.zero_add] at *
        rw [hset, sum_insert (by simp)]
        linarith)
  refine ⟨s', ?_, h4, h5, fun e e0 e1 e2 => ?_⟩
  · unfold ppUpdates
    rw [List.range_eq_range']
    exact h1
  · have := h7 e e0 e1 e2
    rwa [filter_true_of_mem fun j _ => by have := j.2; omega] at this

/-- **C83 (CP, the first sweep of a phase).** Orders 3..9, `lam > 0`, kernels satisfying their contract, nonempty modes, any damping
`0 <= ratio <= 1`, any factors `W`: the updates of the first sweep of a PP phase (`W_init = W`, `dW = 0`) succeed, and for all `e_j >= 0`
with `‖dW_j‖ <= e_j ‖W_j‖` for the displacements the sweep ends with, they increase the regularised objective by at most
`ratio ∑_i B_i² / lam`, `B_i` as in the update; the `Normalize` that follows does not increase it if no factor became zero. -/
theorem C83_cp_sweep (h3 : 3 ≤ N) (h9 : N ≤ 9) (same : Bool) {W G : List (Tensor ℝ)} (hS : Shaped dims R V W) (hG : G.length = N)
    {lam ratio : ℝ} (hl : 0 < lam) (hr0 : 0 ≤ ratio) (hr1 : ratio ≤ 1) {kn : Kern ℝ} (hk : KernOk kn) (hd : ∀ j, 0 < dims j) :
    ∃ ops s1, ppOperators same N V W = .ok ops ∧ ppUpdates N R lam ratio kn ops W ⟨W, G, W.map zerosLike⟩ = .ok s1 ∧
      PPShaped dims R V s1 ∧ ∀ e : Fin N → ℝ, (∀ j, 0 ≤ e j) →
        (∀ j : Fin N, Spec.mnorm (dims j) R (mats s1.dW j) ≤ e j * Spec.mnorm (dims j) R (mats W j)) →
        Spec.fullObj2 dims R lam (arr V N) (mats s1.W) ≤ Spec.fullObj2 dims R lam (arr V N) (mats W) +
          ratio * ∑ i, Spec.neglected dims R (arr V N) (mats W) e i ^ 2 / lam ∧
        ((∀ j : Fin N, Spec.mnorm (dims j) R (mats s1.W j) ≠ 0) →
          ∃ s', ppSweep N R lam ratio kn ops W ⟨W, G, W.map zerosLike⟩ = .ok s' ∧
            Spec.fullObj2 dims R lam (arr V N) (mats s'.W) ≤ Spec.fullObj2 dims R lam (arr V N) (mats W) +
              ratio * ∑ i, Spec.neglected dims R (arr V N) (mats W) e i ^ 2 / lam) := by
  obtain ⟨ops, h1, ho⟩ := ppOperators_ok h3 h9 same hS
  have hz : ∀ j : Fin N, ∀ x r, mats (W.map zerosLike) j x r = 0 := by
    intro j x r
    simp only [mats, List.getElem?_map]
    cases W[j.1]? <;> simp [mat, zerosLike]
  obtain ⟨s1, b1, b2, b3, b4⟩ := ppUpdates_objective (s := ⟨W, G, W.map zerosLike⟩) (by omega) ho hS ⟨hS, hG, zeros_shape hS⟩ hl hr0 hr1 hk hd
    (fun j x _ r _ => by simp only; rw [hz, add_zero]) (Or.inr fun j x _ r _ => hz j x r)
  refine ⟨ops, s1, h1, b1, b2, fun e e0 e1 => ?_⟩
  have hb := b4 e e0 (fun j => by
    refine le_trans (le_of_eq ?_) (mul_nonneg (e0 j) (mnorm_nonneg _ _ _))
    simp only
    unfold Spec.mnorm
    simp [hz]) e1
  refine ⟨hb, fun hne => ?_⟩
  obtain ⟨W', w1, _, w3⟩ := C65_normalize_objective (by omega) b2.W hne hl.le
  refine ⟨⟨W', s1.G, s1.dW⟩, ?_, w3.trans hb⟩
  unfold ppSweep
  simp only [bind, Except.bind]
  rw [b1]
  simp only
  rw [w1]
  rfl

/-! ## Tucker -/

theorem tnorm_nonneg (lens : Fin N → ℕ) (A : (Fin N → ℕ) → ℝ) : 0 ≤ Spec.tnorm lens A := Real.sqrt_nonneg _

theorem tnorm_add_le (lens : Fin N → ℕ) (A B : (Fin N → ℕ) → ℝ) :
    Spec.tnorm lens (fun z => A z + B z) ≤ Spec.tnorm lens A + Spec.tnorm lens B := l2_add _ _ _

theorem tnorm_neg (lens : Fin N → ℕ) (A B : (Fin N → ℕ) → ℝ) :
    Spec.tnorm lens (fun z => A z - B z) = Spec.tnorm lens (fun z => B z - A z) := by
  unfold Spec.tnorm
  congr 1
  exact sum_congr rfl fun z _ => by ring

/-- Multiplying with orthonormal columns does not enlarge the norm. -/
theorem tnorm_ttm1_le (i : Fin N) {B : ℕ → ℕ → ℝ} (hB : Spec.Orthonormal (dims i) (rk i) B) (A : (Fin N → ℕ) → ℝ) :
    Spec.tnorm rk (Spec.ttm1 (dims i) A i B) ≤ Spec.tnorm (Spec.ttmShape dims rk {i}) A := by
  have h := sumSq_pyth (Spec.ttmShape dims rk {i}) A i (m := rk i) (B := B) (by simpa [Spec.ttmShape] using hB)
  have e1 : Function.update (Spec.ttmShape dims rk {i}) i (rk i) = rk := by
    funext j
    by_cases h : j = i
    · subst h; simp
    · simp [Function.update_of_ne h, Spec.ttmShape, h]
  rw [e1] at h
  have e2 : ttmVal (Spec.ttmShape dims rk {i}) A i B = Spec.ttm1 (dims i) A i B := by
    funext z
    simp [ttmVal, Spec.ttm1, Spec.ttmShape]
  rw [e2] at h
  refine Real.sqrt_le_sqrt ?_
  change Spec.sumSq rk _ ≤ Spec.sumSq _ _
  rw [h]
  have := sumSq_nonneg (Spec.ttmShape dims rk {i}) (ttmVal (Spec.ttmShape dims rk {i}) A i (orthQ (rk i) B))
  linarith

theorem coreNorm_ttm1 (A : (Fin N → ℕ) → ℝ) (W : Fin N → ℕ → ℕ → ℝ) (i : Fin N) :
    Spec.coreNorm dims rk A W = Spec.tnorm rk (Spec.ttm1 (dims i) (Spec.multiTTM dims A W {i}) i (W i)) := by
  unfold Spec.coreNorm
  refine tnorm_congr fun z _ => ?_
  have := ttmVal_multiTTM (dims := dims) (rk := rk) (V := A) (W := W) (mem_singleton_self i) (z := z)
  simp [ttmVal, klens] at this
  unfold Spec.ttm1
  exact this.symm

/-- The effect of one update of a Tucker PP phase on the norm of the core. -/
theorem tpp_coreNorm {Winit W dW W' dW' : List (Tensor ℝ)} {i : Fin N} (h : TPPStep dims rk V Winit W dW W' dW' i)
    (hO : ∀ j : Fin N, Spec.Orthonormal (dims j) (rk j) (mats Winit j))
    (hd : ∀ j ≠ i, ∀ x < dims j, ∀ r < rk j, mats dW j x r = mats W j x r - mats Winit j x r) {B : ℕ → ℕ → ℝ}
    (hB : Spec.Orthonormal (dims i) (rk i) B) :
    Spec.coreNorm dims rk (arr V N) (Function.update (mats W) i B) ≤ Spec.coreNorm dims rk (arr V N) (mats W') +
      2 * (Spec.tnorm dims (arr V N) * Spec.tail2 (fun j => Spec.mnorm (dims j) (rk j) (mats dW j)) i) := by
  set P := Spec.ppTTM dims (arr V N) (mats Winit) (mats dW) i with hP
  set E := Spec.multiTTM dims (arr V N) (mats W) {i} with hE
  have hx : ∀ U : Fin N → ℕ → ℕ → ℝ, (∀ j ≠ i, U j = mats W j) → Spec.coreNorm dims rk (arr V N) U = Spec.tnorm rk (Spec.ttm1 (dims i) E i (U i)) := by
    intro U hU
    rw [coreNorm_ttm1 _ _ i, multiTTM_single_congr (W' := mats W) hU]
  rw [hx _ fun j hj => Function.update_of_ne hj _ _, Function.update_self, hx _ fun j hj => h.otherW j hj]
  have hdl : Spec.tnorm (Spec.ttmShape dims rk {i}) (fun z => E z - P z) ≤
      Spec.tnorm dims (arr V N) * Spec.tail2 (fun j => Spec.mnorm (dims j) (rk j) (mats dW j)) i := by
    have h1 := ttm_mix_l2 (arr V N) (D := mats dW) i hO
    refine le_trans (le_of_eq (tnorm_congr fun z hz => ?_)) (h1.trans (le_of_eq ?_))
    · rw [hE, hP]
      congr 1
      unfold Spec.multiTTM
      refine sum_congr rfl fun idx hidx => ?_
      congr 1
      refine prod_congr rfl fun j hj => ?_
      have hji : j ≠ i := by simpa using hj
      have hj' : z j < rk j := by
        have := hz j
        unfold Spec.ttmShape at this
        rwa [if_neg (by simpa using hj)] at this
      unfold Spec.displace
      rw [hd j hji _ (Spec.mem_Box.1 (mem_filter.1 hidx).1 j) _ hj']
      ring
    · unfold Spec.tail2
      simp only [mnorm_l2]
      rfl
  have lin : ∀ A A' : (Fin N → ℕ) → ℝ, ∀ C : ℕ → ℕ → ℝ, Spec.Orthonormal (dims i) (rk i) C → Spec.tnorm rk (Spec.ttm1 (dims i) A i C) ≤
      Spec.tnorm rk (Spec.ttm1 (dims i) A' i C) + Spec.tnorm (Spec.ttmShape dims rk {i}) (fun z => A z - A' z) := by
    intro A A' C hC
    have e : Spec.ttm1 (dims i) A i C = fun z => Spec.ttm1 (dims i) A' i C z + Spec.ttm1 (dims i) (fun z => A z - A' z) i C z := by
      funext z
      unfold Spec.ttm1
      rw [← sum_add_distrib]
      exact sum_congr rfl fun x _ => by ring
    rw [e]
    exact (tnorm_add_le _ _ _).trans (add_le_add le_rfl (tnorm_ttm1_le i hC _))
  have k1 := lin E P B hB
  have k2 := lin P E (mats W' i) h.ortho
  rw [tnorm_neg _ P E] at k2
  have k3 : Spec.tnorm rk (Spec.ttm1 (dims i) P i B) ≤ Spec.tnorm rk (Spec.ttm1 (dims i) P i (mats W' i)) := Real.sqrt_le_sqrt (h.best B hB)
  linarith

/-- **C83 (Tucker, one update).** Orders 3..9, an SVD satisfying its contract, orthonormal `W_init`, factors `W = W_init + dW` with
orthonormal columns: a PP update of mode `i` succeeds, and the norm of the exact core is then at most `2 B` below its largest value over all
orthonormal choices of factor `i` (in particular at most `2 B` below the old one), `B = ‖V‖ (∏_{j≠i} (1 + ‖dW_j‖) - 1 - ∑_{j≠i} ‖dW_j‖)`, of
second order in the displacements. -/
theorem C83_tucker_update (h3 : 3 ≤ N) (h9 : N ≤ 9) (hr : ∀ j, rk j ≤ dims j) {Winit W dW : List (Tensor ℝ)} (hS : TuckShaped dims rk V Winit)
    (hW : TuckShaped dims rk V W) (hD : TuckShaped dims rk V dW) (hO : ∀ j : Fin N, Spec.Orthonormal (dims j) (rk j) (mats Winit j))
    (hd : ∀ j : Fin N, ∀ x < dims j, ∀ r < rk j, mats dW j x r = mats W j x r - mats Winit j x r)
    {k : Kern ℝ} (hl : SvdLeading k) (i : Fin N) (Ye : Tensor ℝ) :
    ∃ ops W' dW' Ye', tuckOperators N V Winit = .ok ops ∧
      tuckPPUpdate N k (List.ofFn rk) ops Winit (W, dW, Ye) i.1 = .ok (W', dW', Ye') ∧
      Spec.Orthonormal (dims i) (rk i) (mats W' i) ∧ (∀ j, j ≠ i → mats (N := N) W' j = mats W j) ∧
      ∀ B, Spec.Orthonormal (dims i) (rk i) B →
        Spec.coreNorm dims rk (arr V N) (Function.update (mats W) i B) - 2 * (Spec.tnorm dims (arr V N) *
          Spec.tail2 (fun j => Spec.mnorm (dims j) (rk j) (mats dW j)) i) ≤ Spec.coreNorm dims rk (arr V N) (mats W') := by
  obtain ⟨ops, h1, h2⟩ := tuckOperators_ok h3 h9 hS
  obtain ⟨s', a, b, _⟩ := tuckPPUpdate_ok (by omega) hr h2 hS (s := (W, dW, Ye)) hW hD hl i
  refine ⟨ops, s'.1, s'.2.1, s'.2.2, h1, a, b.ortho, b.otherW, fun B hB => ?_⟩
  have := tpp_coreNorm b hO (fun j _ => hd j) hB
  linarith

/-- **C83 (Tucker, a sweep).** Under the same hypotheses a whole PP sweep succeeds, keeps `W = W_init + dW` and the orthonormal columns, and
for all `e_j` with `‖dW_j‖ <= e_j` for the displacements before and after it, the norm of the exact core drops by at most
`2 ‖V‖ ∑_i (∏_{j≠i} (1 + e_j) - 1 - ∑_{j≠i} e_j)`. -/
theorem C83_tucker_sweep (h3 : 3 ≤ N) (h9 : N ≤ 9) (hr : ∀ j, rk j ≤ dims j) {Winit W dW : List (Tensor ℝ)} (hS : TuckShaped dims rk V Winit)
    (hW : TuckShaped dims rk V W) (hD : TuckShaped dims rk V dW) (hO : ∀ j : Fin N, Spec.Orthonormal (dims j) (rk j) (mats Winit j))
    (hWO : ∀ j : Fin N, Spec.Orthonormal (dims j) (rk j) (mats W j))
    (hd : ∀ j : Fin N, ∀ x < dims j, ∀ r < rk j, mats dW j x r = mats W j x r - mats Winit j x r) {k : Kern ℝ} (hl : SvdLeading k) :
    ∃ ops W' dW' C, tuckOperators N V Winit = .ok ops ∧
      tuckPPSweep N k (List.ofFn rk) ops Winit W dW = .ok (W', dW', C) ∧ PhaseInv dims rk V Winit W' dW' ∧
      ∀ e : Fin N → ℝ, (∀ j : Fin N, Spec.mnorm (dims j) (rk j) (mats dW j) ≤ e j) →
        (∀ j : Fin N, Spec.mnorm (dims j) (rk j) (mats dW' j) ≤ e j) →
        Spec.coreNorm dims rk (arr V N) (mats W) - 2 * (Spec.tnorm dims (arr V N) * ∑ i, Spec.tail2 e i) ≤
          Spec.coreNorm dims rk (arr V N) (mats W') := by
  obtain ⟨ops0, W0, dW0, C0, g1, g2, g3, _⟩ := C36_sweep h3 h9 hr hS hW hD hl ⟨N - 1, by omega⟩ rfl
  obtain ⟨ops, h1, h2⟩ := tuckOperators_ok h3 h9 hS
  obtain ⟨st, C, s1, s2, s3, s4, _⟩ := tuckPPSweep_ok (by omega) ⟨N - 1, by omega⟩ rfl hr h2 hS hW hD hl
  rw [h1] at g1
  cases g1
  have g2' := g2
  rw [s1] at g2'
  obtain ⟨rfl, rfl, rfl⟩ : (st N).1 = W0 ∧ (st N).2 = dW0 ∧ C = C0 := by
    have := Except.ok.inj g2'
    simp only [Prod.mk.injEq] at this
    exact this
  refine ⟨ops0, _, _, _, h1, s1, g3, fun e e1 e2 => ?_⟩
  have hlater : ∀ m n, m ≤ n → n ≤ N → ∀ j : Fin N, (j.1 < m ∨ n ≤ j.1) →
      mats (N := N) (st n).1 j = mats (st m).1 j ∧ mats (N := N) (st n).2 j = mats (st m).2 j := by
    intro m n hmn
    induction n, hmn using Nat.le_induction with
    | base => intro _ j _; exact ⟨rfl, rfl⟩
    | succ n hmn ih =>
      intro hn j hj
      have hs := s3 ⟨n, by omega⟩
      have hj' : j ≠ ⟨n, by omega⟩ := fun h => by rw [h] at hj; simp only at hj; omega
      have h0 := ih (by omega) j (by omega)
      simp only at hs
      exact ⟨(hs.otherW j hj').trans h0.1, (hs.otherD j hj').trans h0.2⟩
  have hmid : ∀ n ≤ N, ∀ j : Fin N, (mats (N := N) (st n).1 j = mats W j ∧ mats (N := N) (st n).2 j = mats dW j) ∨
      (mats (N := N) (st n).1 j = mats (st N).1 j ∧ mats (N := N) (st n).2 j = mats (st N).2 j) := by
    intro n hn j
    by_cases h : j.1 < n
    · right
      have := hlater n N hn le_rfl j (Or.inl h)
      exact ⟨this.1.symm, this.2.symm⟩
    · left
      have := hlater 0 n (by omega) hn j (Or.inr (by omega))
      rw [s2] at this
      exact this
  have hdn : ∀ n ≤ N, ∀ j : Fin N, (∀ x < dims j, ∀ r < rk j, mats (st n).2 j x r = mats (st n).1 j x r - mats Winit j x r) ∧
      Spec.mnorm (dims j) (rk j) (mats (st n).2 j) ≤ e j ∧ Spec.Orthonormal (dims j) (rk j) (mats (st n).1 j) := by
    intro n hn j
    rcases hmid n hn j with h | h
    · rw [h.1, h.2]
      exact ⟨hd j, e1 j, hWO j⟩
    · rw [h.1, h.2]
      exact ⟨g3.disp j, e2 j, g3.ortho j⟩
  have key : ∀ n ≤ N, Spec.coreNorm dims rk (arr V N) (mats W) ≤ Spec.coreNorm dims rk (arr V N) (mats (st n).1) +
      2 * (Spec.tnorm dims (arr V N) * ∑ i ∈ univ.filter (fun i : Fin N => i.1 < n), Spec.tail2 e i) := by
    intro n
    induction n with
    | zero =>
      intro _
      rw [s2]
      simp
    | succ n ih =>
      intro hn
      have hs := s3 ⟨n, by omega⟩
      simp only at hs
      have h0 := ih (by omega)
      have h1 := tpp_coreNorm hs hO (fun j _ => (hdn n (by omega) j).1) (hdn n (by omega) _).2.2
      rw [Function.update_eq_self] at h1
      have h2 := tail2_mono (fun j => mnorm_nonneg (dims j) (rk j) (mats (st n).2 j)) (fun j => (hdn n (by omega) j).2.1) (⟨n, by omega⟩ : Fin N)
      have h3 := mul_le_mul_of_nonneg_left h2 (tnorm_nonneg dims (arr V N))
      have hset : univ.filter (fun i : Fin N => i.1 < n + 1) = insert ⟨n, by omega⟩ (univ.filter fun i : Fin N => i.1 < n) := by
        ext j
        simp only [mem_filter, mem_univ, true_and, mem_insert, Fin.ext_iff]
        omega
      rw [hset, sum_insert (by simp), mul_add]
      linarith
  have := key N le_rfl
  rw [filter_true_of_mem fun j _ => by have := j.2; omega] at this
  linarith

/-- **C83 (Tucker, a phase).** Any number of PP sweeps from `W = W_init` (orthonormal): if the displacements are at most `e_j` after each of the
first `n` sweeps, the norm of the exact core after them is at least its norm at the start minus
`2 n ‖V‖ ∑_i (∏_{j≠i} (1 + e_j) - 1 - ∑_{j≠i} e_j)`. -/
theorem C83_tucker_phase (h3 : 3 ≤ N) (h9 : N ≤ 9) (hr : ∀ j, rk j ≤ dims j) {W : List (Tensor ℝ)} (hS : TuckShaped dims rk V W)
    (hO : ∀ j : Fin N, Spec.Orthonormal (dims j) (rk j) (mats W j)) {k : Kern ℝ} (hl : SvdLeading k) :
    ∃ ops, tuckOperators N V W = .ok ops ∧ ∃ (Ws dWs : ℕ → List (Tensor ℝ)), Ws 0 = W ∧
      (∀ n, iterM (fun s : List (Tensor ℝ) × List (Tensor ℝ) => do
        let r ← tuckPPSweep N k (List.ofFn rk) ops W s.1 s.2
        pure (r.1, r.2.1)) n (W, W.map zerosLike) = .ok (Ws n, dWs n)) ∧
      ∀ n, ∀ e : Fin N → ℝ, (∀ j, 0 ≤ e j) → (∀ m, 1 ≤ m → m ≤ n → ∀ j : Fin N, Spec.mnorm (dims j) (rk j) (mats (dWs m) j) ≤ e j) →
        Spec.coreNorm dims rk (arr V N) (mats W) - n * (2 * (Spec.tnorm dims (arr V N) * ∑ i, Spec.tail2 e i)) ≤
          Spec.coreNorm dims rk (arr V N) (mats (Ws n)) := by
  obtain ⟨ops, h1, -⟩ := tuckOperators_ok h3 h9 hS
  have hz : ∀ j : Fin N, ∀ x r, mats (W.map zerosLike) j x r = 0 := by
    intro j x r
    simp only [mats, List.getElem?_map]
    cases W[j.1]? <;> simp [mat, zerosLike]
  obtain ⟨f, w1, w2, w3⟩ := iterM_seq (s := (W, W.map zerosLike))
    (step := fun s : List (Tensor ℝ) × List (Tensor ℝ) => do
        let r ← tuckPPSweep N k (List.ofFn rk) ops W s.1 s.2
        pure (r.1, r.2.1))
    (P := fun s => TuckShaped dims rk V s.1 ∧ TuckShaped dims rk V s.2 ∧ (∀ j : Fin N, Spec.Orthonormal (dims j) (rk j) (mats s.1 j)) ∧
      ∀ j : Fin N, ∀ x < dims j, ∀ r < rk j, mats s.2 j x r = mats s.1 j x r - mats W j x r)
    (R := fun a b => ∀ e : Fin N → ℝ, (∀ j : Fin N, Spec.mnorm (dims j) (rk j) (mats a.2 j) ≤ e j) →
        (∀ j : Fin N, Spec.mnorm (dims j) (rk j) (mats b.2 j) ≤ e j) →
        Spec.coreNorm dims rk (arr V N) (mats a.1) - 2 * (Spec.tnorm dims (arr V N) * ∑ i, Spec.tail2 e i) ≤
          Spec.coreNorm dims rk (arr V N) (mats b.1)) (by
      rintro ⟨w, d⟩ ⟨hw, hd, ho, hdd⟩
      obtain ⟨ops', W', dW', C, a, b, c, q⟩ := C83_tucker_sweep h3 h9 hr hS hw hd hO ho hdd hl
      rw [h1] at a
      cases a
      refine ⟨(W', dW'), ?_, ⟨c.shW, c.shD, c.ortho, c.disp⟩, q⟩
      simp only [bind, Except.bind, pure, Except.pure]
      rw [b]) ⟨hS, ⟨hS.lensV, by simp [hS.count], fun j M hM => by
        rw [List.getElem?_map] at hM
        cases hj : W[j.1]? with
        | none => rw [hj] at hM; cases hM
        | some T =>
          rw [hj] at hM
          cases hM
          exact hS.lensW j T hj⟩, hO, fun j x _ r _ => by simp only; rw [hz, sub_self]⟩
  refine ⟨ops, h1, fun n => (f n).1, fun n => (f n).2, by simp [w1], w2, fun n => ?_⟩
  induction n with
  | zero =>
    intro e _ _
    simp [w1]
  | succ n ih =>
    intro e e0 e1
    have h0 := ih e e0 fun m hm hn => e1 m hm (by omega)
    have hs := (w3 n).2 e (fun j => by
      rcases Nat.eq_zero_or_pos n with rfl | hn
      · rw [w1]
        refine le_trans (le_of_eq ?_) (e0 j)
        unfold Spec.mnorm
        simp [hz]
      · exact e1 n hn (by omega) j) (fun j => e1 (n + 1) (by omega) le_rfl j)
    push_cast
    linarith

/-! ## Non-vacuity -/

/-- A first sweep with damping 1/2: displacements never larger than some multiple of the factors, so the bound applies. -/
example : ∃ kn ops s1, ppOperators true 4 exVR exFacR.W = .ok ops ∧
    ppUpdates 4 2 (1 / 3) (1 / 2) kn ops exFacR.W ⟨exFacR.W, exGR, exFacR.W.map zerosLike⟩ = .ok s1 ∧
    ∃ e : Fin 4 → ℝ, Spec.fullObj2 (N := 4) ![2, 3, 1, 4] 2 (1 / 3) (arr exVR 4) (mats s1.W) ≤
      Spec.fullObj2 (N := 4) ![2, 3, 1, 4] 2 (1 / 3) (arr exVR 4) (mats exFacR.W) +
        1 / 2 * ∑ i, Spec.neglected (N := 4) ![2, 3, 1, 4] 2 (arr exVR 4) (mats exFacR.W) e i ^ 2 / (1 / 3) := by
  obtain ⟨kn, hk⟩ := exists_kernOk
  obtain ⟨ops, s1, h1, h2, _, h4⟩ := C83_cp_sweep (N := 4) (R := 2) (V := exVR) (dims := ![2, 3, 1, 4]) (by norm_num) (by norm_num) true
    exShapedR (G := exGR) rfl (lam := 1 / 3) (ratio := 1 / 2) (by norm_num) (by norm_num) (by norm_num) hk
    (fun j => by fin_cases j <;> norm_num)
  refine ⟨kn, ops, s1, h1, h2, ?_⟩
  have hpos : ∀ j : Fin 4, 0 < Spec.mnorm ((![2, 3, 1, 4] : Fin 4 → ℕ) j) 2 (mats exFacR.W j) := by
    intro j
    refine Real.sqrt_pos.2 ?_
    fin_cases j <;> simp [mats, mat, exFacR, sum_range_succ] <;> norm_num
  exact ⟨fun j => Spec.mnorm ((![2, 3, 1, 4] : Fin 4 → ℕ) j) 2 (mats s1.dW j) / Spec.mnorm ((![2, 3, 1, 4] : Fin 4 → ℕ) j) 2 (mats exFacR.W j),
    (h4 _ (fun j => div_nonneg (mnorm_nonneg _ _ _) (mnorm_nonneg _ _ _)) (fun j => by rw [div_mul_cancel₀ _ (hpos j).ne'])).1⟩

/-- A phase of seven sweeps from the factors of `hosvd`; the displacements of orthonormal factors are bounded in any case. -/
example : ∃ kn C F ops Ws dWs, hosvd kn exTuckV [1, 2, 1, 3] = .ok (C, F) ∧ tuckOperators 4 exTuckV F = .ok ops ∧
    iterM (fun s : List (Tensor ℝ) × List (Tensor ℝ) => do
      let r ← tuckPPSweep 4 kn [1, 2, 1, 3] ops F s.1 s.2
      pure (r.1, r.2.1)) 7 (F, F.map zerosLike) = .ok (Ws, dWs) ∧ ∃ e : Fin 4 → ℝ,
    Spec.coreNorm (N := 4) ![2, 3, 1, 4] ![1, 2, 1, 3] (arr exTuckV 4) (mats F) -
        7 * (2 * (Spec.tnorm (N := 4) ![2, 3, 1, 4] (arr exTuckV 4) * ∑ i, Spec.tail2 e i)) ≤
      Spec.coreNorm (N := 4) ![2, 3, 1, 4] ![1, 2, 1, 3] (arr exTuckV 4) (mats Ws) := by
  obtain ⟨kn, hl, hk⟩ := exists_svdLeading
  obtain ⟨C, F, h1, h2, _, h4, -⟩ := C69_hosvd (N := 4) (V := exTuckV) (dims := ![2, 3, 1, 4]) (rk := ![1, 2, 1, 3]) (by norm_num) (by norm_num)
    rfl exTuckRank hk hl
  obtain ⟨ops, o1, Ws, dWs, _, p2, p3⟩ := C83_tucker_phase (by norm_num) (by norm_num) exTuckRank h2 h4 hl
  refine ⟨kn, C, F, ops, Ws 7, dWs 7, h1, o1, p2 7, fun j => ∑ m ∈ range 8,
    Spec.mnorm ((![2, 3, 1, 4] : Fin 4 → ℕ) j) ((![1, 2, 1, 3] : Fin 4 → ℕ) j) (mats (dWs m) j), ?_⟩
  have := p3 7 (fun j => ∑ m ∈ range 8, Spec.mnorm ((![2, 3, 1, 4] : Fin 4 → ℕ) j) ((![1, 2, 1, 3] : Fin 4 → ℕ) j) (mats (dWs m) j))
    (fun j => sum_nonneg fun _ _ => mnorm_nonneg _ _ _) (fun m _ hm j =>
      single_le_sum (f := fun m => Spec.mnorm ((![2, 3, 1, 4] : Fin 4 → ℕ) j) ((![1, 2, 1, 3] : Fin 4 → ℕ) j) (mats (dWs m) j))
        (fun _ _ => mnorm_nonneg _ _ _) (mem_range.2 (by omega)))
  exact_mod_cast this

end Properties
