import Verif.Proofs.Hosvd
import Verif.Proofs.Converge
import Verif.Properties.TuckerPP
import Mathlib.Analysis.InnerProductSpace.PiL2
import Mathlib.Algebra.BigOperators.Ring.Finset

/-! # Size of the terms that pairwise perturbation neglects -/

namespace Model

open Finset Function

variable {N : ℕ}

/-- Root of the sum of squares. -/
noncomputable def l2 {ι : Type*} (s : Finset ι) (f : ι → ℝ) : ℝ := Real.sqrt (∑ i ∈ s, f i ^ 2)

theorem l2_nonneg {ι : Type*} (s : Finset ι) (f : ι → ℝ) : 0 ≤ l2 s f := Real.sqrt_nonneg _

theorem l2_add {ι : Type*} (s : Finset ι) (f g : ι → ℝ) : l2 s (fun i => f i + g i) ≤ l2 s f + l2 s g := by
  have h := norm_add_le (WithLp.toLp 2 (fun i : s => f i) : EuclideanSpace ℝ s) (WithLp.toLp 2 fun i : s => g i)
  rw [EuclideanSpace.norm_eq, EuclideanSpace.norm_eq, EuclideanSpace.norm_eq] at h
  simp only [Real.norm_eq_abs, sq_abs, PiLp.add_apply] at h
  unfold l2
  rwa [Finset.sum_coe_sort s fun i => f i ^ 2, Finset.sum_coe_sort s fun i => g i ^ 2,
    Finset.sum_coe_sort s fun i => (f i + g i) ^ 2] at h

theorem l2_sum {ι κ : Type*} (s : Finset ι) (t : Finset κ) (f : κ → ι → ℝ) :
    l2 s (fun i => ∑ k ∈ t, f k i) ≤ ∑ k ∈ t, l2 s (f k) := by
  classical
  induction t using Finset.induction_on with
  | empty => simp [l2]
  | insert k t hk ih =>
    simp only [sum_insert hk]
    exact (l2_add s _ _).trans (by linarith)

theorem l2_le_of_sq {ι : Type*} {s : Finset ι} {f : ι → ℝ} {c : ℝ} (hc : 0 ≤ c) (h : ∑ i ∈ s, f i ^ 2 ≤ c ^ 2) : l2 s f ≤ c :=
  calc l2 s f ≤ Real.sqrt (c ^ 2) := Real.sqrt_le_sqrt h
    _ = c := Real.sqrt_sq hc

theorem prod_l2_sq {ι κ : Type*} (t : Finset κ) (s : κ → Finset ι) (f : κ → ι → ℝ) :
    (∏ k ∈ t, l2 (s k) (f k)) ^ 2 = ∏ k ∈ t, ∑ i ∈ s k, f k i ^ 2 := by
  rw [← prod_pow]
  refine prod_congr rfl fun k _ => ?_
  unfold l2
  rw [Real.sq_sqrt (sum_nonneg fun _ _ => sq_nonneg _)]

/-! ## CP -/

/-- One column of an MTTKRP. -/
theorem mttkrp_col_sq (dims : Fin N → ℕ) (V : (Fin N → ℕ) → ℝ) (U : Fin N → ℕ → ℕ → ℝ) (i : Fin N) (r : ℕ) :
    ∑ x ∈ range (dims i), Spec.mttkrp dims V U i x r ^ 2 ≤
      (∑ idx ∈ Spec.Box dims, V idx ^ 2) * ∏ j ∈ univ.erase i, ∑ y ∈ range (dims j), U j y r ^ 2 := by
  rw [Spec.sum_box_slices i, sum_mul]
  refine sum_le_sum fun x hx => ?_
  unfold Spec.mttkrp
  refine (sum_mul_sq_le_sq_mul_sq _ _ _).trans (le_of_eq ?_)
  congr 1
  rw [← Spec.sum_slice_prod i (mem_range.1 hx) fun j y => U j y r ^ 2]
  exact sum_congr rfl fun idx _ => (prod_pow _ _ _).symm

theorem sum_prod_le {κ : Type*} (t : Finset κ) (R : ℕ) (a : κ → ℕ → ℝ) (ha : ∀ k r, 0 ≤ a k r) (ht : t.Nonempty) :
    ∑ r ∈ range R, ∏ k ∈ t, a k r ≤ ∏ k ∈ t, ∑ r ∈ range R, a k r := by
  classical
  induction ht using Finset.Nonempty.cons_induction with
  | singleton k => simp
  | cons k t hk ht ih =>
    simp only [prod_cons]
    calc ∑ r ∈ range R, a k r * ∏ k ∈ t, a k r
        ≤ ∑ r ∈ range R, a k r * ∑ r ∈ range R, ∏ k ∈ t, a k r :=
          sum_le_sum fun r hr => mul_le_mul_of_nonneg_left
            (single_le_sum (f := fun r => ∏ k ∈ t, a k r) (fun r _ => prod_nonneg fun k _ => ha k r) hr) (ha k r)
      _ = (∑ r ∈ range R, a k r) * ∑ r ∈ range R, ∏ k ∈ t, a k r := (sum_mul _ _ _).symm
      _ ≤ _ := mul_le_mul_of_nonneg_left ih (sum_nonneg fun r _ => ha k r)

/-- The index set of an `n × m` matrix. -/
abbrev cells (n m : ℕ) : Finset (ℕ × ℕ) := range n ×ˢ range m

/-- An MTTKRP is at most the norm of the tensor times the norms of the factors. -/
theorem mttkrp_l2 (h2 : 2 ≤ N) (dims : Fin N → ℕ) (R : ℕ) (V : (Fin N → ℕ) → ℝ) (U : Fin N → ℕ → ℕ → ℝ) (i : Fin N) :
    l2 (cells (dims i) R) (fun p => Spec.mttkrp dims V U i p.1 p.2) ≤
      l2 (Spec.Box dims) V * ∏ j ∈ univ.erase i, l2 (cells (dims j) R) (fun p => U j p.1 p.2) := by
  refine l2_le_of_sq (mul_nonneg (l2_nonneg _ _) (prod_nonneg fun _ _ => l2_nonneg _ _)) ?_
  rw [mul_pow, prod_l2_sq (univ.erase i) (fun j => cells (dims j) R) (fun j p => U j p.1 p.2)]
  unfold l2
  rw [Real.sq_sqrt (sum_nonneg fun _ _ => sq_nonneg _), sum_product_right]
  calc _ ≤ ∑ r ∈ range R, (∑ idx ∈ Spec.Box dims, V idx ^ 2) * ∏ j ∈ univ.erase i, ∑ y ∈ range (dims j), U j y r ^ 2 :=
        sum_le_sum fun r _ => mttkrp_col_sq dims V U i r
    _ = (∑ idx ∈ Spec.Box dims, V idx ^ 2) * ∑ r ∈ range R, ∏ j ∈ univ.erase i, ∑ y ∈ range (dims j), U j y r ^ 2 := (mul_sum _ _ _).symm
    _ ≤ _ := by
      refine mul_le_mul_of_nonneg_left ?_ (sum_nonneg fun _ _ => sq_nonneg _)
      have hne : (univ.erase i).Nonempty := by
        rw [← card_pos, card_erase_of_mem (mem_univ i), card_univ, Fintype.card_fin]
        omega
      refine (sum_prod_le _ R (fun j r => ∑ y ∈ range (dims j), U j y r ^ 2) (fun _ _ => sum_nonneg fun _ _ => sq_nonneg _) hne).trans ?_
      refine le_of_eq (prod_congr rfl fun j _ => ?_)
      rw [sum_product_right]

/-- The products over all sets of two or more members. -/
theorem sum_two_or_more {κ : Type*} [DecidableEq κ] (t : Finset κ) (e : κ → ℝ) :
    ∑ S ∈ t.powerset with 2 ≤ S.card, ∏ j ∈ S, e j = ∏ j ∈ t, (1 + e j) - 1 - ∑ j ∈ t, e j := by
  have h := Finset.prod_one_add (s := t) (f := e)
  rw [h, ← sum_filter_add_sum_filter_not t.powerset (fun S => 2 ≤ S.card)]
  have h2 : ∑ S ∈ t.powerset with ¬ 2 ≤ S.card, ∏ j ∈ S, e j = 1 + ∑ j ∈ t, e j := by
    have hs : t.powerset.filter (fun S => ¬ 2 ≤ S.card) = insert ∅ (t.image fun j => {j}) := by
      ext S
      simp only [mem_filter, mem_powerset, not_le, mem_insert, mem_image]
      constructor
      · rintro ⟨h1, h2⟩
        rcases Nat.lt_or_ge S.card 1 with h | h
        · exact Or.inl (card_eq_zero.1 (by omega))
        · obtain ⟨a, rfl⟩ := card_eq_one.1 (show S.card = 1 by omega)
          exact Or.inr ⟨a, h1 (mem_singleton_self a), rfl⟩
      · rintro (rfl | ⟨a, ha, rfl⟩)
        · simp
        · simpa using ha
    rw [hs, sum_insert, sum_image, prod_empty]
    · simp
    · intro a _ b _ h
      exact singleton_injective h
    · simp
  rw [h2]
  ring

/-- The neglected terms, for displacements that are `e j` times as large as the factors. -/
theorem neglected_le {κ : Type*} [DecidableEq κ] (t : Finset κ) {a b e : κ → ℝ} (ha : ∀ j, 0 ≤ a j) (hb : ∀ j, 0 ≤ b j)
    (he : ∀ j ∈ t, a j ≤ e j * b j) (he0 : ∀ j ∈ t, 0 ≤ e j) :
    ∑ S ∈ t.powerset with 2 ≤ S.card, ∏ j ∈ t, (if j ∈ S then a j else b j) ≤
      (∏ j ∈ t, b j) * (∏ j ∈ t, (1 + e j) - 1 - ∑ j ∈ t, e j) := by
  rw [← sum_two_or_more, mul_sum]
  refine sum_le_sum fun S hS => ?_
  have hst : S ⊆ t := mem_powerset.1 (mem_filter.1 hS).1
  have e1 : (∏ j ∈ t, b j) * ∏ j ∈ S, e j = ∏ j ∈ t, (if j ∈ S then e j * b j else b j) := by
    have h1 : ∏ j ∈ S, e j = ∏ j ∈ t, if j ∈ S then e j else 1 := by
      rw [prod_ite_mem, inter_eq_right.2 hst]
    rw [h1, ← prod_mul_distrib]
    refine prod_congr rfl fun j _ => ?_
    split_ifs <;> ring
  rw [e1]
  refine prod_le_prod (fun j _ => ?_) fun j hj => ?_
  · split_ifs
    · exact ha j
    · exact hb j
  · split_ifs
    · exact he j hj
    · exact le_rfl

theorem mttkrp_mix_l2 (h2 : 2 ≤ N) (dims : Fin N → ℕ) (R : ℕ) (V : (Fin N → ℕ) → ℝ) (W D : Fin N → ℕ → ℕ → ℝ) (i : Fin N)
    {e : Fin N → ℝ} (he0 : ∀ j ≠ i, 0 ≤ e j)
    (he : ∀ j ≠ i, l2 (cells (dims j) R) (fun p => D j p.1 p.2) ≤ e j * l2 (cells (dims j) R) (fun p => W j p.1 p.2)) :
    l2 (cells (dims i) R) (fun p => Spec.mttkrp dims V (Spec.displace W D) i p.1 p.2 - Spec.ppMttkrp dims V W D i p.1 p.2) ≤
      l2 (Spec.Box dims) V * ((∏ j ∈ univ.erase i, l2 (cells (dims j) R) (fun p => W j p.1 p.2)) *
        (∏ j ∈ univ.erase i, (1 + e j) - 1 - ∑ j ∈ univ.erase i, e j)) := by
  have h1 : (fun p : ℕ × ℕ => Spec.mttkrp dims V (Spec.displace W D) i p.1 p.2 - Spec.ppMttkrp dims V W D i p.1 p.2) =
      fun p => ∑ S ∈ (univ.erase i).powerset with 2 ≤ S.card, Spec.mttkrp dims V (Spec.mix W D S) i p.1 p.2 := by
    funext p
    rw [Spec.mttkrp_displace_eq]
    ring
  rw [h1]
  refine (l2_sum _ _ _).trans ?_
  have h3 := neglected_le (univ.erase i) (a := fun j => l2 (cells (dims j) R) (fun p => D j p.1 p.2))
    (b := fun j => l2 (cells (dims j) R) (fun p => W j p.1 p.2)) (e := e) (fun _ => l2_nonneg _ _) (fun _ => l2_nonneg _ _)
    (fun j hj => he j (ne_of_mem_erase hj)) (fun j hj => he0 j (ne_of_mem_erase hj))
  refine le_trans ?_ (mul_le_mul_of_nonneg_left h3 (l2_nonneg _ _))
  rw [mul_sum]
  refine sum_le_sum fun S _ => (mttkrp_l2 h2 dims R V (Spec.mix W D S) i).trans (le_of_eq ?_)
  congr 1
  refine prod_congr rfl fun j _ => ?_
  unfold Spec.mix
  split_ifs <;> rfl

/-! ## Tucker -/

/-- Multiplying one mode by a matrix of Frobenius norm `b`. -/
theorem sumSq_ttm_frob (lens : Fin N → ℕ) (g : (Fin N → ℕ) → ℝ) (i : Fin N) (m : ℕ) (B : ℕ → ℕ → ℝ) :
    Spec.sumSq (update lens i m) (ttmVal lens g i B) ≤ (∑ p ∈ cells (lens i) m, B p.1 p.2 ^ 2) * Spec.sumSq lens g := by
  unfold Spec.sumSq
  have e : ∑ z ∈ Spec.Box lens, g z ^ 2 = ∑ x ∈ range (lens i), ∑ z ∈ Spec.Box (update lens i 1), g (update z i x) ^ 2 := by
    rw [← box_split lens i (lens i) fun z => g z ^ 2, update_eq_self]
  rw [e, box_split, sum_product_right, sum_mul]
  refine sum_le_sum fun a _ => ?_
  have h : ∀ z ∈ Spec.Box (update lens i 1), ttmVal lens g i B (update z i a) ^ 2 ≤
      (∑ x ∈ range (lens i), B x a ^ 2) * ∑ x ∈ range (lens i), g (update z i x) ^ 2 := by
    intro z _
    unfold ttmVal
    simp only [update_idem, update_self]
    rw [mul_comm]
    exact sum_mul_sq_le_sq_mul_sq _ _ _
  refine (sum_le_sum h).trans (le_of_eq ?_)
  rw [← mul_sum, sum_comm]

/-- A multi-mode product is at most the norm of the tensor times bounds of the matrices: 1 for orthonormal columns, the Frobenius norm
for the others. -/
theorem sumSq_multiTTM_bound {dims rk : Fin N → ℕ} {V : (Fin N → ℕ) → ℝ} {B : Fin N → ℕ → ℕ → ℝ} {c : Fin N → ℝ}
    (hB : ∀ j, (Spec.Orthonormal (dims j) (rk j) (B j) ∧ c j = 1) ∨ c j = l2 (cells (dims j) (rk j)) (fun p => B j p.1 p.2)) :
    ∀ s : Finset (Fin N), Spec.sumSq (klens dims rk sᶜ) (Spec.multiTTM dims V B sᶜ) ≤ (∏ j ∈ s, c j) ^ 2 * Spec.sumSq dims V := by
  intro s
  induction s using Finset.induction_on with
  | empty =>
    rw [compl_empty, klens_univ]
    refine le_of_eq ?_
    rw [prod_empty, one_pow, one_mul]
    refine sumSq_congr fun z hz => ?_
    rw [Spec.multiTTM_eq, Spec.genContract_univ hz]
  | insert j s hj ih =>
    have hc : (insert j s)ᶜ = sᶜ.erase j := by ext k; simp [not_or]
    have hjc : j ∈ sᶜ := by simpa using hj
    have hjl : klens dims rk sᶜ j = dims j := by simp [klens, hj]
    have e : ttmVal (klens dims rk sᶜ) (Spec.multiTTM dims V B sᶜ) j (B j) = Spec.multiTTM dims V B (sᶜ.erase j) := by
      funext z; exact ttmVal_multiTTM hjc z
    have key : Spec.sumSq (klens dims rk (insert j s)ᶜ) (Spec.multiTTM dims V B (insert j s)ᶜ) ≤
        c j ^ 2 * Spec.sumSq (klens dims rk sᶜ) (Spec.multiTTM dims V B sᶜ) := by
      rw [hc, ← e]
      rcases hB j with ⟨h1, h2⟩ | h1
      · have h := sumSq_pyth (klens dims rk sᶜ) (Spec.multiTTM dims V B sᶜ) j (m := rk j) (B := B j) (by rw [hjl]; exact h1)
        rw [klens_update] at h
        have := sumSq_nonneg (klens dims rk sᶜ) (ttmVal (klens dims rk sᶜ) (Spec.multiTTM dims V B sᶜ) j (orthQ (rk j) (B j)))
        rw [h2]
        linarith
      · have h := sumSq_ttm_frob (klens dims rk sᶜ) (Spec.multiTTM dims V B sᶜ) j (rk j) (B j)
        rw [klens_update, hjl] at h
        rw [h1]
        unfold l2
        rwa [Real.sq_sqrt (sum_nonneg fun _ _ => sq_nonneg _)]
    rw [prod_insert hj, mul_pow, mul_assoc]
    exact key.trans (mul_le_mul_of_nonneg_left ih (sq_nonneg _))

theorem l2_sumSq (lens : Fin N → ℕ) (g : (Fin N → ℕ) → ℝ) : l2 (Spec.Box lens) g = Real.sqrt (Spec.sumSq lens g) := rfl

theorem ttm_mix_l2 {dims rk : Fin N → ℕ} (V : (Fin N → ℕ) → ℝ) {W D : Fin N → ℕ → ℕ → ℝ} (i : Fin N)
    (hW : ∀ j, Spec.Orthonormal (dims j) (rk j) (W j)) :
    l2 (Spec.Box (Spec.ttmShape dims rk {i})) (fun z => Spec.multiTTM dims V (Spec.displace W D) {i} z - Spec.ppTTM dims V W D i z) ≤
      l2 (Spec.Box dims) V * (∏ j ∈ univ.erase i, (1 + l2 (cells (dims j) (rk j)) (fun p => D j p.1 p.2)) - 1 -
        ∑ j ∈ univ.erase i, l2 (cells (dims j) (rk j)) (fun p => D j p.1 p.2)) := by
  have h1 : (fun z => Spec.multiTTM dims V (Spec.displace W D) {i} z - Spec.ppTTM dims V W D i z) =
      fun z => ∑ S ∈ (univ.erase i).powerset with 2 ≤ S.card, Spec.multiTTM dims V (Spec.mix W D S) {i} z := by
    funext z
    rw [Spec.multiTTM_displace_eq]
    ring
  rw [h1, ← sum_two_or_more, mul_sum]
  refine (l2_sum _ _ _).trans (sum_le_sum fun S hS => ?_)
  have hS' : S ⊆ univ.erase i := mem_powerset.1 (mem_filter.1 hS).1
  have h := sumSq_multiTTM_bound (dims := dims) (rk := rk) (V := V) (B := Spec.mix W D S)
    (c := fun j => if j ∈ S then l2 (cells (dims j) (rk j)) (fun p => D j p.1 p.2) else 1) (fun j => by
      unfold Spec.mix
      split_ifs
      · exact Or.inr rfl
      · exact Or.inl ⟨hW j, rfl⟩) (univ.erase i)
  have e2 : (univ.erase i)ᶜ = {i} := by ext k; simp
  rw [e2, prod_ite_mem, inter_eq_right.2 hS'] at h
  rw [l2_sumSq, l2_sumSq]
  calc _ ≤ Real.sqrt ((∏ j ∈ S, l2 (cells (dims j) (rk j)) (fun p => D j p.1 p.2)) ^ 2 * Spec.sumSq dims V) := Real.sqrt_le_sqrt h
    _ = _ := by
      rw [Real.sqrt_mul (sq_nonneg _), Real.sqrt_sq (prod_nonneg fun _ _ => l2_nonneg _ _), mul_comm]

/-! ## The solution of the normal equations -/

/-- The solutions of the regularised normal equations depend on the right-hand side with factor `1 / lam`. -/
theorem solve_close {dims : Fin N → ℕ} {R : ℕ} {lam : ℝ} (hl : 0 < lam) {W : Fin N → ℕ → ℕ → ℝ} {i : Fin N}
    {X Y A B : ℕ → ℕ → ℝ} (hX : Spec.Solves (dims i) R X (Spec.normalMat dims R lam W i) A)
    (hY : Spec.Solves (dims i) R Y (Spec.normalMat dims R lam W i) B) :
    l2 (cells (dims i) R) (fun p => X p.1 p.2 - Y p.1 p.2) ≤ l2 (cells (dims i) R) (fun p => A p.1 p.2 - B p.1 p.2) / lam := by
  set D : ℕ → ℕ → ℝ := fun x r => X x r - Y x r with hD
  have h0 := Spec.change_inner (dims := dims) (R := R) (W := W) (i := i) D D
  have h1 : ∑ x ∈ range (dims i), ∑ r ∈ range R, (A x r - B x r) * D x r =
      ∑ x ∈ range (dims i), ∑ r ∈ range R, (∑ k ∈ range R, D x k * Spec.gramExcept dims W i k r) * D x r +
        lam * ∑ p ∈ cells (dims i) R, D p.1 p.2 ^ 2 := by
    rw [sum_product, mul_sum, ← sum_add_distrib]
    refine sum_congr rfl fun x hx => ?_
    rw [mul_sum, ← sum_add_distrib]
    refine sum_congr rfl fun r hr => ?_
    rw [← hX x (mem_range.1 hx) r (mem_range.1 hr), ← hY x (mem_range.1 hx) r (mem_range.1 hr), ← sum_sub_distrib]
    have : ∀ k ∈ range R, X x k * Spec.normalMat dims R lam W i k r - Y x k * Spec.normalMat dims R lam W i k r =
        D x k * Spec.gramExcept dims W i k r + if k = r then lam * D x k else 0 := by
      intro k hk
      unfold Spec.normalMat Spec.clip
      rw [if_pos ⟨mem_range.1 hk, mem_range.1 hr⟩, hD]
      by_cases h : k = r
      · simp only [if_pos h]; ring
      · simp only [if_neg h]; ring
    rw [sum_congr rfl this, sum_add_distrib, sum_ite_eq' (range R) r, if_pos hr]
    ring
  have h2 : lam * ∑ p ∈ cells (dims i) R, D p.1 p.2 ^ 2 ≤ ∑ p ∈ cells (dims i) R, (A p.1 p.2 - B p.1 p.2) * D p.1 p.2 := by
    rw [sum_product (f := fun p : ℕ × ℕ => (A p.1 p.2 - B p.1 p.2) * D p.1 p.2), h1, ← h0]
    have : 0 ≤ ∑ idx ∈ Spec.Box dims, Spec.modelChange R W i D idx * Spec.modelChange R W i D idx :=
      sum_nonneg fun _ _ => mul_self_nonneg _
    linarith
  have h3 : ∑ p ∈ cells (dims i) R, (A p.1 p.2 - B p.1 p.2) * D p.1 p.2 ≤
      l2 (cells (dims i) R) (fun p => A p.1 p.2 - B p.1 p.2) * l2 (cells (dims i) R) (fun p => D p.1 p.2) := by
    exact Real.sum_mul_le_sqrt_mul_sqrt _ _ _
  have h4 : l2 (cells (dims i) R) (fun p => D p.1 p.2) ^ 2 = ∑ p ∈ cells (dims i) R, D p.1 p.2 ^ 2 :=
    Real.sq_sqrt (sum_nonneg fun _ _ => sq_nonneg _)
  change l2 (cells (dims i) R) (fun p => D p.1 p.2) ≤ _
  rw [le_div_iff₀ hl]
  rcases (l2_nonneg (cells (dims i) R) (fun p => D p.1 p.2)).eq_or_lt with h | h
  · rw [← h, zero_mul]; exact l2_nonneg _ _
  · rw [← h4] at h2
    nlinarith

end Model
