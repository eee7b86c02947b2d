import Verif.Proofs.KyFan
import Mathlib.Analysis.InnerProductSpace.PiL2

/-! The truncated singular value decomposition is a best approximation of bounded rank (Eckart-Young), and exists. -/

namespace EckartYoung

open Finset Matrix
open scoped ComplexOrder

variable {n R p q r : ℕ}

/-- The squared Frobenius norm. -/
def fsq (A : Matrix (Fin n) (Fin R) ℝ) : ℝ := (A * Aᵀ).trace

theorem fsq_eq (A : Matrix (Fin n) (Fin R) ℝ) : fsq A = ∑ x, ∑ y, A x y ^ 2 := by
  unfold fsq
  rw [Matrix.trace]
  refine sum_congr rfl fun x _ => ?_
  rw [Matrix.diag_apply, Matrix.mul_apply]
  exact sum_congr rfl fun y _ => by rw [Matrix.transpose_apply, sq]

theorem fsq_nonneg (A : Matrix (Fin n) (Fin R) ℝ) : 0 ≤ fsq A := by
  rw [fsq_eq]; exact sum_nonneg fun _ _ => sum_nonneg fun _ _ => sq_nonneg _

theorem fsq_transpose (A : Matrix (Fin n) (Fin R) ℝ) : fsq Aᵀ = fsq A := by
  rw [fsq_eq, fsq_eq, sum_comm]; rfl

/-- The first `q` columns. -/
def cols (hq : q ≤ p) (P : Matrix (Fin n) (Fin p) ℝ) : Matrix (Fin n) (Fin q) ℝ := fun x a => P x (Fin.castLE hq a)

theorem cols_orth (hq : q ≤ p) {P : Matrix (Fin n) (Fin p) ℝ} (hP : Pᵀ * P = 1) : (cols hq P)ᵀ * cols hq P = 1 := by
  ext a b
  have h := congrFun (congrFun hP (Fin.castLE hq a)) (Fin.castLE hq b)
  have e : ((cols hq P)ᵀ * cols hq P) a b = (Pᵀ * P) (Fin.castLE hq a) (Fin.castLE hq b) := rfl
  rw [e, h, Matrix.one_apply, Matrix.one_apply]
  by_cases hab : a = b
  · rw [if_pos hab, if_pos (by rw [hab])]
  · rw [if_neg hab, if_neg (fun h => hab (Fin.castLE_injective hq h))]

/-- Pythagoras for the projection on the columns of `Z`. -/
theorem fsq_pyth {Z : Matrix (Fin n) (Fin r) ℝ} (hZ : Zᵀ * Z = 1) (Y : Matrix (Fin n) (Fin R) ℝ) :
    fsq Y = fsq (Zᵀ * Y) + fsq (Y - Z * (Zᵀ * Y)) := by
  have e1 : ((Z * (Zᵀ * Y)) * Yᵀ).trace = fsq (Zᵀ * Y) := by
    unfold fsq
    rw [transpose_mul, transpose_transpose, Matrix.mul_assoc, Matrix.trace_mul_comm]
    simp only [Matrix.mul_assoc]
  have e2 : (Y * (Z * (Zᵀ * Y))ᵀ).trace = fsq (Zᵀ * Y) := by
    rw [← e1, ← trace_transpose]; simp only [transpose_mul, transpose_transpose, Matrix.mul_assoc]
  have e3 : ((Z * (Zᵀ * Y)) * (Z * (Zᵀ * Y))ᵀ).trace = fsq (Zᵀ * Y) := by
    rw [transpose_mul Z, Matrix.mul_assoc, Matrix.trace_mul_comm, Matrix.mul_assoc, Matrix.mul_assoc, Matrix.mul_assoc, hZ, Matrix.mul_one,
      ← Matrix.mul_assoc]
    rfl
  have : fsq (Y - Z * (Zᵀ * Y)) = fsq Y - fsq (Zᵀ * Y) := by
    conv_lhs => unfold fsq
    rw [transpose_sub, Matrix.sub_mul, Matrix.mul_sub, Matrix.mul_sub, trace_sub, trace_sub, trace_sub, e1, e2, e3]
    unfold fsq; ring
  linarith

/-- A decomposition `X = P diag(σ) Qᵀ` with orthonormal columns and decreasing nonnegative values. -/
structure Svd (X : Matrix (Fin n) (Fin R) ℝ) (P : Matrix (Fin n) (Fin p) ℝ) (σ : Fin p → ℝ) (Q : Matrix (Fin R) (Fin p) ℝ) : Prop where
  left : Pᵀ * P = 1
  right : Qᵀ * Q = 1
  anti : Antitone σ
  nonneg : ∀ a, 0 ≤ σ a
  prod : X = P * diagonal σ * Qᵀ

/-- The leading part of a decomposition. -/
def lead (hq : q ≤ p) (P : Matrix (Fin n) (Fin p) ℝ) (σ : Fin p → ℝ) (Q : Matrix (Fin R) (Fin p) ℝ) : Matrix (Fin n) (Fin R) ℝ :=
  cols hq P * diagonal (fun a => σ (Fin.castLE hq a)) * (cols hq Q)ᵀ

theorem colsT_mul {X : Matrix (Fin n) (Fin R) ℝ} {P : Matrix (Fin n) (Fin p) ℝ} {σ : Fin p → ℝ} {Q : Matrix (Fin R) (Fin p) ℝ}
    (h : Svd X P σ Q) (hq : q ≤ p) : (cols hq P)ᵀ * X = diagonal (fun a => σ (Fin.castLE hq a)) * (cols hq Q)ᵀ := by
  have e : Pᵀ * X = diagonal σ * Qᵀ := by rw [h.prod, Matrix.mul_assoc, ← Matrix.mul_assoc, h.left, Matrix.one_mul]
  ext a y
  have := congrFun (congrFun e (Fin.castLE hq a)) y
  rw [Matrix.diagonal_mul] at this ⊢
  exact this

theorem lead_eq {X : Matrix (Fin n) (Fin R) ℝ} {P : Matrix (Fin n) (Fin p) ℝ} {σ : Fin p → ℝ} {Q : Matrix (Fin R) (Fin p) ℝ}
    (h : Svd X P σ Q) (hq : q ≤ p) : lead hq P σ Q = cols hq P * ((cols hq P)ᵀ * X) := by
  rw [colsT_mul h hq, lead, Matrix.mul_assoc]

theorem fsq_diag_mul {σ : Fin q → ℝ} {B : Matrix (Fin R) (Fin q) ℝ} (hB : Bᵀ * B = 1) :
    fsq (diagonal σ * Bᵀ) = ∑ a, σ a ^ 2 := by
  unfold fsq
  rw [transpose_mul, transpose_transpose, diagonal_transpose, Matrix.mul_assoc, ← Matrix.mul_assoc _ B, hB, Matrix.one_mul,
    diagonal_mul_diagonal, Matrix.trace]
  exact sum_congr rfl fun a _ => by rw [Matrix.diag_apply, diagonal_apply_eq, sq]

/-- The error of the leading part. -/
theorem fsq_lead {X : Matrix (Fin n) (Fin R) ℝ} {P : Matrix (Fin n) (Fin p) ℝ} {σ : Fin p → ℝ} {Q : Matrix (Fin R) (Fin p) ℝ}
    (h : Svd X P σ Q) (hq : q ≤ p) : fsq (X - lead hq P σ Q) = fsq X - ∑ a : Fin q, σ (Fin.castLE hq a) ^ 2 := by
  have := fsq_pyth (cols_orth hq h.left) X
  rw [← lead_eq h hq, colsT_mul h hq, fsq_diag_mul (cols_orth hq h.right)] at this
  linarith

/-- Ky Fan's rearrangement step with total weight at most `q`. -/
theorem weighted_le {σ c : Fin p → ℝ} (hq : q ≤ p) (hanti : Antitone σ) (hn : ∀ k, 0 ≤ σ k) (h0 : ∀ k, 0 ≤ c k)
    (h1 : ∀ k, c k ≤ 1) (hs : ∑ k, c k ≤ q) : ∑ k, σ k * c k ≤ ∑ a : Fin q, σ (Fin.castLE hq a) := by
  rcases Nat.eq_zero_or_pos q with rfl | hpos
  · have : ∀ k, c k = 0 := by
      have hz : ∑ k, c k = 0 := le_antisymm (by simpa using hs) (sum_nonneg fun k _ => h0 k)
      have := (Finset.sum_eq_zero_iff_of_nonneg (fun k _ => h0 k)).1 hz
      exact fun k => this k (mem_univ k)
    simp [this]
  · set t := σ ⟨q - 1, by omega⟩ with ht
    have hbij : ∀ g : Fin p → ℝ, ∑ a : Fin q, g (Fin.castLE hq a) = ∑ k : Fin p, if k.1 < q then g k else 0 := by
      intro g
      rw [← Finset.sum_filter]
      refine Finset.sum_bij (fun a _ => Fin.castLE hq a) ?_ ?_ ?_ ?_
      · intro a _; simp
      · intro a _ b _ h; exact Fin.castLE_injective hq h
      · intro k hk
        exact ⟨⟨k.1, by simpa using hk⟩, mem_univ _, by ext; rfl⟩
      · intro a _; rfl
    have hcard : (∑ k : Fin p, if k.1 < q then (1 : ℝ) else 0) = q := by
      rw [← hbij fun _ => (1 : ℝ)]; simp
    have key : ∀ k : Fin p, t * ((if k.1 < q then 1 else 0) - c k) ≤ (if k.1 < q then σ k else 0) - σ k * c k := by
      intro k
      by_cases hk : k.1 < q
      · rw [if_pos hk, if_pos hk]
        have : t ≤ σ k := hanti (by rw [Fin.le_def]; simp only; omega)
        have := mul_le_mul_of_nonneg_right this (sub_nonneg.2 (h1 k))
        linarith
      · rw [if_neg hk, if_neg hk]
        have : σ k ≤ t := hanti (by rw [Fin.le_def]; simp only; omega)
        have := mul_le_mul_of_nonneg_right this (h0 k)
        linarith
    have := Finset.sum_le_sum fun k (_ : k ∈ univ) => key k
    rw [← mul_sum, sum_sub_distrib, hcard, sum_sub_distrib] at this
    rw [hbij]
    have h3 : 0 ≤ t * (q - ∑ k, c k) := mul_nonneg (hn _) (by linarith)
    linarith

/-- Bessel: projecting on orthonormal columns does not increase the norm. -/
theorem fsq_orth_le {Z : Matrix (Fin n) (Fin r) ℝ} (hZ : Zᵀ * Z = 1) (Y : Matrix (Fin n) (Fin R) ℝ) : fsq (Zᵀ * Y) ≤ fsq Y := by
  have := fsq_pyth hZ Y
  have := fsq_nonneg (Y - Z * (Zᵀ * Y))
  linarith

theorem fsq_orth {Z : Matrix (Fin n) (Fin r) ℝ} (hZ : Zᵀ * Z = 1) : fsq Z = r := by
  rw [← fsq_transpose]
  unfold fsq
  rw [transpose_transpose, hZ, Matrix.trace_one, Fintype.card_fin]

/-- Projecting on `r ≤ q` orthonormal columns captures at most the `q` leading squared values. -/
theorem captured_le {X : Matrix (Fin n) (Fin R) ℝ} {P : Matrix (Fin n) (Fin p) ℝ} {σ : Fin p → ℝ} {Q : Matrix (Fin R) (Fin p) ℝ}
    (h : Svd X P σ Q) (hq : q ≤ p) (hr : r ≤ q) {Z : Matrix (Fin n) (Fin r) ℝ} (hZ : Zᵀ * Z = 1) :
    fsq (Zᵀ * X) ≤ ∑ a : Fin q, σ (Fin.castLE hq a) ^ 2 := by
  set C : Matrix (Fin r) (Fin p) ℝ := Zᵀ * P with hC
  have e1 : fsq (Zᵀ * X) = ∑ k, σ k ^ 2 * ∑ a, C a k ^ 2 := by
    have : (Zᵀ * X) * (Zᵀ * X)ᵀ = (C * diagonal σ) * (C * diagonal σ)ᵀ := by
      have e : Zᵀ * X = C * diagonal σ * Qᵀ := by rw [h.prod, hC]; simp only [Matrix.mul_assoc]
      rw [e, transpose_mul _ Qᵀ, transpose_transpose, Matrix.mul_assoc, ← Matrix.mul_assoc Qᵀ, h.right, Matrix.one_mul]
    have e2 : fsq (Zᵀ * X) = fsq (C * diagonal σ) := by unfold fsq; rw [this]
    rw [e2, fsq_eq, sum_comm]
    refine sum_congr rfl fun k _ => ?_
    rw [mul_sum]
    refine sum_congr rfl fun a _ => ?_
    rw [Matrix.mul_diagonal]; ring
  rw [e1]
  refine weighted_le (σ := fun k => σ k ^ 2) hq (fun a b hab => pow_le_pow_left₀ (h.nonneg b) (h.anti hab) 2)
    (fun k => sq_nonneg _) (fun k => sum_nonneg fun a _ => sq_nonneg _) ?_ ?_
  · intro k
    let Y : Matrix (Fin n) (Fin 1) ℝ := fun x _ => P x k
    have h1 := fsq_orth_le hZ Y
    have h2 : fsq Y = 1 := by
      have := congrFun (congrFun h.left k) k
      rw [Matrix.one_apply_eq] at this
      rw [← this, fsq_eq, Matrix.mul_apply]
      refine sum_congr rfl fun x _ => ?_
      simp [Y, sq]
    have h3 : fsq (Zᵀ * Y) = ∑ a, C a k ^ 2 := by
      rw [fsq_eq]
      refine sum_congr rfl fun a _ => ?_
      simp only [Fin.sum_univ_one, Finset.univ_unique, sum_singleton]
      rfl
    linarith
  · have h1 := fsq_orth_le h.left Z
    rw [fsq_orth hZ] at h1
    have h2 : fsq (Pᵀ * Z) = ∑ k, ∑ a, C a k ^ 2 := by
      rw [fsq_eq]
      refine sum_congr rfl fun k _ => sum_congr rfl fun a _ => ?_
      rw [hC, Matrix.mul_apply, Matrix.mul_apply]
      congr 1
      exact sum_congr rfl fun x _ => by rw [Matrix.transpose_apply, Matrix.transpose_apply, mul_comm]
    have : (r : ℝ) ≤ q := by exact_mod_cast hr
    linarith

/-- The columns of a matrix are spanned by orthonormal columns, no more numerous. -/
theorem exists_orth (A : Matrix (Fin n) (Fin q) ℝ) : ∃ r ≤ q, ∃ Z : Matrix (Fin n) (Fin r) ℝ, Zᵀ * Z = 1 ∧ Z * (Zᵀ * A) = A := by
  let S : Submodule ℝ (EuclideanSpace ℝ (Fin n)) := Submodule.span ℝ (Set.range fun a => WithLp.toLp 2 (fun x => A x a))
  have hfin : Module.finrank ℝ S ≤ q := by
    have := finrank_range_le_card (R := ℝ) (fun a : Fin q => (WithLp.toLp 2 (fun x => A x a) : EuclideanSpace ℝ (Fin n)))
    simpa [Set.finrank] using this
  let b := stdOrthonormalBasis ℝ S
  let Z : Matrix (Fin n) (Fin (Module.finrank ℝ S)) ℝ := fun x a => (b a : EuclideanSpace ℝ (Fin n)) x
  refine ⟨_, hfin, Z, ?_, ?_⟩
  · ext a c
    have h1 := (orthonormal_iff_ite.1 b.orthonormal) a c
    rw [Submodule.coe_inner, EuclideanSpace.inner_eq_star_dotProduct] at h1
    rw [Matrix.one_apply, ← h1, Matrix.mul_apply, dotProduct]
    exact sum_congr rfl fun x _ => mul_comm _ _
  · ext x a
    have hmem : (WithLp.toLp 2 (fun x => A x a) : EuclideanSpace ℝ (Fin n)) ∈ S := Submodule.subset_span ⟨a, rfl⟩
    have h1 := b.sum_repr' ⟨_, hmem⟩
    have h2 := congrArg (fun v : S => (v : EuclideanSpace ℝ (Fin n)) x) h1
    simp only [Submodule.coe_sum, Submodule.coe_smul, Submodule.coe_inner] at h2
    rw [WithLp.ofLp_sum, Finset.sum_apply] at h2
    rw [← h2, Matrix.mul_apply]
    refine sum_congr rfl fun c _ => ?_
    rw [WithLp.ofLp_smul, Pi.smul_apply, smul_eq_mul, EuclideanSpace.inner_eq_star_dotProduct, mul_comm]
    congr 1
    rw [Matrix.mul_apply, dotProduct]
    exact sum_congr rfl fun y _ => mul_comm _ _

/-- **Eckart-Young.** -/
theorem best {X : Matrix (Fin n) (Fin R) ℝ} {P : Matrix (Fin n) (Fin p) ℝ} {σ : Fin p → ℝ} {Q : Matrix (Fin R) (Fin p) ℝ}
    (h : Svd X P σ Q) (hq : q ≤ p) (A : Matrix (Fin n) (Fin q) ℝ) (B : Matrix (Fin q) (Fin R) ℝ) :
    fsq (X - lead hq P σ Q) ≤ fsq (X - A * B) := by
  obtain ⟨r, hr, Z, hZ, hA⟩ := exists_orth A
  have h1 := fsq_pyth hZ (X - A * B)
  have h2 : X - A * B - Z * (Zᵀ * (X - A * B)) = X - Z * (Zᵀ * X) := by
    have : Z * (Zᵀ * (A * B)) = A * B := by
      rw [← Matrix.mul_assoc Zᵀ, ← Matrix.mul_assoc Z, hA]
    rw [Matrix.mul_sub, Matrix.mul_sub, this]; abel
  rw [h2] at h1
  have h3 := fsq_pyth hZ X
  have h4 := captured_le h hq hr hZ
  have h5 := fsq_nonneg (Zᵀ * (X - A * B))
  rw [fsq_lead h hq]
  linarith

/-- Every matrix with at most as many rows as columns has a decomposition. -/
theorem exists_wide (hn : n ≤ R) (X : Matrix (Fin n) (Fin R) ℝ) :
    ∃ (P : Matrix (Fin n) (Fin n) ℝ) (σ : Fin n → ℝ) (Q : Matrix (Fin R) (Fin n) ℝ), Svd X P σ Q := by
  have hpsd : (X * Xᵀ).PosSemidef := by
    have := Matrix.posSemidef_self_mul_conjTranspose X
    rwa [Matrix.conjTranspose_eq_transpose_of_trivial] at this
  obtain ⟨P, τ, hP, h0, ha, hm⟩ := KyFan.exists_svd hpsd
  have hPP : P * Pᵀ = 1 := mul_eq_one_comm.1 hP
  -- the Gram matrix of the columns of `Xᵀ P`
  have hG : (Pᵀ * X) * (Pᵀ * X)ᵀ = diagonal τ := by
    rw [transpose_mul, transpose_transpose, Matrix.mul_assoc, ← Matrix.mul_assoc X, hm]
    rw [Matrix.mul_assoc, Matrix.mul_assoc, hP, Matrix.mul_one, ← Matrix.mul_assoc, hP, Matrix.one_mul]
  have hGe : ∀ a b, ∑ y, (Pᵀ * X) a y * (Pᵀ * X) b y = if a = b then τ a else 0 := by
    intro a b
    have := congrFun (congrFun hG a) b
    rw [Matrix.mul_apply, diagonal_apply] at this
    exact this
  let v : Fin R → EuclideanSpace ℝ (Fin R) := fun i =>
    if h : i.1 < n then WithLp.toLp 2 (fun y => (Real.sqrt (τ ⟨i.1, h⟩))⁻¹ * (Pᵀ * X) ⟨i.1, h⟩ y) else 0
  let s : Set (Fin R) := {i | ∃ h : i.1 < n, τ ⟨i.1, h⟩ ≠ 0}
  have hv : Orthonormal ℝ (s.domRestrict v) := by
    rw [orthonormal_iff_ite]
    rintro ⟨i, hi, hti⟩ ⟨j, hj, htj⟩
    have e1 : s.domRestrict v ⟨i, hi, hti⟩ = WithLp.toLp 2 (fun y => (Real.sqrt (τ ⟨i.1, hi⟩))⁻¹ * (Pᵀ * X) ⟨i.1, hi⟩ y) := by
      change v i = _
      simp only [v, dif_pos hi]
    have e2 : s.domRestrict v ⟨j, hj, htj⟩ = WithLp.toLp 2 (fun y => (Real.sqrt (τ ⟨j.1, hj⟩))⁻¹ * (Pᵀ * X) ⟨j.1, hj⟩ y) := by
      change v j = _
      simp only [v, dif_pos hj]
    rw [e1, e2, EuclideanSpace.inner_toLp_toLp, star_trivial, dotProduct]
    have : ∀ y, (Real.sqrt (τ ⟨j.1, hj⟩))⁻¹ * (Pᵀ * X) ⟨j.1, hj⟩ y * ((Real.sqrt (τ ⟨i.1, hi⟩))⁻¹ * (Pᵀ * X) ⟨i.1, hi⟩ y) =
        (Real.sqrt (τ ⟨j.1, hj⟩))⁻¹ * (Real.sqrt (τ ⟨i.1, hi⟩))⁻¹ * ((Pᵀ * X) ⟨i.1, hi⟩ y * (Pᵀ * X) ⟨j.1, hj⟩ y) :=
      fun y => by ring
    simp only [this]
    rw [← mul_sum, hGe]
    by_cases hij : i = j
    · subst hij
      rw [if_pos rfl, if_pos rfl]
      have hpos : 0 < τ ⟨i.1, hi⟩ := lt_of_le_of_ne (h0 _) (Ne.symm hti)
      have hs := Real.mul_self_sqrt hpos.le
      have hs0 := (Real.sqrt_pos.2 hpos).ne'
      conv_lhs => rw [← hs]
      rw [hs]
      field_simp
      exact hs.symm.trans (by ring)
    · rw [if_neg (by simp only [Fin.mk.injEq, Fin.val_inj]; exact hij), mul_zero, if_neg (by simp only [Subtype.mk.injEq]; exact hij)]
  obtain ⟨b, hb⟩ := hv.exists_orthonormalBasis_extension_of_card_eq (by simp)
  let Q : Matrix (Fin R) (Fin n) ℝ := fun y a => (b (Fin.castLE hn a)) y
  refine ⟨P, fun a => Real.sqrt (τ a), Q, hP, ?_, fun a c hac => Real.sqrt_le_sqrt (ha hac), fun a => Real.sqrt_nonneg _, ?_⟩
  · ext a c
    have h1 := (orthonormal_iff_ite.1 b.orthonormal) (Fin.castLE hn a) (Fin.castLE hn c)
    rw [EuclideanSpace.inner_eq_star_dotProduct] at h1
    rw [Matrix.one_apply]
    have h2 : (if Fin.castLE hn a = Fin.castLE hn c then (1 : ℝ) else 0) = if a = c then 1 else 0 := by
      by_cases hac : a = c
      · rw [if_pos hac, if_pos (by rw [hac])]
      · rw [if_neg hac, if_neg (fun h => hac (Fin.castLE_injective hn h))]
    rw [← h2, ← h1, Matrix.mul_apply, dotProduct]
    exact sum_congr rfl fun x _ => mul_comm _ _
  · have key : Pᵀ * X = diagonal (fun a => Real.sqrt (τ a)) * Qᵀ := by
      ext a y
      rw [Matrix.diagonal_mul]
      by_cases hz : τ a = 0
      · rw [hz, Real.sqrt_zero, zero_mul]
        have := hGe a a
        rw [if_pos rfl, hz] at this
        have := (Finset.sum_eq_zero_iff_of_nonneg (fun y _ => mul_self_nonneg ((Pᵀ * X) a y))).1 this y (mem_univ y)
        exact mul_self_eq_zero.1 this
      · have hbs := hb (Fin.castLE hn a) ⟨a.2, hz⟩
        have hva : v (Fin.castLE hn a) = WithLp.toLp 2 (fun y => (Real.sqrt (τ a))⁻¹ * (Pᵀ * X) a y) := by
          have : (Fin.castLE hn a).1 < n := a.2
          simp only [v, dif_pos this]
          rfl
        have hpos : 0 < τ a := lt_of_le_of_ne (h0 _) (Ne.symm hz)
        have hs0 := (Real.sqrt_pos.2 hpos).ne'
        have : Qᵀ a y = (Real.sqrt (τ a))⁻¹ * (Pᵀ * X) a y := by
          change (b (Fin.castLE hn a)) y = _
          rw [hbs, hva]
        rw [this, ← mul_assoc, mul_inv_cancel₀ hs0, one_mul]
    rw [Matrix.mul_assoc, ← key, ← Matrix.mul_assoc, hPP, Matrix.one_mul]

theorem Svd.transpose {X : Matrix (Fin n) (Fin R) ℝ} {P : Matrix (Fin n) (Fin p) ℝ} {σ : Fin p → ℝ} {Q : Matrix (Fin R) (Fin p) ℝ}
    (h : Svd X P σ Q) : Svd Xᵀ Q σ P :=
  ⟨h.right, h.left, h.anti, h.nonneg, by
    rw [h.prod, transpose_mul, transpose_mul, transpose_transpose, diagonal_transpose, Matrix.mul_assoc]⟩

/-- Every matrix has a thin decomposition. -/
theorem exists_thin (X : Matrix (Fin n) (Fin R) ℝ) :
    ∃ (P : Matrix (Fin n) (Fin (min n R)) ℝ) (σ : Fin (min n R) → ℝ) (Q : Matrix (Fin R) (Fin (min n R)) ℝ), Svd X P σ Q := by
  rcases le_total n R with h | h
  · rw [min_eq_left h]; exact exists_wide h X
  · rw [min_eq_right h]
    obtain ⟨P, σ, Q, hS⟩ := exists_wide h Xᵀ
    exact ⟨Q, σ, P, by simpa using hS.transpose⟩

end EckartYoung
