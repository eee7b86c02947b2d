import Verif.Spec.Span
import Verif.Proofs.HooiSweep

/-! HOOI on subspaces: leading eigenspaces separated by a gap are unique. -/

namespace KyFan

open Finset Matrix

variable {n r : ℕ}

/-- A symmetric idempotent matrix whose diagonal consists of zeros and ones is diagonal. -/
theorem proj_diag {E : Matrix (Fin n) (Fin n) ℝ} (hs : Eᵀ = E) (hi : E * E = E) {d : Fin n → ℝ} (hd : ∀ k, E k k = d k)
    (h01 : ∀ k, d k = 0 ∨ d k = 1) : E = diagonal d := by
  have hsq : ∀ k, ∑ l, E k l ^ 2 = d k := by
    intro k
    rw [← hd k]
    conv_rhs => rw [← hi]
    rw [Matrix.mul_apply]
    refine sum_congr rfl fun l _ => ?_
    have : E l k = E k l := congrFun (congrFun hs k) l
    rw [this, sq]
  ext k l
  by_cases hkl : k = l
  · subst hkl
    rw [diagonal_apply_eq, hd]
  · rw [diagonal_apply_ne _ hkl]
    have h1 : d k ^ 2 + E k l ^ 2 ≤ d k := by
      have e := hsq k
      rw [← Finset.add_sum_erase _ _ (mem_univ k), hd] at e
      have : E k l ^ 2 ≤ ∑ l ∈ univ.erase k, E k l ^ 2 :=
        single_le_sum (f := fun l => E k l ^ 2) (fun _ _ => sq_nonneg _) (mem_erase.2 ⟨Ne.symm hkl, mem_univ _⟩)
      linarith
    have h2 : E k l ^ 2 = 0 := by
      have := sq_nonneg (E k l)
      rcases h01 k with h | h <;> rw [h] at h1 <;> linarith
    exact pow_eq_zero_iff (by norm_num) |>.1 h2

/-- Weights that reach the maximum of Ky Fan's inequality across a gap are the indicator of the leading indices. -/
theorem weights_eq {σ c : Fin n → ℝ} (hgap : ∀ a b : Fin n, a.1 < r → r ≤ b.1 → σ b < σ a) (h0 : ∀ k, 0 ≤ c k) (h1 : ∀ k, c k ≤ 1)
    (hs : ∑ k, c k = ∑ k : Fin n, if k.1 < r then (1 : ℝ) else 0)
    (hmax : (∑ k : Fin n, if k.1 < r then σ k else 0) ≤ ∑ k, σ k * c k) : ∀ k, c k = if k.1 < r then 1 else 0 := by
  -- the weight missing at the leading indices
  set e : Fin n → ℝ := fun k => (if k.1 < r then 1 else 0) - c k with he
  have hes : ∑ k, e k = 0 := by rw [he, sum_sub_distrib, hs, sub_self]
  have hmax' : ∑ k, σ k * e k ≤ 0 := by
    have : ∑ k, σ k * e k = (∑ k : Fin n, if k.1 < r then σ k else 0) - ∑ k, σ k * c k := by
      rw [← sum_sub_distrib]
      refine sum_congr rfl fun k _ => ?_
      simp only [he]
      split_ifs <;> ring
    linarith
  have hlo : ∀ k : Fin n, k.1 < r → 0 ≤ e k := by
    intro k hk; simp only [he, if_pos hk]; linarith [h1 k]
  have hhi : ∀ k : Fin n, ¬ k.1 < r → e k ≤ 0 := by
    intro k hk; simp only [he, if_neg hk]; linarith [h0 k]
  have hall : ∀ k, e k = 0 := by
    -- a threshold between the two groups
    by_cases hex : ∃ a : Fin n, a.1 < r
    · obtain ⟨a, ha, hmin⟩ := Finset.exists_min_image (univ.filter fun k : Fin n => k.1 < r) σ
        ⟨hex.choose, by simpa using hex.choose_spec⟩
      have ha : a.1 < r := by simpa using ha
      have hmin : ∀ k : Fin n, k.1 < r → σ a ≤ σ k := fun k hk => hmin k (by simpa using hk)
      have key : ∀ k, 0 ≤ (σ k - σ a) * e k := by
        intro k
        by_cases hk : k.1 < r
        · exact mul_nonneg (by linarith [hmin k hk]) (hlo k hk)
        · exact mul_nonneg_of_nonpos_of_nonpos (by linarith [hgap a k ha (by omega)]) (hhi k hk)
      have hsum : ∑ k, (σ k - σ a) * e k ≤ 0 := by
        have : ∑ k, (σ k - σ a) * e k = ∑ k, σ k * e k - σ a * ∑ k, e k := by
          rw [mul_sum, ← sum_sub_distrib]
          exact sum_congr rfl fun k _ => by ring
        rw [this, hes, mul_zero, sub_zero]
        exact hmax'
      have hz : ∀ k, (σ k - σ a) * e k = 0 := fun k =>
        (sum_eq_zero_iff_of_nonneg fun k _ => key k).1 (le_antisymm hsum (sum_nonneg fun k _ => key k)) k (mem_univ k)
      have hhi0 : ∀ k : Fin n, ¬ k.1 < r → e k = 0 := by
        intro k hk
        rcases mul_eq_zero.1 (hz k) with h | h
        · have := hgap a k ha (by omega); linarith
        · exact h
      have hpos : ∀ k, 0 ≤ e k := by
        intro k
        by_cases hk : k.1 < r
        · exact hlo k hk
        · exact (hhi0 k hk).ge
      exact fun k => (sum_eq_zero_iff_of_nonneg fun k _ => hpos k).1 hes k (mem_univ k)
    · have hneg : ∀ k, e k ≤ 0 := fun k => hhi k fun h => hex ⟨k, h⟩
      have : ∑ k, -e k = 0 := by rw [sum_neg_distrib, hes, neg_zero]
      intro k
      have := (sum_eq_zero_iff_of_nonneg (fun k _ => by linarith [hneg k])).1 this k (mem_univ k)
      linarith
  intro k
  have := hall k
  simp only [he] at this
  linarith

/-- **Ky Fan, uniqueness.** If the leading `r` eigenvalues of `M = Q diag(σ) Qᵀ` exceed all others, an orthonormal `B` with `r`
columns that reaches the maximal trace spans the space of the leading eigenvectors. -/
theorem span_unique {M Q : Matrix (Fin n) (Fin n) ℝ} {σ : Fin n → ℝ} (hQ : Qᵀ * Q = 1)
    (hgap : ∀ a b : Fin n, a.1 < r → r ≤ b.1 → σ b < σ a) (h : M = Q * diagonal σ * Qᵀ) (hr : r ≤ n)
    {B : Matrix (Fin n) (Fin r) ℝ} (hB : Bᵀ * B = 1)
    (hmax : (∑ k : Fin n, if k.1 < r then σ k else 0) ≤ (M * (B * Bᵀ)).trace) :
    B * Bᵀ = Q * diagonal (fun k : Fin n => if k.1 < r then (1 : ℝ) else 0) * Qᵀ := by
  have hQQ : Q * Qᵀ = 1 := mul_eq_one_comm.1 hQ
  set E : Matrix (Fin n) (Fin n) ℝ := Qᵀ * (B * Bᵀ) * Q with hE
  have hs : Eᵀ = E := by
    rw [hE]
    simp only [transpose_mul, transpose_transpose, Matrix.mul_assoc]
  have hBB : B * Bᵀ * (B * Bᵀ) = B * Bᵀ := by
    calc B * Bᵀ * (B * Bᵀ) = B * (Bᵀ * B) * Bᵀ := by simp only [Matrix.mul_assoc]
      _ = _ := by rw [hB, Matrix.mul_one]
  have hi : E * E = E := by
    calc E * E = Qᵀ * (B * Bᵀ) * (Q * Qᵀ) * (B * Bᵀ) * Q := by rw [hE]; simp only [Matrix.mul_assoc]
      _ = Qᵀ * (B * Bᵀ * (B * Bᵀ)) * Q := by rw [hQQ, Matrix.mul_one]; simp only [Matrix.mul_assoc]
      _ = E := by rw [hBB]
  have hsq : ∀ k, ∑ l, E k l ^ 2 = E k k := by
    intro k
    conv_rhs => rw [← hi]
    rw [Matrix.mul_apply]
    refine sum_congr rfl fun l _ => ?_
    have : E l k = E k l := congrFun (congrFun hs k) l
    rw [this, sq]
  have h0 : ∀ k, 0 ≤ E k k := fun k => by rw [← hsq]; exact sum_nonneg fun _ _ => sq_nonneg _
  have h1 : ∀ k, E k k ≤ 1 := by
    intro k
    have : E k k ^ 2 ≤ E k k := by
      conv_rhs => rw [← hsq k]
      exact single_le_sum (f := fun l => E k l ^ 2) (fun _ _ => sq_nonneg _) (mem_univ k)
    nlinarith [h0 k]
  have htr : ∑ k, E k k = ∑ k : Fin n, if k.1 < r then (1 : ℝ) else 0 := by
    have e1 : ∑ k, E k k = E.trace := rfl
    have e2 : E.trace = r := by
      rw [hE, Matrix.mul_assoc, Matrix.trace_mul_comm, Matrix.mul_assoc, hQQ, Matrix.mul_one, Matrix.trace_mul_comm, hB,
        Matrix.trace_one, Fintype.card_fin]
    rw [e1, e2, ← Finset.sum_filter]
    simp only [sum_const, nsmul_eq_mul, mul_one]
    have : (univ.filter fun k : Fin n => k.1 < r).card = r := by
      have : (univ.filter fun k : Fin n => k.1 < r) = univ.map (Fin.castLEEmb hr) := by
        ext k
        simp only [mem_filter, mem_univ, true_and, mem_map, Fin.castLEEmb_apply]
        constructor
        · intro hk; exact ⟨⟨k.1, hk⟩, by ext; rfl⟩
        · rintro ⟨a, rfl⟩; exact a.2
      rw [this, card_map, card_univ, Fintype.card_fin]
    rw [this]
  have hm : (M * (B * Bᵀ)).trace = ∑ k, σ k * E k k := by
    have : (M * (B * Bᵀ)).trace = (diagonal σ * E).trace := by
      rw [h, hE, Matrix.trace_mul_comm (Q * diagonal σ * Qᵀ), ← Matrix.mul_assoc, ← Matrix.mul_assoc,
        Matrix.trace_mul_comm _ Qᵀ]
      rw [Matrix.trace_mul_comm (diagonal σ)]
      simp only [Matrix.mul_assoc]
    rw [this, Matrix.trace]
    exact sum_congr rfl fun k _ => by rw [diag_apply, diagonal_mul]
  have hw := weights_eq hgap h0 h1 htr (by rw [← hm]; exact hmax)
  have hEd := proj_diag hs hi hw fun k => by split_ifs <;> simp
  rw [← hEd, hE]
  calc B * Bᵀ = (Q * Qᵀ) * (B * Bᵀ) * (Q * Qᵀ) := by rw [hQQ, Matrix.one_mul, Matrix.mul_one]
    _ = _ := by simp only [Matrix.mul_assoc]

end KyFan

namespace Model

open Finset Function Matrix

variable {N : ℕ}

theorem multiTTM_all {dims : Fin N → ℕ} (V : (Fin N → ℕ) → ℝ) (W : Fin N → ℕ → ℕ → ℝ) (z : Fin N → ℕ) :
    Spec.multiTTM dims V W ∅ z = ∑ u ∈ Spec.Box dims, V u * ∏ j, W j (u j) (z j) := by
  unfold Spec.multiTTM; simp

/-- The reconstruction depends on the factors through `W_j W_jᵀ` only. -/
theorem tuckRecon_span (dims rk : Fin N → ℕ) (V : (Fin N → ℕ) → ℝ) (W : Fin N → ℕ → ℕ → ℝ) (idx : Fin N → ℕ) :
    Spec.tuckRecon rk (Spec.multiTTM dims V W ∅) W idx = Spec.spanRecon dims V (fun j => Spec.outer (rk j) (W j)) idx := by
  unfold Spec.tuckRecon Spec.spanRecon Spec.outer
  simp only [multiTTM_all, sum_mul]
  rw [sum_comm]
  refine sum_congr rfl fun u _ => ?_
  rw [Finset.prod_univ_sum (fun j => range (rk j)) (fun j a => W j (idx j) a * W j (u j) a), mul_sum]
  refine sum_congr rfl fun z _ => ?_
  rw [prod_mul_distrib]
  ring

/-- So does the norm of the core. -/
theorem coreNormSq_span (dims rk : Fin N → ℕ) (V : (Fin N → ℕ) → ℝ) (W : Fin N → ℕ → ℕ → ℝ) :
    Spec.coreNormSq dims rk V W = Spec.spanNormSq dims V fun j => Spec.outer (rk j) (W j) := by
  unfold Spec.coreNormSq Spec.sumSq Spec.spanNormSq Spec.outer
  have e : ∀ z, Spec.multiTTM dims V W ∅ z ^ 2 =
      ∑ u ∈ Spec.Box dims, ∑ v ∈ Spec.Box dims, V u * V v * ∏ j, (W j (u j) (z j) * W j (v j) (z j)) := by
    intro z
    rw [multiTTM_all, sq, sum_mul_sum]
    refine sum_congr rfl fun u _ => sum_congr rfl fun v _ => ?_
    rw [prod_mul_distrib]; ring
  simp only [e]
  rw [sum_comm]
  refine sum_congr rfl fun u _ => ?_
  rw [sum_comm]
  refine sum_congr rfl fun v _ => ?_
  rw [Finset.prod_univ_sum (fun j => range (rk j)) (fun j a => W j (u j) a * W j (v j) a), mul_sum]
  rfl

theorem spanNormSq_congr {dims : Fin N → ℕ} {V : (Fin N → ℕ) → ℝ} {P P' : Fin N → ℕ → ℕ → ℝ}
    (h : ∀ j, ∀ x < dims j, ∀ y < dims j, P j x y = P' j x y) : Spec.spanNormSq dims V P = Spec.spanNormSq dims V P' := by
  refine sum_congr rfl fun u hu => sum_congr rfl fun v hv => ?_
  congr 1
  exact prod_congr rfl fun j _ => h j _ (Spec.mem_Box.1 hu j) _ (Spec.mem_Box.1 hv j)

theorem spanRecon_congr {dims : Fin N → ℕ} {V : (Fin N → ℕ) → ℝ} {P P' : Fin N → ℕ → ℕ → ℝ}
    (h : ∀ j, ∀ x < dims j, ∀ y < dims j, P j x y = P' j x y) {idx : Fin N → ℕ} (hi : ∀ j, idx j < dims j) :
    Spec.spanRecon dims V P idx = Spec.spanRecon dims V P' idx := by
  refine sum_congr rfl fun u hu => ?_
  congr 1
  exact prod_congr rfl fun j _ => h j _ (hi j) _ (Spec.mem_Box.1 hu j)

theorem spanGram_congr {dims : Fin N → ℕ} {V : (Fin N → ℕ) → ℝ} {P P' : Fin N → ℕ → ℕ → ℝ} {i : Fin N}
    (h : ∀ j, j ≠ i → ∀ x < dims j, ∀ y < dims j, P j x y = P' j x y) (x y : ℕ) :
    Spec.spanGram dims V P i x y = Spec.spanGram dims V P' i x y := by
  refine sum_congr rfl fun u hu => sum_congr rfl fun v hv => ?_
  congr 1
  refine prod_congr rfl fun j hj => h j (mem_erase.1 hj).1 _ ?_ _ ?_
  · exact Spec.mem_Box.1 (mem_filter.1 hu).1 j
  · exact Spec.mem_Box.1 (mem_filter.1 hv).1 j

theorem sum_fibers (dims : Fin N → ℕ) (i : Fin N) (F : (Fin N → ℕ) → ℝ) :
    ∑ u ∈ Spec.Box dims, F u = ∑ x ∈ range (dims i), ∑ u ∈ Spec.Box dims with u i = x, F u :=
  (Finset.sum_fiberwise_of_maps_to (fun u hu => mem_range.2 (Spec.mem_Box.1 hu i)) F).symm

/-- The norm of the core in terms of `P_i`. -/
theorem spanNormSq_split (dims : Fin N → ℕ) (V : (Fin N → ℕ) → ℝ) (P : Fin N → ℕ → ℕ → ℝ) (i : Fin N) :
    Spec.spanNormSq dims V P = ∑ x ∈ range (dims i), ∑ y ∈ range (dims i), Spec.spanGram dims V P i x y * P i x y := by
  unfold Spec.spanNormSq
  rw [sum_fibers dims i]
  refine sum_congr rfl fun x _ => ?_
  simp only [sum_fibers dims i fun v => V _ * V v * ∏ j, P j _ (v j)]
  rw [sum_comm]
  refine sum_congr rfl fun y _ => ?_
  unfold Spec.spanGram
  rw [sum_mul]
  refine sum_congr rfl fun u hu => ?_
  rw [sum_mul]
  refine sum_congr rfl fun v hv => ?_
  rw [← mul_prod_erase univ _ (mem_univ i), (mem_filter.1 hu).2, (mem_filter.1 hv).2]
  ring

/-- A matrix with orthonormal columns that maximises the quadratic form of `G` spans its leading eigenvectors. -/
theorem leading_unique {n r : ℕ} (hr : r ≤ n) {G P B : ℕ → ℕ → ℝ} (hP : Spec.LeadingProj n r G P) (hB : Spec.Orthonormal n r B)
    (hmax : ∀ A, Spec.Orthonormal n r A → ∑ x ∈ range n, ∑ y ∈ range n, G x y * Spec.outer r A x y ≤
      ∑ x ∈ range n, ∑ y ∈ range n, G x y * Spec.outer r B x y) : ∀ x < n, ∀ y < n, Spec.outer r B x y = P x y := by
  obtain ⟨Q, σ, hQ, hG, hgap, hPQ⟩ := hP
  set q : Matrix (Fin n) (Fin n) ℝ := Matrix.of fun x a => Q x a with hq
  set b : Matrix (Fin n) (Fin r) ℝ := Matrix.of fun x a => B x a with hb
  set g : Matrix (Fin n) (Fin n) ℝ := Matrix.of fun x y => G x y with hg
  have hq1 : qᵀ * q = 1 := orthonormal_iff.1 hQ
  have hb1 : bᵀ * b = 1 := orthonormal_iff.1 hB
  have hgq : g = q * diagonal (fun k : Fin n => σ k) * qᵀ := by
    ext x y
    rw [Matrix.mul_apply]
    simp only [Matrix.mul_diagonal, Matrix.transpose_apply, hg, hq, Matrix.of_apply]
    rw [hG x.1 x.2 y.1 y.2, sum_range]
    exact sum_congr rfl fun k _ => by ring
  have hout : ∀ (A : ℕ → ℕ → ℝ), (Matrix.of fun (x : Fin n) (a : Fin r) => A x a) * (Matrix.of fun (x : Fin n) (a : Fin r) => A x a)ᵀ =
      Matrix.of fun (x y : Fin n) => Spec.outer r A x y := by
    intro A
    ext x y
    rw [Matrix.mul_apply]
    simp only [Matrix.transpose_apply, Matrix.of_apply, Spec.outer]
    rw [sum_range]
  have hsymm : ∀ (A : ℕ → ℕ → ℝ) x y, Spec.outer r A x y = Spec.outer r A y x := fun A x y =>
    sum_congr rfl fun a _ => mul_comm _ _
  have htr : ∀ A : ℕ → ℕ → ℝ, (g * ((Matrix.of fun (x : Fin n) (a : Fin r) => A x a) *
      (Matrix.of fun (x : Fin n) (a : Fin r) => A x a)ᵀ)).trace = ∑ x ∈ range n, ∑ y ∈ range n, G x y * Spec.outer r A x y := by
    intro A
    rw [hout, Matrix.trace, sum_range]
    refine sum_congr rfl fun x _ => ?_
    rw [Matrix.diag_apply, Matrix.mul_apply, sum_range]
    refine sum_congr rfl fun y _ => ?_
    simp only [hg, Matrix.of_apply]
    rw [hsymm]
  have hQr : Spec.Orthonormal n r Q := fun a ha c hc => hQ a (by omega) c (by omega)
  have e : (Matrix.of fun (x y : Fin n) => Spec.outer r Q x y) =
      q * diagonal (fun k : Fin n => if k.1 < r then (1 : ℝ) else 0) * qᵀ := by
    ext x y
    rw [Matrix.mul_apply]
    simp only [Matrix.mul_diagonal, Matrix.transpose_apply, hq, Matrix.of_apply, Spec.outer]
    rw [Fin.sum_univ_eq_sum_range (fun k => Q x k * (if k < r then 1 else 0) * Q y k) n,
      ← sum_filter_add_sum_filter_not (range n) (fun k => k < r)]
    have e0 : ∑ k ∈ range n with ¬ k < r, Q x k * (if k < r then 1 else 0) * Q y k = 0 :=
      sum_eq_zero fun k hk => by rw [if_neg (mem_filter.1 hk).2]; ring
    rw [e0, add_zero]
    have e1 : (range n).filter (fun k => k < r) = range r := by
      ext k; simp only [mem_filter, mem_range]; omega
    rw [e1]
    exact sum_congr rfl fun k hk => by rw [if_pos (mem_range.1 hk)]; ring
  have hval : ∑ x ∈ range n, ∑ y ∈ range n, G x y * Spec.outer r Q x y = ∑ k : Fin n, if k.1 < r then σ k else 0 := by
    rw [← htr, hout, e, hgq]
    have e2 : q * diagonal (fun k : Fin n => σ k) * qᵀ * (q * diagonal (fun k : Fin n => if k.1 < r then (1 : ℝ) else 0) * qᵀ) =
        q * (diagonal (fun k : Fin n => σ k * if k.1 < r then (1 : ℝ) else 0) * qᵀ) := by
      calc _ = q * diagonal (fun k : Fin n => σ k) * (qᵀ * q) * diagonal (fun k : Fin n => if k.1 < r then (1 : ℝ) else 0) * qᵀ := by
            simp only [Matrix.mul_assoc]
        _ = _ := by rw [hq1, Matrix.mul_one, Matrix.mul_assoc q, diagonal_mul_diagonal, Matrix.mul_assoc]
    rw [e2, Matrix.trace_mul_comm, Matrix.mul_assoc, hq1, Matrix.mul_one, Matrix.trace]
    refine sum_congr rfl fun k _ => ?_
    rw [Matrix.diag_apply, diagonal_apply_eq]
    split_ifs <;> simp
  have h := KyFan.span_unique hq1 (σ := fun k : Fin n => σ k) (fun a c ha hc => hgap a.1 ha c.1 hc c.2) hgq hr hb1 (by
    rw [htr, ← hval]
    exact hmax Q hQr)
  intro x hx y hy
  rw [hout, ← e] at h
  have := congrFun (congrFun h ⟨x, hx⟩) ⟨y, hy⟩
  simp only [Matrix.of_apply] at this
  rw [this, hPQ x hx y hy]

/-- A best update follows HOOI on subspaces. -/
theorem BestMode.span {dims rk : Fin N → ℕ} (hr : ∀ j, rk j ≤ dims j) {V : Tensor ℝ} {W W' : List (Tensor ℝ)} {i : Fin N}
    (h : BestMode dims rk V W W' i) {P P' : Fin N → ℕ → ℕ → ℝ} (hP : Spec.SpanUpdate dims rk (arr V N) i P P')
    (hW : Spec.Spans dims rk (mats W) P) : Spec.Spans dims rk (mats W') P' := by
  obtain ⟨⟨U, _, e⟩, ho, hmax⟩ := h
  have hne : ∀ j, j ≠ i → mats (N := N) W' j = mats W j := fun j hj => by rw [e]; exact mats_set_ne U hj
  intro j
  by_cases hj : j = i
  · subst hj
    refine leading_unique (hr j) hP.2 ho fun A hA => ?_
    have key : ∀ B : Fin N → ℕ → ℕ → ℝ, (∀ m, m ≠ j → B m = mats (N := N) W m) → coreSq dims rk V B =
        ∑ x ∈ range (dims j), ∑ y ∈ range (dims j), Spec.spanGram dims (arr V N) P j x y * Spec.outer (rk j) (B j) x y := by
      intro B hB
      change Spec.coreNormSq dims rk (arr V N) B = _
      rw [coreNormSq_span, spanNormSq_split _ _ _ j]
      refine sum_congr rfl fun x _ => sum_congr rfl fun y _ => ?_
      rw [spanGram_congr (P' := P) fun m hm x hx y hy => by rw [hB m hm]; exact hW m x hx y hy]
    have := hmax A hA
    rw [key _ (fun m hm => by rw [update_of_ne hm]), key _ hne, update_self] at this
    exact this
  · intro x hx y hy
    rw [hne j hj, hP.1 j hj]
    exact hW j x hx y hy

/-- A sweep of best updates follows the sweep on subspaces. -/
theorem BestRun.span {dims rk : Fin N → ℕ} (hr : ∀ j, rk j ≤ dims j) {V : Tensor ℝ} {W W' : List (Tensor ℝ)}
    (h : BestRun dims rk V W W' N) {P P' : Fin N → ℕ → ℕ → ℝ} (hP : Spec.SpanSweep dims rk (arr V N) P P')
    (hW : Spec.Spans dims rk (mats W) P) : Spec.Spans dims rk (mats W') P' := by
  obtain ⟨st, a1, a2, a3⟩ := h
  obtain ⟨ps, b1, b2, b3⟩ := hP
  have : ∀ n ≤ N, Spec.Spans dims rk (mats (st n)) (ps n) := by
    intro n
    induction n with
    | zero => intro _; rw [a1, b1]; exact hW
    | succ n ih =>
      intro hn
      exact (a3 ⟨n, by omega⟩ (by simp only; omega)).span hr (b3 ⟨n, by omega⟩) (ih (by omega))
  rw [← a2, ← b2]
  exact this N le_rfl

end Model
