import Verif.Proofs.Span

/-! HOOI on subspaces commutes with orthogonal changes of coordinates. -/

namespace Model

open Finset Function Matrix

variable {N : ℕ}

/-- The quadratic form in new coordinates. -/
theorem spanNormSq_rot (dims : Fin N → ℕ) (Q : Fin N → ℕ → ℕ → ℝ) (c : ℝ) (V : (Fin N → ℕ) → ℝ) (P : Fin N → ℕ → ℕ → ℝ) :
    Spec.spanNormSq dims (Spec.rotTensor dims Q c V) P =
      c ^ 2 * Spec.spanNormSq dims V fun j => Spec.rotProj (dims j) (fun a x => Q j x a) (P j) := by
  have e1 : ∀ u v, Spec.rotTensor dims Q c V u * Spec.rotTensor dims Q c V v * ∏ j, P j (u j) (v j) =
      c ^ 2 * ∑ p ∈ Spec.Box dims, ∑ q ∈ Spec.Box dims, V p * V q * ∏ j, (Q j (u j) (p j) * Q j (v j) (q j) * P j (u j) (v j)) := by
    intro u v
    unfold Spec.rotTensor
    rw [show ∀ A B C : ℝ, c * A * (c * B) * C = c ^ 2 * (A * B * C) by intros; ring, sum_mul_sum, sum_mul]
    congr 1
    refine sum_congr rfl fun p _ => ?_
    rw [sum_mul]
    refine sum_congr rfl fun q _ => ?_
    rw [prod_mul_distrib, prod_mul_distrib]
    ring
  unfold Spec.spanNormSq
  simp only [e1, ← mul_sum]
  congr 1
  have e2 : ∀ p q : Fin N → ℕ, ∏ j, Spec.rotProj (dims j) (fun a x => Q j x a) (P j) (p j) (q j) =
      ∑ u ∈ Spec.Box dims, ∑ v ∈ Spec.Box dims, ∏ j, (Q j (u j) (p j) * Q j (v j) (q j) * P j (u j) (v j)) := by
    intro p q
    unfold Spec.rotProj
    rw [Finset.prod_univ_sum (fun j => range (dims j))]
    refine sum_congr rfl fun u _ => ?_
    rw [Finset.prod_univ_sum (fun j => range (dims j))]
    rfl
  simp only [e2, mul_sum]
  have e3 : ∀ F : (Fin N → ℕ) → (Fin N → ℕ) → (Fin N → ℕ) → (Fin N → ℕ) → ℝ,
      ∑ u ∈ Spec.Box dims, ∑ v ∈ Spec.Box dims, ∑ p ∈ Spec.Box dims, ∑ q ∈ Spec.Box dims, F u v p q =
      ∑ p ∈ Spec.Box dims, ∑ q ∈ Spec.Box dims, ∑ u ∈ Spec.Box dims, ∑ v ∈ Spec.Box dims, F u v p q := by
    intro F
    calc _ = ∑ u ∈ Spec.Box dims, ∑ p ∈ Spec.Box dims, ∑ v ∈ Spec.Box dims, ∑ q ∈ Spec.Box dims, F u v p q :=
          sum_congr rfl fun u _ => sum_comm
      _ = ∑ p ∈ Spec.Box dims, ∑ u ∈ Spec.Box dims, ∑ v ∈ Spec.Box dims, ∑ q ∈ Spec.Box dims, F u v p q := sum_comm
      _ = ∑ p ∈ Spec.Box dims, ∑ u ∈ Spec.Box dims, ∑ q ∈ Spec.Box dims, ∑ v ∈ Spec.Box dims, F u v p q :=
          sum_congr rfl fun p _ => sum_congr rfl fun u _ => sum_comm
      _ = _ := sum_congr rfl fun p _ => sum_comm
  exact e3 _

/-- An entry of the Gram matrix as a value of the quadratic form. -/
theorem spanGram_eq_norm {dims : Fin N → ℕ} (V : (Fin N → ℕ) → ℝ) (P : Fin N → ℕ → ℕ → ℝ) (i : Fin N) {x y : ℕ} (hx : x < dims i)
    (hy : y < dims i) : Spec.spanGram dims V P i x y =
      Spec.spanNormSq dims V (update P i fun a b => if a = x ∧ b = y then 1 else 0) := by
  rw [spanNormSq_split _ _ _ i]
  have e : ∀ a b, Spec.spanGram dims V (update P i fun a b => if a = x ∧ b = y then 1 else 0) i a b = Spec.spanGram dims V P i a b :=
    fun a b => spanGram_congr (fun j hj _ _ _ _ => by rw [update_of_ne hj]) a b
  simp only [e, update_self]
  rw [sum_eq_single x, sum_eq_single y]
  · rw [if_pos ⟨rfl, rfl⟩, mul_one]
  · intro b _ hb; rw [if_neg fun h => hb h.2, mul_zero]
  · intro h; exact absurd (mem_range.2 hy) h
  · intro a _ ha
    exact sum_eq_zero fun b _ => by rw [if_neg fun h => ha h.1, mul_zero]
  · intro h; exact absurd (mem_range.2 hx) h

/-- `Q` orthonormal: both products with the transpose are the identity. -/
theorem orth_rows {n : ℕ} {Q : ℕ → ℕ → ℝ} (h : Spec.Orthonormal n n Q) : ∀ x < n, ∀ y < n,
    ∑ a ∈ range n, Q x a * Q y a = if x = y then 1 else 0 := by
  have h1 := orthonormal_iff.1 h
  have h2 := mul_eq_one_comm.1 h1
  intro x hx y hy
  have := congrFun (congrFun h2 ⟨x, hx⟩) ⟨y, hy⟩
  rw [Matrix.mul_apply, Matrix.one_apply] at this
  simp only [Fin.ext_iff] at this
  rw [sum_range, ← this]; rfl

theorem rotProj_back {n : ℕ} {Q : ℕ → ℕ → ℝ} (h : Spec.Orthonormal n n Q) (P : ℕ → ℕ → ℝ) {a b : ℕ} (ha : a < n) (hb : b < n) :
    Spec.rotProj n (fun a x => Q x a) (Spec.rotProj n Q P) a b = P a b := by
  unfold Spec.rotProj
  have e : ∀ x y, Q x a * Q y b * ∑ a' ∈ range n, ∑ b' ∈ range n, Q x a' * Q y b' * P a' b' =
      ∑ a' ∈ range n, ∑ b' ∈ range n, P a' b' * (Q x a * Q x a') * (Q y b * Q y b') := by
    intro x y
    rw [mul_sum]
    refine sum_congr rfl fun a' _ => ?_
    rw [mul_sum]
    exact sum_congr rfl fun b' _ => by ring
  simp only [e]
  have e3 : ∀ F : ℕ → ℕ → ℕ → ℕ → ℝ,
      ∑ u ∈ range n, ∑ v ∈ range n, ∑ p ∈ range n, ∑ q ∈ range n, F u v p q =
      ∑ p ∈ range n, ∑ q ∈ range n, ∑ u ∈ range n, ∑ v ∈ range n, F u v p q := by
    intro F
    calc _ = ∑ u ∈ range n, ∑ p ∈ range n, ∑ v ∈ range n, ∑ q ∈ range n, F u v p q := sum_congr rfl fun u _ => sum_comm
      _ = ∑ p ∈ range n, ∑ u ∈ range n, ∑ v ∈ range n, ∑ q ∈ range n, F u v p q := sum_comm
      _ = ∑ p ∈ range n, ∑ u ∈ range n, ∑ q ∈ range n, ∑ v ∈ range n, F u v p q :=
          sum_congr rfl fun p _ => sum_congr rfl fun u _ => sum_comm
      _ = _ := sum_congr rfl fun p _ => sum_comm
  rw [e3]
  have e4 : ∀ a' < n, ∀ b' < n, ∑ u ∈ range n, ∑ v ∈ range n, P a' b' * (Q u a * Q u a') * (Q v b * Q v b') =
      P a' b' * (if a = a' then 1 else 0) * (if b = b' then 1 else 0) := by
    intro a' ha' b' hb'
    have h1 := h a ha a' ha'
    have h2 := h b hb b' hb'
    unfold Spec.gram at h1 h2
    rw [← h1, ← h2, mul_assoc, sum_mul_sum, mul_sum]
    refine sum_congr rfl fun u _ => ?_
    rw [mul_sum]
    exact sum_congr rfl fun v _ => by ring
  rw [sum_eq_single a, sum_eq_single b]
  · rw [e4 a ha b hb, if_pos rfl, if_pos rfl]; ring
  · intro b' hb' hne; rw [e4 a ha b' (mem_range.1 hb'), if_neg (Ne.symm hne), mul_zero]
  · intro h; exact absurd (mem_range.2 hb) h
  · intro a' ha' hne
    refine sum_eq_zero fun b' hb' => ?_
    rw [e4 a' (mem_range.1 ha') b' (mem_range.1 hb'), if_neg (Ne.symm hne)]; ring
  · intro h; exact absurd (mem_range.2 ha) h

/-- The norm of the projected tensor in new coordinates. -/
theorem spanNormSq_rot' {dims : Fin N → ℕ} {Q : Fin N → ℕ → ℕ → ℝ} (hQ : ∀ j, Spec.Orthonormal (dims j) (dims j) (Q j)) (c : ℝ)
    (V : (Fin N → ℕ) → ℝ) (P : Fin N → ℕ → ℕ → ℝ) :
    Spec.spanNormSq dims (Spec.rotTensor dims Q c V) (fun j => Spec.rotProj (dims j) (Q j) (P j)) =
      c ^ 2 * Spec.spanNormSq dims V P := by
  rw [spanNormSq_rot]
  congr 1
  exact spanNormSq_congr fun j x hx y hy => rotProj_back (hQ j) (P j) hx hy

/-- The Gram matrix in new coordinates. -/
theorem spanGram_rot {dims : Fin N → ℕ} {Q : Fin N → ℕ → ℕ → ℝ} (hQ : ∀ j, Spec.Orthonormal (dims j) (dims j) (Q j)) (c : ℝ)
    (V : (Fin N → ℕ) → ℝ) (P : Fin N → ℕ → ℕ → ℝ) (i : Fin N) {x y : ℕ} (hx : x < dims i) (hy : y < dims i) :
    Spec.spanGram dims (Spec.rotTensor dims Q c V) (fun j => Spec.rotProj (dims j) (Q j) (P j)) i x y =
      c ^ 2 * Spec.rotProj (dims i) (Q i) (Spec.spanGram dims V P i) x y := by
  rw [spanGram_eq_norm _ _ i hx hy, spanNormSq_rot]
  congr 1
  rw [spanNormSq_split _ _ _ i]
  unfold Spec.rotProj
  refine sum_congr rfl fun a ha => sum_congr rfl fun b hb => ?_
  rw [spanGram_congr (P' := P), update_self]
  · rw [mul_comm]
    congr 1
    rw [sum_eq_single x, sum_eq_single y]
    · rw [if_pos ⟨rfl, rfl⟩, mul_one]
    · intro b _ hb; rw [if_neg fun h => hb h.2, mul_zero]
    · intro h; exact absurd (mem_range.2 hy) h
    · intro a _ ha
      exact sum_eq_zero fun b _ => by rw [if_neg fun h => ha h.1, mul_zero]
    · intro h; exact absurd (mem_range.2 hx) h
  · intro j hj p hp q hq
    rw [update_of_ne hj]
    exact rotProj_back (hQ j) (P j) hp hq

/-- `Q` times a matrix with orthonormal columns. -/
theorem rotFactor_orth {n r : ℕ} {Q B : ℕ → ℕ → ℝ} (hQ : Spec.Orthonormal n n Q) (hB : Spec.Orthonormal n r B) :
    Spec.Orthonormal n r (Spec.rotFactor n Q B) := by
  intro a ha b hb
  rw [← hB a ha b hb]
  unfold Spec.gram Spec.rotFactor
  have e : ∀ x, (∑ y ∈ range n, Q x y * B y a) * ∑ y ∈ range n, Q x y * B y b =
      ∑ y ∈ range n, ∑ z ∈ range n, (Q x y * Q x z) * (B y a * B z b) := by
    intro x
    rw [sum_mul_sum]
    exact sum_congr rfl fun y _ => sum_congr rfl fun z _ => by ring
  simp only [e]
  rw [sum_comm]
  refine sum_congr rfl fun y hy => ?_
  rw [sum_comm]
  have e2 : ∀ z ∈ range n, ∑ x ∈ range n, Q x y * Q x z * (B y a * B z b) = (if y = z then 1 else 0) * (B y a * B z b) := by
    intro z hz
    rw [← sum_mul]
    congr 1
    exact hQ y (mem_range.1 hy) z (mem_range.1 hz)
  rw [sum_congr rfl e2, sum_eq_single y]
  · rw [if_pos rfl, one_mul]
  · intro z _ hz; rw [if_neg (Ne.symm hz), zero_mul]
  · intro h; exact absurd hy h

/-- `(QW)(QW)ᵀ = Q (W Wᵀ) Qᵀ`. -/
theorem outer_rot (n r : ℕ) (Q W : ℕ → ℕ → ℝ) (x y : ℕ) :
    Spec.outer r (Spec.rotFactor n Q W) x y = Spec.rotProj n Q (Spec.outer r W) x y := by
  unfold Spec.outer Spec.rotFactor Spec.rotProj
  have e : ∀ k, (∑ a ∈ range n, Q x a * W a k) * ∑ b ∈ range n, Q y b * W b k =
      ∑ a ∈ range n, ∑ b ∈ range n, Q x a * Q y b * (W a k * W b k) := by
    intro k
    rw [sum_mul_sum]
    exact sum_congr rfl fun a _ => sum_congr rfl fun b _ => by ring
  rw [sum_congr rfl fun k _ => e k, sum_comm]
  refine sum_congr rfl fun a _ => ?_
  rw [sum_comm]
  exact sum_congr rfl fun b _ => by rw [mul_sum]

theorem rotProj_congr {n : ℕ} {Q P P' : ℕ → ℕ → ℝ} (h : ∀ a < n, ∀ b < n, P a b = P' a b) (x y : ℕ) :
    Spec.rotProj n Q P x y = Spec.rotProj n Q P' x y :=
  sum_congr rfl fun a ha => sum_congr rfl fun b hb => by rw [h a (mem_range.1 ha) b (mem_range.1 hb)]

/-- Leading eigenspaces in new coordinates. -/
theorem leading_rot {n r : ℕ} (hr : r ≤ n) {G G' P Q : ℕ → ℕ → ℝ} {c : ℝ} (hc : c ≠ 0) (hQ : Spec.Orthonormal n n Q)
    (h : Spec.LeadingProj n r G P) (hG : ∀ x < n, ∀ y < n, G' x y = c ^ 2 * Spec.rotProj n Q G x y) :
    Spec.LeadingProj n r G' (Spec.rotProj n Q P) := by
  obtain ⟨B, σ, hB, hGB, hgap, hP⟩ := h
  have hc2 : 0 < c ^ 2 := by positivity
  refine ⟨Spec.rotFactor n Q B, fun k => c ^ 2 * σ k, rotFactor_orth hQ hB, ?_, ?_, ?_⟩
  · intro x hx y hy
    rw [hG x hx y hy, rotProj_congr hGB]
    unfold Spec.rotProj Spec.rotFactor
    simp only [mul_sum, sum_mul]
    calc ∑ a ∈ range n, ∑ b ∈ range n, ∑ k ∈ range n, c ^ 2 * (Q x a * Q y b * (σ k * (B a k * B b k)))
        = ∑ k ∈ range n, ∑ a ∈ range n, ∑ b ∈ range n, c ^ 2 * (Q x a * Q y b * (σ k * (B a k * B b k))) := by
          rw [sum_congr rfl fun a _ => sum_comm]
          exact sum_comm
      _ = _ := by
          refine sum_congr rfl fun k _ => ?_
          rw [sum_comm]
          exact sum_congr rfl fun a _ => sum_congr rfl fun b _ => by ring
  · intro a ha b hb hbn
    exact mul_lt_mul_of_pos_left (hgap a ha b hb hbn) hc2
  · intro x hx y hy
    rw [outer_rot]
    exact rotProj_congr hP x y

/-- A sweep on subspaces in new coordinates. -/
theorem spanSweep_rot {dims rk : Fin N → ℕ} (hr : ∀ j, rk j ≤ dims j) {Q : Fin N → ℕ → ℕ → ℝ}
    (hQ : ∀ j, Spec.Orthonormal (dims j) (dims j) (Q j)) {c : ℝ} (hc : c ≠ 0) {V : (Fin N → ℕ) → ℝ} {P P' : Fin N → ℕ → ℕ → ℝ}
    (h : Spec.SpanSweep dims rk V P P') :
    Spec.SpanSweep dims rk (Spec.rotTensor dims Q c V) (fun j => Spec.rotProj (dims j) (Q j) (P j))
      (fun j => Spec.rotProj (dims j) (Q j) (P' j)) := by
  obtain ⟨st, h0, h1, h2⟩ := h
  refine ⟨fun n j => Spec.rotProj (dims j) (Q j) (st n j), by rw [← h0], by rw [← h1], fun i => ⟨?_, ?_⟩⟩
  · intro j hj
    beta_reduce
    rw [(h2 i).1 j hj]
  · exact leading_rot (hr i) hc (hQ i) (h2 i).2 fun x hx y hy => spanGram_rot hQ c V (st i.1) i hx hy

theorem spanSweep_congr {dims rk : Fin N → ℕ} {V V' : (Fin N → ℕ) → ℝ} (hV : ∀ idx : Fin N → ℕ, (∀ j, idx j < dims j) → V idx = V' idx)
    {P P' : Fin N → ℕ → ℕ → ℝ} (h : Spec.SpanSweep dims rk V P P') : Spec.SpanSweep dims rk V' P P' := by
  obtain ⟨st, h0, h1, h2⟩ := h
  refine ⟨st, h0, h1, fun i => ⟨(h2 i).1, ?_⟩⟩
  have e : Spec.spanGram dims V' (st i.1) i = Spec.spanGram dims V (st i.1) i := by
    funext x y
    refine sum_congr rfl fun u hu => sum_congr rfl fun v hv => ?_
    rw [hV u (Spec.mem_Box.1 (mem_filter.1 hu).1), hV v (Spec.mem_Box.1 (mem_filter.1 hv).1)]
  rw [e]
  exact (h2 i).2

/-- The projected tensor in new coordinates is the projected tensor, in new coordinates. -/
theorem spanRecon_rot {dims : Fin N → ℕ} {Q : Fin N → ℕ → ℕ → ℝ} (hQ : ∀ j, Spec.Orthonormal (dims j) (dims j) (Q j)) (c : ℝ)
    (V : (Fin N → ℕ) → ℝ) (P : Fin N → ℕ → ℕ → ℝ) (idx : Fin N → ℕ) :
    Spec.spanRecon dims (Spec.rotTensor dims Q c V) (fun j => Spec.rotProj (dims j) (Q j) (P j)) idx =
      Spec.rotTensor dims Q c (Spec.spanRecon dims V P) idx := by
  unfold Spec.spanRecon Spec.rotTensor
  -- `∑_x Q[x,q] (Q P Qᵀ)[z,x] = ∑_a Q[z,a] P[a,q]`
  have e0 : ∀ j z q, q < dims j → ∑ x ∈ range (dims j), Q j x q * Spec.rotProj (dims j) (Q j) (P j) z x =
      ∑ a ∈ range (dims j), Q j z a * P j a q := by
    intro j z q hq
    unfold Spec.rotProj
    simp only [mul_sum]
    rw [sum_comm]
    refine sum_congr rfl fun a _ => ?_
    rw [sum_comm]
    have e : ∀ b ∈ range (dims j), ∑ x ∈ range (dims j), Q j x q * (Q j z a * Q j x b * P j a b) =
        (if q = b then 1 else 0) * (Q j z a * P j a b) := by
      intro b hb
      rw [← hQ j q hq b (mem_range.1 hb)]
      unfold Spec.gram
      rw [sum_mul]
      exact sum_congr rfl fun x _ => by ring
    rw [sum_congr rfl e, sum_eq_single q]
    · rw [if_pos rfl, one_mul]
    · intro b _ hb; rw [if_neg (Ne.symm hb), zero_mul]
    · intro h; exact absurd (mem_range.2 hq) h
  have l : ∀ u : Fin N → ℕ, c * (∑ y ∈ Spec.Box dims, (∏ j, Q j (u j) (y j)) * V y) * ∏ j, Spec.rotProj (dims j) (Q j) (P j) (idx j) (u j) =
      ∑ y ∈ Spec.Box dims, c * V y * ∏ j, (Q j (u j) (y j) * Spec.rotProj (dims j) (Q j) (P j) (idx j) (u j)) := by
    intro u
    rw [mul_sum, sum_mul]
    refine sum_congr rfl fun y _ => ?_
    rw [prod_mul_distrib]; ring
  simp only [l]
  rw [sum_comm]
  have m : ∀ y ∈ Spec.Box dims, ∑ u ∈ Spec.Box dims, c * V y * ∏ j, (Q j (u j) (y j) * Spec.rotProj (dims j) (Q j) (P j) (idx j) (u j)) =
      c * V y * ∏ j, ∑ a ∈ range (dims j), Q j (idx j) a * P j a (y j) := by
    intro y hy
    rw [← mul_sum]
    congr 1
    unfold Spec.Box
    rw [← Finset.prod_univ_sum (fun j => range (dims j)) (fun j x => Q j x (y j) * Spec.rotProj (dims j) (Q j) (P j) (idx j) x)]
    exact prod_congr rfl fun j _ => e0 j _ _ (Spec.mem_Box.1 hy j)
  rw [sum_congr rfl m]
  simp only [mul_sum]
  rw [sum_comm]
  refine sum_congr rfl fun y _ => ?_
  rw [Finset.prod_univ_sum (fun j => range (dims j)), mul_sum]
  refine sum_congr rfl fun a _ => ?_
  rw [prod_mul_distrib]
  ring

end Model
