import Verif.Proofs.HooiSweep
import Verif.Proofs.EckartYoung

/-! The error of a truncated HOSVD is at most `sqrt N` times that of any approximation with the same ranks. -/

namespace Model

open Finset Function Matrix

variable {N : ℕ}

/-- The projection onto the orthogonal complement of the columns of `B`. -/
def orthQ (m : ℕ) (B : ℕ → ℕ → ℝ) (x y : ℕ) : ℝ := (if x = y then 1 else 0) - ∑ a ∈ range m, B x a * B y a

theorem sumSq_id (lens : Fin N → ℕ) (g : (Fin N → ℕ) → ℝ) (i : Fin N) :
    Spec.sumSq lens g = ∑ x ∈ range (lens i), Spec.unfoldGram lens g i x x := by
  unfold Spec.sumSq
  conv_lhs => rw [show lens = update lens i (lens i) by simp]
  rw [box_split]
  refine sum_congr rfl fun x hx => ?_
  rw [unfoldGram_eq lens g i (mem_range.1 hx)]
  exact sum_congr rfl fun z _ => by rw [sq]

theorem orthQ_sq {n m : ℕ} {B : ℕ → ℕ → ℝ} (hB : Spec.Orthonormal n m B) {x y : ℕ} (hx : x < n) (hy : y < n) :
    ∑ c ∈ range n, orthQ m B x c * orthQ m B y c = orthQ m B x y := by
  unfold orthQ
  simp only [sub_mul, mul_sub, ite_mul, mul_ite, one_mul, mul_one, zero_mul, mul_zero, sum_sub_distrib]
  have e2 : ∑ c ∈ range n, (if x = c then ∑ a ∈ range m, B y a * B c a else 0) = ∑ a ∈ range m, B x a * B y a := by
    rw [sum_ite_eq, if_pos (mem_range.2 hx)]
    exact sum_congr rfl fun a _ => mul_comm _ _
  have e4 : ∑ c ∈ range n, (∑ a ∈ range m, B x a * B c a) * ∑ a ∈ range m, B y a * B c a = ∑ a ∈ range m, B x a * B y a := by
    simp only [sum_mul_sum]
    rw [sum_comm]
    refine sum_congr rfl fun a ha => ?_
    rw [sum_comm]
    have : ∀ b ∈ range m, ∑ c ∈ range n, B x a * B c a * (B y b * B c b) = if a = b then B x a * B y b else 0 := by
      intro b hb
      have := hB a (mem_range.1 ha) b (mem_range.1 hb)
      unfold Spec.gram at this
      rw [show (if a = b then B x a * B y b else 0) = B x a * B y b * (if a = b then 1 else 0) by split_ifs <;> simp, ← this, mul_sum]
      exact sum_congr rfl fun c _ => by ring
    rw [sum_congr rfl this, sum_ite_eq, if_pos ha]
  have e5 : ∑ c ∈ range n, (if y = c then (if x = c then (1 : ℝ) else 0) - ∑ a ∈ range m, B x a * B c a else 0) =
      (if x = y then 1 else 0) - ∑ a ∈ range m, B x a * B y a := by
    rw [sum_ite_eq, if_pos (mem_range.2 hy)]
  rw [e5, e4, e2]
  ring

/-- Pythagoras for the projection of one mode. -/
theorem sumSq_pyth (lens : Fin N → ℕ) (g : (Fin N → ℕ) → ℝ) (i : Fin N) {m : ℕ} {B : ℕ → ℕ → ℝ} (hB : Spec.Orthonormal (lens i) m B) :
    Spec.sumSq lens g = Spec.sumSq (update lens i m) (ttmVal lens g i B) + Spec.sumSq lens (ttmVal lens g i (orthQ m B)) := by
  have h2 := sumSq_ttm lens g i (lens i) (orthQ m B)
  rw [update_eq_self] at h2
  rw [h2, sumSq_ttm, sumSq_id lens g i]
  have e : ∑ a ∈ range (lens i), ∑ x ∈ range (lens i), ∑ y ∈ range (lens i), orthQ m B x a * Spec.unfoldGram lens g i x y * orthQ m B y a =
      ∑ x ∈ range (lens i), ∑ y ∈ range (lens i), orthQ m B x y * Spec.unfoldGram lens g i x y := by
    rw [sum_comm]
    refine sum_congr rfl fun x hx => ?_
    rw [sum_comm]
    refine sum_congr rfl fun y hy => ?_
    rw [← orthQ_sq hB (mem_range.1 hx) (mem_range.1 hy), sum_mul]
    exact sum_congr rfl fun c _ => by ring
  rw [e]
  have e2 : ∀ x ∈ range (lens i), ∑ y ∈ range (lens i), orthQ m B x y * Spec.unfoldGram lens g i x y =
      Spec.unfoldGram lens g i x x - ∑ y ∈ range (lens i), ∑ a ∈ range m, B x a * Spec.unfoldGram lens g i x y * B y a := by
    intro x hx
    unfold orthQ
    simp only [sub_mul, ite_mul, one_mul, zero_mul, sum_sub_distrib]
    rw [sum_ite_eq, if_pos hx]
    congr 1
    refine sum_congr rfl fun y _ => ?_
    rw [sum_mul]
    exact sum_congr rfl fun a _ => by ring
  rw [sum_congr rfl e2, sum_sub_distrib]
  have e3 : ∑ a ∈ range m, ∑ x ∈ range (lens i), ∑ y ∈ range (lens i), B x a * Spec.unfoldGram lens g i x y * B y a =
      ∑ x ∈ range (lens i), ∑ y ∈ range (lens i), ∑ a ∈ range m, B x a * Spec.unfoldGram lens g i x y * B y a := by
    rw [sum_comm]
    exact sum_congr rfl fun x _ => sum_comm
  rw [e3]
  ring

theorem sumSq_nonneg (lens : Fin N → ℕ) (g : (Fin N → ℕ) → ℝ) : 0 ≤ Spec.sumSq lens g := sum_nonneg fun _ _ => sq_nonneg _

theorem sumSq_congr {lens : Fin N → ℕ} {g g' : (Fin N → ℕ) → ℝ} (h : ∀ z : Fin N → ℕ, (∀ j, z j < lens j) → g z = g' z) :
    Spec.sumSq lens g = Spec.sumSq lens g' := sum_congr rfl fun z hz => by rw [h z (Spec.mem_Box.1 hz)]

theorem klens_univ (dims rk : Fin N → ℕ) : klens dims rk univ = dims := by funext j; simp [klens]

theorem klens_empty (dims rk : Fin N → ℕ) : klens dims rk ∅ = rk := by funext j; simp [klens]

/-- Multiplying kept mode `i` by a square matrix commutes with the multiplication of the other modes. -/
theorem ttmVal_multiTTM_comm {dims rk : Fin N → ℕ} {V : (Fin N → ℕ) → ℝ} {W : Fin N → ℕ → ℕ → ℝ} {i : Fin N} (Q : ℕ → ℕ → ℝ) :
    ∀ s : Finset (Fin N), i ∉ s → ∀ z : Fin N → ℕ, (∀ j, z j < klens dims rk sᶜ j) →
      ttmVal (klens dims rk sᶜ) (Spec.multiTTM dims V W sᶜ) i Q z = Spec.multiTTM dims (ttmVal dims V i Q) W sᶜ z := by
  intro s
  induction s using Finset.induction_on with
  | empty =>
    intro _ z hz
    rw [compl_empty] at hz ⊢
    rw [klens_univ] at hz ⊢
    rw [Spec.multiTTM_eq, Spec.genContract_univ hz]
    unfold ttmVal
    refine sum_congr rfl fun x hx => ?_
    rw [Spec.multiTTM_eq, Spec.genContract_univ]
    intro j
    by_cases h : j = i
    · subst h; simpa using hx
    · rw [update_of_ne h]; exact hz j
  | insert j s hj ih =>
    intro hi z hz
    have hij : i ≠ j := fun h => hi (by simp [h])
    have his : i ∉ s := fun h => hi (by simp [h])
    have hc : (insert j s)ᶜ = sᶜ.erase j := by ext k; simp [not_or]
    have hjc : j ∈ sᶜ := by simpa using hj
    have hil : klens dims rk (sᶜ.erase j) i = dims i := by simp [klens, hij, his]
    have hil' : klens dims rk sᶜ i = dims i := by simp [klens, his]
    have hjl : klens dims rk sᶜ j = dims j := by simp [klens, hj]
    rw [hc] at hz ⊢
    rw [← ttmVal_multiTTM (rk := rk) hjc]
    have e1 : ttmVal (klens dims rk (sᶜ.erase j)) (Spec.multiTTM dims V W (sᶜ.erase j)) i Q z =
        ∑ x ∈ range (dims i), ∑ y ∈ range (dims j),
          Spec.multiTTM dims V W sᶜ (update (update z i x) j y) * W j y (z j) * Q x (z i) := by
      unfold ttmVal
      rw [hil]
      refine sum_congr rfl fun x _ => ?_
      rw [← ttmVal_multiTTM (rk := rk) hjc]
      unfold ttmVal
      rw [hjl, sum_mul, update_of_ne hij.symm]
    have e2 : ∀ g : (Fin N → ℕ) → ℝ, ttmVal (klens dims rk sᶜ) g j (W j) z = ∑ y ∈ range (dims j), g (update z j y) * W j y (z j) := by
      intro g
      unfold ttmVal
      rw [hjl]
    rw [e1, sum_comm, e2]
    refine sum_congr rfl fun y hy => ?_
    have hz' : ∀ k, update z j y k < klens dims rk sᶜ k := by
      intro k
      by_cases h : k = j
      · subst h; rw [update_self, hjl]; exact mem_range.1 hy
      · rw [update_of_ne h]
        have := hz k
        simpa [klens, h] using this
    rw [← ih his _ hz']
    unfold ttmVal
    rw [hil', sum_mul]
    refine sum_congr rfl fun x _ => ?_
    rw [update_comm hij, update_of_ne hij]
    ring

/-- Multiplying by orthonormal matrices does not increase the norm. -/
theorem sumSq_multiTTM_le {dims rk : Fin N → ℕ} {V : (Fin N → ℕ) → ℝ} {W : Fin N → ℕ → ℕ → ℝ}
    (hW : ∀ j, Spec.Orthonormal (dims j) (rk j) (W j)) :
    ∀ s : Finset (Fin N), Spec.sumSq (klens dims rk sᶜ) (Spec.multiTTM dims V W sᶜ) ≤ Spec.sumSq dims V := by
  intro s
  induction s using Finset.induction_on with
  | empty =>
    rw [compl_empty, klens_univ]
    refine le_of_eq (sumSq_congr fun z hz => ?_)
    rw [Spec.multiTTM_eq, Spec.genContract_univ hz]
  | insert j s hj ih =>
    have hc : (insert j s)ᶜ = sᶜ.erase j := by ext k; simp [not_or]
    have hjc : j ∈ sᶜ := by simpa using hj
    have hjl : klens dims rk sᶜ j = dims j := by simp [klens, hj]
    refine le_trans ?_ ih
    have h := sumSq_pyth (klens dims rk sᶜ) (Spec.multiTTM dims V W sᶜ) j (m := rk j) (B := W j) (by rw [hjl]; exact hW j)
    rw [klens_update] at h
    rw [hc]
    have e : ttmVal (klens dims rk sᶜ) (Spec.multiTTM dims V W sᶜ) j (W j) = Spec.multiTTM dims V W (sᶜ.erase j) := by
      funext z; exact ttmVal_multiTTM hjc z
    rw [e] at h
    have := sumSq_nonneg (klens dims rk sᶜ) (ttmVal (klens dims rk sᶜ) (Spec.multiTTM dims V W sᶜ) j (orthQ (rk j) (W j)))
    linarith

/-- The part of `V` lost by projecting mode `i`. -/
noncomputable def modeLoss (dims rk : Fin N → ℕ) (V : (Fin N → ℕ) → ℝ) (W : Fin N → ℕ → ℕ → ℝ) (i : Fin N) : ℝ :=
  Spec.sumSq dims (ttmVal dims V i (orthQ (rk i) (W i)))

/-- The squared norm lost by the projection of several modes is at most the sum of the losses of the single modes. -/
theorem loss_le {dims rk : Fin N → ℕ} {V : (Fin N → ℕ) → ℝ} {W : Fin N → ℕ → ℕ → ℝ}
    (hW : ∀ j, Spec.Orthonormal (dims j) (rk j) (W j)) :
    ∀ s : Finset (Fin N), Spec.sumSq dims V - Spec.sumSq (klens dims rk sᶜ) (Spec.multiTTM dims V W sᶜ) ≤
      ∑ i ∈ s, modeLoss dims rk V W i := by
  intro s
  induction s using Finset.induction_on with
  | empty =>
    rw [compl_empty, klens_univ, sum_empty]
    refine le_of_eq ?_
    rw [sub_eq_zero]
    refine sumSq_congr fun z hz => ?_
    rw [Spec.multiTTM_eq, Spec.genContract_univ hz]
  | insert j s hj ih =>
    have hc : (insert j s)ᶜ = sᶜ.erase j := by ext k; simp [not_or]
    have hjc : j ∈ sᶜ := by simpa using hj
    have hjl : klens dims rk sᶜ j = dims j := by simp [klens, hj]
    have h := sumSq_pyth (klens dims rk sᶜ) (Spec.multiTTM dims V W sᶜ) j (m := rk j) (B := W j) (by rw [hjl]; exact hW j)
    rw [klens_update] at h
    have e : ttmVal (klens dims rk sᶜ) (Spec.multiTTM dims V W sᶜ) j (W j) = Spec.multiTTM dims V W (sᶜ.erase j) := by
      funext z; exact ttmVal_multiTTM hjc z
    rw [e] at h
    have h2 : Spec.sumSq (klens dims rk sᶜ) (ttmVal (klens dims rk sᶜ) (Spec.multiTTM dims V W sᶜ) j (orthQ (rk j) (W j))) ≤
        modeLoss dims rk V W j := by
      rw [sumSq_congr (ttmVal_multiTTM_comm (orthQ (rk j) (W j)) s hj)]
      exact sumSq_multiTTM_le hW s
    rw [hc, sum_insert hj]
    linarith

/-- The squared error of an orthonormal Tucker approximation is at most the sum of the losses of its modes. -/
theorem tuckErr_le_losses {dims rk : Fin N → ℕ} {V : (Fin N → ℕ) → ℝ} {W : Fin N → ℕ → ℕ → ℝ}
    (hW : ∀ j, Spec.Orthonormal (dims j) (rk j) (W j)) :
    Spec.tuckErrSq dims rk V W ≤ ∑ i, modeLoss dims rk V W i := by
  have h := loss_le (V := V) hW univ
  rw [compl_univ, klens_empty] at h
  unfold Spec.tuckErrSq
  rw [error_identity hW]
  exact h

/-! ## The loss of a mode is minimal for the leading singular vectors -/

theorem trace_le_of_le {n r r' : ℕ} {M P : Matrix (Fin n) (Fin n) ℝ} {σ : Fin n → ℝ} (hP : Pᵀ * P = 1) (hanti : Antitone σ)
    (h0 : ∀ a, 0 ≤ σ a) (h : M = P * Matrix.diagonal σ * Pᵀ) (hr : r ≤ n) (hr' : r' ≤ r) {B : Matrix (Fin n) (Fin r') ℝ} (hB : Bᵀ * B = 1) :
    (Bᵀ * M * B).trace ≤ ((KyFan.firstCols hr P)ᵀ * M * KyFan.firstCols hr P).trace := by
  have h1 := KyFan.trace_le hP hanti h (hr'.trans hr) hB
  refine h1.trans ?_
  rw [KyFan.trace_firstCols hP h, KyFan.trace_firstCols hP h]
  have e : ∀ (m : ℕ) (hm : m ≤ n), ∑ a : Fin m, σ (Fin.castLE hm a) = ∑ a ∈ range m, if ha : a < n then σ ⟨a, ha⟩ else 0 := by
    intro m hm
    rw [sum_range]
    refine sum_congr rfl fun a _ => ?_
    rw [dif_pos (by omega)]
    rfl
  rw [e, e]
  refine sum_le_sum_of_subset_of_nonneg (range_subset_range.2 hr') fun a _ _ => ?_
  split_ifs
  · exact h0 _
  · exact le_rfl

theorem SvdTrunc.best_le {n r r' : ℕ} {u : LR ℝ} {M : Tensor ℝ} (h : SvdTrunc n r u M) (hr : r ≤ n) (hr' : r' ≤ r)
    (hM : (toM n n M).PosSemidef) {B : ℕ → ℕ → ℝ} (hB : Spec.Orthonormal n r' B) :
    ∑ a ∈ range r', ∑ x ∈ range n, ∑ y ∈ range n, B x a * mat M x y * B y a ≤
      ∑ a ∈ range r, ∑ x ∈ range n, ∑ y ∈ range n, mat u.U x a * mat M x y * mat u.U y a := by
  obtain ⟨P, Q, σ, hP, hQ, ha, h0, hm, hU⟩ := h.full
  have e : (Matrix.of fun (x : Fin n) (a : Fin r) => mat u.U x a) = KyFan.firstCols hr P := by
    ext x a
    exact hU x.1 a.1 x.2 (by omega) a.2
  rw [← trace_eq, ← trace_eq, e]
  exact trace_le_of_le hP ha h0 (KyFan.svd_psd hM hP hQ h0 hm) hr hr' (orthonormal_iff.1 hB)

/-- The columns of a matrix lie in the span of at most as many orthonormal columns. -/
theorem exists_orthonormal (n q : ℕ) (A : ℕ → ℕ → ℝ) : ∃ r ≤ q, ∃ Z : ℕ → ℕ → ℝ, Spec.Orthonormal n r Z ∧
    ∀ y < n, ∀ a < q, ∑ x ∈ range n, A x a * orthQ r Z x y = 0 := by
  obtain ⟨r, hr, Z, hZ, hA⟩ := EckartYoung.exists_orth (Matrix.of fun (x : Fin n) (a : Fin q) => A x a)
  refine ⟨r, hr, fun x a => if h : x < n ∧ a < r then Z ⟨x, h.1⟩ ⟨a, h.2⟩ else 0, ?_, ?_⟩
  · rw [orthonormal_iff, ← hZ]
    congr 1 <;> ext <;> simp
  · intro y hy a ha
    have h := congrFun (congrFun hA ⟨y, hy⟩) ⟨a, ha⟩
    simp only [Matrix.mul_apply, Matrix.transpose_apply, Matrix.of_apply] at h
    unfold orthQ
    simp only [mul_sub, mul_ite, mul_one, mul_zero, sum_sub_distrib]
    rw [sum_ite_eq', if_pos (mem_range.2 hy), sub_eq_zero, ← h]
    simp only [mul_sum, sum_range]
    rw [sum_comm]
    refine sum_congr rfl fun x _ => sum_congr rfl fun b _ => ?_
    simp only [Fin.is_lt, hy, and_self, dif_pos, Fin.eta]
    ring

/-- A tensor whose mode `i` lies in the span of the columns of `B` is annihilated by the projection onto their complement. -/
theorem ttmVal_tuckRecon {dims rk : Fin N → ℕ} (G : (Fin N → ℕ) → ℝ) {B : Fin N → ℕ → ℕ → ℝ} {i : Fin N} {Q : ℕ → ℕ → ℝ}
    (hQ : ∀ y < dims i, ∀ a < rk i, ∑ x ∈ range (dims i), B i x a * Q x y = 0) {z : Fin N → ℕ} (hz : ∀ j, z j < dims j) :
    ttmVal dims (Spec.tuckRecon rk G B) i Q z = 0 := by
  unfold ttmVal Spec.tuckRecon
  simp only [sum_mul]
  rw [sum_comm]
  refine sum_eq_zero fun w hw => ?_
  have hsplit : ∀ x, G w * (∏ j, B j (update z i x j) (w j)) * Q x (z i) =
      (G w * ∏ j ∈ univ.erase i, B j (z j) (w j)) * (B i x (w i) * Q x (z i)) := by
    intro x
    rw [← mul_prod_erase univ _ (mem_univ i), update_self]
    have : ∏ j ∈ univ.erase i, B j (update z i x j) (w j) = ∏ j ∈ univ.erase i, B j (z j) (w j) :=
      prod_congr rfl fun j hj => by rw [update_of_ne (ne_of_mem_erase hj)]
    rw [this]
    ring
  simp only [hsplit]
  rw [← mul_sum, hQ _ (hz i) _ (Spec.mem_Box.1 hw i), mul_zero]

/-- No approximation of the given ranks is closer than the projection of one mode on its leading singular vectors. -/
theorem modeLoss_le {dims rk : Fin N → ℕ} {V : (Fin N → ℕ) → ℝ} {W : Fin N → ℕ → ℕ → ℝ} {i : Fin N}
    (hW : Spec.Orthonormal (dims i) (rk i) (W i))
    (hbest : ∀ r ≤ rk i, ∀ B, Spec.Orthonormal (dims i) r B →
      ∑ a ∈ range r, ∑ x ∈ range (dims i), ∑ y ∈ range (dims i), B x a * Spec.unfoldGram dims V i x y * B y a ≤
        ∑ a ∈ range (rk i), ∑ x ∈ range (dims i), ∑ y ∈ range (dims i), W i x a * Spec.unfoldGram dims V i x y * W i y a)
    (G : (Fin N → ℕ) → ℝ) (B : Fin N → ℕ → ℕ → ℝ) :
    modeLoss dims rk V W i ≤ ∑ idx ∈ Spec.Box dims, (V idx - Spec.tuckRecon rk G B idx) ^ 2 := by
  obtain ⟨r, hr, Z, hZ, hA⟩ := exists_orthonormal (dims i) (rk i) (B i)
  have h1 := sumSq_pyth dims V i hW
  have h2 := sumSq_pyth dims V i hZ
  have h3 := sumSq_pyth dims (fun idx => V idx - Spec.tuckRecon rk G B idx) i hZ
  have h4 := hbest r hr Z hZ
  rw [sumSq_ttm] at h1 h2
  have h5 : Spec.sumSq dims (ttmVal dims (fun idx => V idx - Spec.tuckRecon rk G B idx) i (orthQ r Z)) =
      Spec.sumSq dims (ttmVal dims V i (orthQ r Z)) := by
    refine sumSq_congr fun z hz => ?_
    have := ttmVal_tuckRecon (dims := dims) G hA hz
    unfold ttmVal at this ⊢
    simp only [sub_mul, sum_sub_distrib]
    rw [this, sub_zero]
  have h6 := sumSq_nonneg (update dims i r) (ttmVal dims (fun idx => V idx - Spec.tuckRecon rk G B idx) i Z)
  unfold modeLoss
  change _ ≤ Spec.sumSq dims (fun idx => V idx - Spec.tuckRecon rk G B idx)
  linarith

end Model
