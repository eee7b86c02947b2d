import Verif.Proofs.TuckerSweep
import Verif.Proofs.KyFan
import Verif.Proofs.Solve

/-! The squared norm of the core as a quadratic form in one factor. -/

namespace Model

open Finset Function
open scoped Matrix

variable {N : ℕ}

section

variable {K : Type} [CommRing K]

theorem box_split (lens : Fin N → ℕ) (i : Fin N) (m : ℕ) (F : (Fin N → ℕ) → K) :
    ∑ z ∈ Spec.Box (update lens i m), F z = ∑ a ∈ range m, ∑ z ∈ Spec.Box (update lens i 1), F (update z i a) := by
  rw [← Finset.sum_fiberwise_of_maps_to (s := Spec.Box (update lens i m)) (t := range m) (g := fun z => z i)]
  · refine sum_congr rfl fun a ha => ?_
    refine Finset.sum_bij' (fun z _ => update z i 0) (fun z _ => update z i a) ?_ ?_ ?_ ?_ ?_
    · intro z hz
      rw [mem_filter, Spec.mem_Box] at hz
      rw [Spec.mem_Box]
      intro j
      by_cases hj : j = i
      · subst hj; simp
      · have := hz.1 j; simp [hj] at this ⊢; exact this
    · intro z hz
      rw [Spec.mem_Box] at hz
      rw [mem_filter, Spec.mem_Box]
      refine ⟨fun j => ?_, by simp⟩
      by_cases hj : j = i
      · subst hj; simpa using ha
      · have := hz j; simp [hj] at this ⊢; exact this
    · intro z hz
      rw [mem_filter] at hz
      rw [update_idem, ← hz.2, update_eq_self]
    · intro z hz
      rw [Spec.mem_Box] at hz
      have := hz i
      simp only [update_self, Nat.lt_one_iff] at this
      rw [update_idem, ← this, update_eq_self]
    · intro z hz
      rw [mem_filter] at hz
      rw [update_idem, ← hz.2, update_eq_self]
  · intro z hz
    rw [Spec.mem_Box] at hz
    have := hz i
    simpa using this

theorem fiber_eq (lens : Fin N → ℕ) (i : Fin N) {x : ℕ} (hx : x < lens i) (F : (Fin N → ℕ) → K) :
    ∑ z ∈ Spec.Box lens with z i = x, F z = ∑ z ∈ Spec.Box (update lens i 1), F (update z i x) := by
  refine Finset.sum_bij' (fun z _ => update z i 0) (fun z _ => update z i x) ?_ ?_ ?_ ?_ ?_
  · intro z hz
    rw [mem_filter, Spec.mem_Box] at hz
    rw [Spec.mem_Box]
    intro j
    by_cases hj : j = i
    · subst hj; simp
    · have := hz.1 j; simp [hj] at this ⊢; exact this
  · intro z hz
    rw [Spec.mem_Box] at hz
    rw [mem_filter, Spec.mem_Box]
    refine ⟨fun j => ?_, by simp⟩
    by_cases hj : j = i
    · subst hj; simpa using hx
    · have := hz j; simp [hj] at this ⊢; exact this
  · intro z hz
    rw [mem_filter] at hz
    rw [update_idem, ← hz.2, update_eq_self]
  · intro z hz
    rw [Spec.mem_Box] at hz
    have := hz i
    simp only [update_self, Nat.lt_one_iff] at this
    rw [update_idem, ← this, update_eq_self]
  · intro z hz
    rw [mem_filter] at hz
    rw [update_idem, ← hz.2, update_eq_self]

theorem unfoldGram_eq (lens : Fin N → ℕ) (g : (Fin N → ℕ) → K) (i : Fin N) {x : ℕ} (hx : x < lens i) (y : ℕ) :
    Spec.unfoldGram lens g i x y = ∑ z ∈ Spec.Box (update lens i 1), g (update z i x) * g (update z i y) := by
  unfold Spec.unfoldGram
  rw [fiber_eq lens i hx]
  refine sum_congr rfl fun z _ => ?_
  rw [update_idem]

/-- The squared norm of a tensor-times-matrix product is a trace. -/
theorem sumSq_ttm (lens : Fin N → ℕ) (g : (Fin N → ℕ) → K) (i : Fin N) (m : ℕ) (B : ℕ → ℕ → K) :
    Spec.sumSq (update lens i m) (ttmVal lens g i B) =
      ∑ a ∈ range m, ∑ x ∈ range (lens i), ∑ y ∈ range (lens i), B x a * Spec.unfoldGram lens g i x y * B y a := by
  unfold Spec.sumSq
  rw [box_split]
  refine sum_congr rfl fun a _ => ?_
  have : ∀ z : Fin N → ℕ, ttmVal lens g i B (update z i a) ^ 2 =
      ∑ x ∈ range (lens i), ∑ y ∈ range (lens i), B x a * (g (update z i x) * g (update z i y)) * B y a := by
    intro z
    unfold ttmVal
    simp only [update_self, update_idem]
    rw [sq, Finset.sum_mul_sum]
    refine sum_congr rfl fun x _ => sum_congr rfl fun y _ => ?_
    ring
  simp only [this]
  rw [sum_comm]
  refine sum_congr rfl fun x hx => ?_
  rw [sum_comm]
  refine sum_congr rfl fun y _ => ?_
  rw [unfoldGram_eq lens g i (mem_range.1 hx), mul_sum, sum_mul]

theorem unfoldGram_symm (lens : Fin N → ℕ) (g : (Fin N → ℕ) → K) (i : Fin N) {x y : ℕ} (hx : x < lens i) (hy : y < lens i) :
    Spec.unfoldGram lens g i x y = Spec.unfoldGram lens g i y x := by
  rw [unfoldGram_eq lens g i hx, unfoldGram_eq lens g i hy]
  exact sum_congr rfl fun z _ => mul_comm _ _

end

/-- The Gram matrix of an unfolding is positive semidefinite. -/
theorem unfoldGram_posSemidef (lens : Fin N → ℕ) (g : (Fin N → ℕ) → ℝ) (i : Fin N) {M : Tensor ℝ}
    (hM : ∀ x < lens i, ∀ y < lens i, mat M x y = Spec.unfoldGram lens g i x y) :
    (toM (lens i) (lens i) M).PosSemidef := by
  apply Matrix.PosSemidef.of_dotProduct_mulVec_nonneg
  · ext x y
    simp only [Matrix.conjTranspose_apply, toM, star_trivial]
    rw [hM _ y.2 _ x.2, hM _ x.2 _ y.2, unfoldGram_symm lens g i x.2 y.2]
  · intro v
    have h := sumSq_ttm lens g i 1 fun x _ => if h : x < lens i then v ⟨x, h⟩ else 0
    have h0 : 0 ≤ Spec.sumSq (update lens i 1) (ttmVal lens g i fun x _ => if h : x < lens i then v ⟨x, h⟩ else 0) :=
      sum_nonneg fun z _ => sq_nonneg _
    rw [h, sum_range_one, sum_range] at h0
    refine h0.trans_eq ?_
    simp only [dotProduct, Matrix.mulVec, star_trivial]
    refine sum_congr rfl fun x _ => ?_
    rw [sum_range, mul_sum]
    refine sum_congr rfl fun y _ => ?_
    simp only [toM, x.2, y.2, dif_pos, Fin.eta]
    rw [hM _ x.2 _ y.2]
    ring

/-- `u` is a truncated singular value decomposition of the `n × n` matrix `M`: the left factor consists of the first `r`
columns of the left factor of a full decomposition with singular values in decreasing order. -/
structure SvdTrunc (n r : ℕ) (u : LR ℝ) (M : Tensor ℝ) : Prop where
  lens : u.U.lens = [n, r]
  full : ∃ (P Q : Matrix (Fin n) (Fin n) ℝ) (σ : Fin n → ℝ), Pᵀ * P = 1 ∧ Qᵀ * Q = 1 ∧ Antitone σ ∧ (∀ a, 0 ≤ σ a) ∧
    toM n n M = P * Matrix.diagonal σ * Qᵀ ∧ ∀ (x a : ℕ) (hx : x < n) (ha : a < n), a < r → mat u.U x a = P ⟨x, hx⟩ ⟨a, ha⟩

/-- Contract of the truncated SVD of symmetric positive semidefinite matrices. -/
def SvdLeading (k : Kern ℝ) : Prop := ∀ (n r : ℕ) (M : Tensor ℝ), M.lens = [n, n] → r ≤ n →
  (toM n n M).PosSemidef → SvdTrunc n r (k.svd M r) M

/-- Orthonormality in matrix form. -/
theorem orthonormal_iff {n r : ℕ} {B : ℕ → ℕ → ℝ} :
    Spec.Orthonormal n r B ↔ (Matrix.of fun (x : Fin n) (a : Fin r) => B x a)ᵀ * (Matrix.of fun (x : Fin n) (a : Fin r) => B x a) = 1 := by
  constructor
  · intro h
    ext a b
    rw [Matrix.mul_apply, Matrix.one_apply]
    have := h a.1 a.2 b.1 b.2
    unfold Spec.gram at this
    rw [sum_range] at this
    simp only [Fin.ext_iff]
    rw [← this]; rfl
  · intro h a ha b hb
    have := congrFun (congrFun h ⟨a, ha⟩) ⟨b, hb⟩
    rw [Matrix.mul_apply, Matrix.one_apply] at this
    simp only [Fin.ext_iff] at this
    unfold Spec.gram
    rw [sum_range, ← this]; rfl

theorem trace_eq {n r : ℕ} (B : ℕ → ℕ → ℝ) (M : Tensor ℝ) :
    ((Matrix.of fun (x : Fin n) (a : Fin r) => B x a)ᵀ * toM n n M * (Matrix.of fun (x : Fin n) (a : Fin r) => B x a)).trace =
      ∑ a ∈ range r, ∑ x ∈ range n, ∑ y ∈ range n, B x a * mat M x y * B y a := by
  rw [Matrix.trace, sum_range]
  refine sum_congr rfl fun a _ => ?_
  rw [Matrix.diag_apply, Matrix.mul_assoc, Matrix.mul_apply, sum_range]
  refine sum_congr rfl fun x _ => ?_
  rw [Matrix.mul_apply, mul_sum, sum_range]
  refine sum_congr rfl fun y _ => ?_
  simp only [Matrix.transpose_apply, Matrix.of_apply, toM]
  ring

/-- The leading singular vectors have orthonormal columns and maximise the trace. -/
theorem SvdTrunc.best {n r : ℕ} {u : LR ℝ} {M : Tensor ℝ} (h : SvdTrunc n r u M) (hr : r ≤ n)
    (hM : (toM n n M).PosSemidef) : Spec.Orthonormal n r (mat u.U) ∧
      ∀ B : ℕ → ℕ → ℝ, Spec.Orthonormal n r B →
        ∑ a ∈ range r, ∑ x ∈ range n, ∑ y ∈ range n, B x a * mat M x y * B y a ≤
          ∑ a ∈ range r, ∑ x ∈ range n, ∑ y ∈ range n, mat u.U x a * mat M x y * mat u.U y a := by
  obtain ⟨P, Q, σ, hP, hQ, ha, h0, hm, hU⟩ := h.full
  have e : (Matrix.of fun (x : Fin n) (a : Fin r) => mat u.U x a) = KyFan.firstCols hr P := by
    ext x a
    exact hU x.1 a.1 x.2 (by omega) a.2
  refine ⟨orthonormal_iff.2 ?_, fun B hB => ?_⟩
  · rw [e]
    ext a b
    have := congrFun (congrFun hP (Fin.castLE hr a)) (Fin.castLE hr b)
    have e2 : ((KyFan.firstCols hr P)ᵀ * KyFan.firstCols hr P) a b = (Pᵀ * P) (Fin.castLE hr a) (Fin.castLE hr b) := rfl
    rw [e2, this, Matrix.one_apply, Matrix.one_apply]
    simp only [Fin.ext_iff, Fin.val_castLE]
  · rw [← trace_eq, ← trace_eq, e]
    exact KyFan.trace_le hP ha (KyFan.svd_psd hM hP hQ h0 hm) hr (orthonormal_iff.1 hB)

theorem SvdLeading.shape' {k : Kern ℝ} (h : SvdLeading k) {n r : ℕ} {M : Tensor ℝ} (hM : M.lens = [n, n]) (hr : r ≤ n)
    (hp : (toM n n M).PosSemidef) : (k.svd M r).U.lens = [n, r] := (h n r M hM hr hp).lens

/-- The contract is satisfiable, together with the shape contract for all matrices. -/
theorem exists_svdLeading : ∃ k : Kern ℝ, SvdLeading k ∧ SvdShape k := by
  classical
  refine ⟨⟨id, fun B _ _ _ _ => B, fun M r => if h : ∃ u, SvdTrunc (nrow M) r u M then h.choose else
    ⟨⟨[nrow M, r], fun _ => 0⟩, ⟨[r], fun _ => 0⟩, ⟨[r, nrow M], fun _ => 0⟩⟩, id⟩, ?_, ?_⟩
  · intro n r M hM hr hp
    have hn : nrow M = n := nrow_of hM
    have hex : ∃ u, SvdTrunc n r u M := by
      obtain ⟨P, σ, hP, h0, ha, hm⟩ := KyFan.exists_svd hp
      refine ⟨⟨ofMat n r fun x a => if h : x < n ∧ a < n then P ⟨x, h.1⟩ ⟨a, h.2⟩ else 0, ⟨[r], fun _ => 0⟩,
        ⟨[r, n], fun _ => 0⟩⟩, rfl, P, P, σ, hP, hP, ha, h0, hm, ?_⟩
      intro x a hx hxa har
      simp [mat, ofMat, Spec.clip, hx, har, hxa]
    simp only [hn, dif_pos hex]
    exact hex.choose_spec
  · intro M n r hM hr
    have hn : nrow M = n := nrow_of hM
    simp only [hn]
    split_ifs with h
    · exact h.choose_spec.lens
    · rfl

/-- The core norm in terms of one factor. -/
theorem core_norm_eq {dims rk : Fin N → ℕ} {V : (Fin N → ℕ) → ℝ} (W : Fin N → ℕ → ℕ → ℝ) (i : Fin N) :
    Spec.sumSq rk (Spec.multiTTM dims V W ∅) = ∑ a ∈ range (rk i), ∑ x ∈ range (dims i), ∑ y ∈ range (dims i),
      W i x a * Spec.unfoldGram (Spec.ttmShape dims rk {i}) (Spec.multiTTM dims V W {i}) i x y * W i y a := by
  have h := sumSq_ttm (klens dims rk {i}) (Spec.multiTTM dims V W {i}) i (rk i) (W i)
  rw [klens_update] at h
  have e1 : klens dims rk (({i} : Finset (Fin N)).erase i) = rk := by funext j; simp [klens]
  have e2 : klens dims rk {i} i = dims i := by simp [klens]
  rw [e1, e2] at h
  rw [← show klens dims rk {i} = Spec.ttmShape dims rk {i} from rfl, ← h]
  unfold Spec.sumSq
  refine sum_congr rfl fun z _ => ?_
  rw [ttmVal_multiTTM (mem_singleton_self i)]
  simp

/-- The Gram matrix of mode `i` does not depend on the factor of mode `i`. -/
theorem multiTTM_single_congr {dims : Fin N → ℕ} {V : (Fin N → ℕ) → ℝ} {W W' : Fin N → ℕ → ℕ → ℝ} {i : Fin N}
    (h : ∀ j, j ≠ i → W j = W' j) : Spec.multiTTM dims V W {i} = Spec.multiTTM dims V W' {i} := by
  funext z
  unfold Spec.multiTTM
  refine sum_congr rfl fun idx _ => ?_
  congr 1
  refine prod_congr rfl fun j hj => ?_
  rw [h j (by simpa using hj)]

theorem mats_set_self {W : List (Tensor ℝ)} {i : Fin N} (hW : W.length = N) (U : Tensor ℝ) :
    mats (N := N) (W.set i.1 U) i = mat U := by
  funext x r
  unfold mats
  rw [List.getElem?_set_self (by omega)]

/-- A mode update with the leading singular vectors: the new factor is orthonormal and the core norm does not decrease
(compared with any orthonormal factor). -/
theorem HooiMode.mono {k : Kern ℝ} (hk : SvdLeading k) {dims rk : Fin N → ℕ} (hr : ∀ j, rk j ≤ dims j) {V : Tensor ℝ}
    {W W' : List (Tensor ℝ)} {i : Fin N} (hl : W.length = N) (h : HooiMode k dims rk V W W' i) :
    W'.length = N ∧ (∀ j, j ≠ i → mats (N := N) W' j = mats W j) ∧ Spec.Orthonormal (dims i) (rk i) (mats W' i) ∧
      (Spec.Orthonormal (dims i) (rk i) (mats W i) → Spec.sumSq rk (Spec.multiTTM dims (arr V N) (mats W) ∅) ≤
        Spec.sumSq rk (Spec.multiTTM dims (arr V N) (mats W') ∅)) := by
  obtain ⟨M, ⟨_, m2, m3⟩, rfl⟩ := h
  have hp : (toM (dims i) (dims i) M).PosSemidef := by
    have := unfoldGram_posSemidef (Spec.ttmShape dims rk {i}) (Spec.multiTTM dims (arr V N) (mats W) {i}) i (M := M)
    have e : Spec.ttmShape dims rk {i} i = dims i := by simp [Spec.ttmShape]
    rw [e] at this
    exact this m3
  have hb := (hk _ _ M m2 (hr i) hp).best (hr i) hp
  have hne : ∀ j, j ≠ i → mats (N := N) (W.set i.1 (k.svd M (rk i)).U) j = mats W j := fun j hj => mats_set_ne _ hj
  have hself := mats_set_self hl (k.svd M (rk i)).U (i := i)
  refine ⟨by simp [hl], hne, by rw [hself]; exact hb.1, fun ho => ?_⟩
  rw [core_norm_eq (mats W) i, core_norm_eq (mats _) i, hself,
    multiTTM_single_congr (W := mats (W.set i.1 _)) (W' := mats W) (fun j hj => hne j hj)]
  have := hb.2 (mats W i) ho
  refine le_trans (le_of_eq ?_) (this.trans (le_of_eq ?_))
  · refine sum_congr rfl fun a _ => sum_congr rfl fun x hx => sum_congr rfl fun y hy => ?_
    rw [m3 x (mem_range.1 hx) y (mem_range.1 hy)]
  · refine sum_congr rfl fun a _ => sum_congr rfl fun x hx => sum_congr rfl fun y hy => ?_
    rw [m3 x (mem_range.1 hx) y (mem_range.1 hy)]

end Model
