import Verif.Properties.RoundTucker
import Verif.Properties.Hosvd

/-! # C84: `hosvd` and the Tucker drivers in floating-point arithmetic are quasi-optimal up to rounding -/

namespace Properties

open Model Finset

variable {N : ℕ} {dims rk : Fin N → ℕ}

/-- The loss of a mode whose factor is almost optimal. -/
theorem modeLoss_near {V : (Fin N → ℕ) → ℝ} {W : Fin N → ℕ → ℕ → ℝ} {i : Fin N} {d : ℝ}
    (hW : Spec.Orthonormal (dims i) (rk i) (W i))
    (hbest : ∀ r ≤ rk i, ∀ B, Spec.Orthonormal (dims i) r B →
      ∑ a ∈ range r, ∑ x ∈ range (dims i), ∑ y ∈ range (dims i), B x a * Spec.unfoldGram dims V i x y * B y a ≤
        ∑ a ∈ range (rk i), ∑ x ∈ range (dims i), ∑ y ∈ range (dims i), W i x a * Spec.unfoldGram dims V i x y * W i y a + d)
    (G : (Fin N → ℕ) → ℝ) (B : Fin N → ℕ → ℕ → ℝ) :
    modeLoss dims rk V W i ≤ ∑ idx ∈ Spec.Box dims, (V idx - Spec.tuckRecon rk G B idx) ^ 2 + d := by
  obtain ⟨r, hr, Z, hZ, hA⟩ := exists_orthonormal (dims i) (rk i) (B i)
  have h1 := sumSq_pyth dims V i hW
  have h2 := sumSq_pyth dims V i hZ
  have h3 := sumSq_pyth dims (fun idx => V idx - Spec.tuckRecon rk G B idx) i hZ
  have h4 := hbest r hr Z hZ
  rw [sumSq_ttm] at h1 h2
  have h5 : Spec.sumSq dims (ttmVal dims (fun idx => V idx - Spec.tuckRecon rk G B idx) i (orthQ r Z)) =
      Spec.sumSq dims (ttmVal dims V i (orthQ r Z)) := by
    refine sumSq_congr fun z hz => ?_
    have := ttmVal_tuckRecon (dims := dims) G hA hz
    unfold ttmVal at this ⊢
    simp only [sub_mul, sum_sub_distrib]
    rw [this, sub_zero]
  have h6 := sumSq_nonneg (Function.update dims i r) (ttmVal dims (fun idx => V idx - Spec.tuckRecon rk G B idx) i Z)
  unfold modeLoss
  change _ ≤ Spec.sumSq dims (fun idx => V idx - Spec.tuckRecon rk G B idx) + d
  linarith

/-- All entries of the Gram matrix of the absolute values. -/
theorem gramMass_full (V : (Fin N → ℕ) → ℝ) (i : Fin N) :
    ∑ x ∈ range (dims i), ∑ y ∈ range (dims i), Spec.unfoldGram dims (Spec.absArr V) i x y ≤ dims i * ∑ idx ∈ Spec.Box dims, V idx ^ 2 := by
  have hd : ∀ x < dims i, Spec.unfoldGram dims V i x x = ∑ z ∈ Spec.Box dims with z i = x, V z ^ 2 := by
    intro x _
    unfold Spec.unfoldGram
    refine sum_congr rfl fun z hz => ?_
    rw [← (mem_filter.1 hz).2, Function.update_eq_self, sq]
  have hxy : ∀ x < dims i, ∀ y < dims i, Spec.unfoldGram dims (Spec.absArr V) i x y ≤
      (Spec.unfoldGram dims V i x x + Spec.unfoldGram dims V i y y) / 2 := by
    intro x hx y hy
    rw [unfoldGram_eq dims _ i hx, unfoldGram_eq dims _ i hx, unfoldGram_eq dims _ i hy, ← sum_add_distrib, sum_div]
    refine sum_le_sum fun z _ => ?_
    have h1 := sq_abs (V (Function.update z i x))
    have h2 := sq_abs (V (Function.update z i y))
    have h3 := sq_nonneg (|V (Function.update z i x)| - |V (Function.update z i y)|)
    unfold Spec.absArr
    nlinarith
  have hs := sumSq_id dims V i
  calc _ ≤ ∑ x ∈ range (dims i), ∑ y ∈ range (dims i), (Spec.unfoldGram dims V i x x + Spec.unfoldGram dims V i y y) / 2 :=
        sum_le_sum fun x hx => sum_le_sum fun y hy => hxy x (mem_range.1 hx) y (mem_range.1 hy)
    _ = dims i * ∑ x ∈ range (dims i), Spec.unfoldGram dims V i x x := by
        simp only [add_div, sum_add_distrib, sum_const, card_range, nsmul_eq_mul]
        rw [← mul_sum, ← sum_div]
        ring
    _ = _ := by
        congr 1
        change _ = Spec.sumSq dims V
        rw [hs]

/-- What `hosvd` can lose to rounding: proportional to the relative errors of the Gram matrices and of the SVD. -/
noncomputable def hosvdLoss (eps eta : ℝ) (b : ℕ) (dims : Fin N → ℕ) (V : (Fin N → ℕ) → ℝ) : ℝ :=
  4 * ((1 + errBound eps (b ^ (N - 1)) 1) * (1 + eta) - 1) * (∑ i, (dims i : ℝ)) * ∑ idx ∈ Spec.Box dims, V idx ^ 2

/-- The factors `F` are as good as any core `G` with any factors `B` of the same ranks, up to a factor `N` in the squared error and `loss`. -/
def QuasiOptimalUpTo (loss : ℝ) (dims rk : Fin N → ℕ) (V : Tensor ℝ) (F : List (Tensor ℝ)) : Prop :=
  ∀ (G : (Fin N → ℕ) → ℝ) (B : Fin N → ℕ → ℕ → ℝ),
    Spec.tuckErrSq dims rk (arr V N) (mats F) ≤ N * ∑ idx ∈ Spec.Box dims, (arr V N idx - Spec.tuckRecon rk G B idx) ^ 2 + loss

section

variable {eps eta : ℝ} {P : Arith} {b : ℕ} {V : Tensor ℝ}

theorem errBound_nn (he : 0 ≤ eps) (B k : ℕ) : 0 ≤ errBound eps B k := by
  unfold errBound
  exact sub_nonneg.2 (one_le_pow₀ (by linarith))

/-- **C84 (`hosvd`).** Orders 1 to 18, any tensor, lengths up to `b`, ranks at most the lengths, any evaluation order, a backward-stable SVD
(relative error `eta`, exactly orthonormal columns): the factors `hosvd` computes in floating-point arithmetic are orthonormal and their
squared error is at most `N` times that of any approximation with these ranks plus `hosvdLoss`, which vanishes with `eps` and `eta`. -/
theorem C84_hosvd (he : 0 ≤ eps) (het : 0 ≤ eta) (hP : FlEval eps P) (hN : N ≤ 18) (hb : 1 ≤ b) (hd : ∀ j, dims j ≤ b)
    (hr : ∀ j, rk j ≤ dims j) (hV : V.lens = List.ofFn dims) {k : Kern ℝ} (hk : SvdBack eta k) :
    ∃ C F, hosvdR P k V (List.ofFn rk) = .ok (C, F) ∧ TuckShaped dims rk V F ∧
      (∀ j : Fin N, Spec.Orthonormal (dims j) (rk j) (mats F j)) ∧ TtmWithin (errBound eps (b * b) N) dims rk V F ∅ C ∧
      QuasiOptimalUpTo (hosvdLoss eps eta b dims (arr V N)) dims rk V F := by
  obtain ⟨C, F, e1, e2, e3, e4⟩ := C80_hosvd he hP hN hb hd hr hV hk.shape (rk := rk)
  set u := errBound eps (b ^ (N - 1)) 1 with hu
  have hu0 : 0 ≤ u := errBound_nn he _ _
  have hloss : ∀ i : Fin N, Spec.Orthonormal (dims i) (rk i) (mats F i) ∧ ∀ r ≤ rk i, ∀ B, Spec.Orthonormal (dims i) r B →
      ∑ a ∈ range r, ∑ x ∈ range (dims i), ∑ y ∈ range (dims i), B x a * Spec.unfoldGram dims (arr V N) i x y * B y a ≤
        ∑ a ∈ range (rk i), ∑ x ∈ range (dims i), ∑ y ∈ range (dims i),
          mats F i x a * Spec.unfoldGram dims (arr V N) i x y * mats F i y a +
          4 * (((1 + u) * (1 + eta) - 1) * (dims i * ∑ idx ∈ Spec.Box dims, arr V N idx ^ 2)) := by
    intro i
    obtain ⟨M, m1, m2, m3⟩ := e3 i
    obtain ⟨M', t1, t2⟩ := hk (dims i) (rk i) M m1 (hr i)
    have e : mats (N := N) F i = mat (k.svd M (rk i)).U := by
      funext x y
      unfold mats
      rw [m3]
    set g := Spec.unfoldGram dims (arr V N) i with hg
    set gA := Spec.unfoldGram dims (Spec.absArr (arr V N)) i with hgA
    have hGA : ∀ x y, |g x y| ≤ gA x y := fun x y => abs_unfoldGram_le fun z => le_rfl
    let G : Tensor ℝ := ofMat (dims i) (dims i) g
    have hGm : ∀ x < dims i, ∀ y < dims i, mat G x y = g x y := by
      intro x hx y hy
      simp [G, mat, ofMat, Spec.clip, hx, hy]
    have hp : (toM (dims i) (dims i) G).PosSemidef := unfoldGram_posSemidef dims (arr V N) i hGm
    have hmass := gramMass_full (dims := dims) (arr V N) i
    set S := ∑ x ∈ range (dims i), ∑ y ∈ range (dims i), gA x y with hS
    have s1 : ∑ x ∈ range (dims i), ∑ y ∈ range (dims i), |mat M x y - mat G x y| ≤ u * S := by
      rw [hS, mul_sum]
      refine sum_le_sum fun x hx => ?_
      rw [mul_sum]
      refine sum_le_sum fun y hy => ?_
      rw [hGm x (mem_range.1 hx) y (mem_range.1 hy)]
      exact m2 x (mem_range.1 hx) y (mem_range.1 hy)
    have s2 : ∑ x ∈ range (dims i), ∑ y ∈ range (dims i), |mat M x y| ≤ (1 + u) * S := by
      rw [hS, mul_sum]
      refine sum_le_sum fun x hx => ?_
      rw [mul_sum]
      refine sum_le_sum fun y hy => ?_
      have a1 := m2 x (mem_range.1 hx) y (mem_range.1 hy)
      have a2 := hGA x y
      have a3 := abs_add_le (mat M x y - g x y) (g x y)
      rw [sub_add_cancel] at a3
      linarith
    have s3 : ∑ x ∈ range (dims i), ∑ y ∈ range (dims i), |mat M' x y - mat G x y| ≤ ((1 + u) * (1 + eta) - 1) * S := by
      have : ∑ x ∈ range (dims i), ∑ y ∈ range (dims i), |mat M' x y - mat G x y| ≤
          ∑ x ∈ range (dims i), ∑ y ∈ range (dims i), |mat M' x y - mat M x y| +
            ∑ x ∈ range (dims i), ∑ y ∈ range (dims i), |mat M x y - mat G x y| := by
        rw [← sum_add_distrib]
        refine sum_le_sum fun x _ => ?_
        rw [← sum_add_distrib]
        exact sum_le_sum fun y _ => abs_sub_le _ _ _
      have := mul_le_mul_of_nonneg_left s2 het
      nlinarith
    have hc : 0 ≤ (1 + u) * (1 + eta) - 1 := by nlinarith
    have s4 := s3.trans (mul_le_mul_of_nonneg_left hmass hc)
    obtain ⟨k', _, hl', hs'⟩ := exists_svdBack
    have ht := hl' (dims i) (rk i) G rfl (hr i) hp
    rw [e]
    refine ⟨t1.orth (hr i), fun r hr' B hB => ?_⟩
    have h1 := ht.best_le (hr i) hr' hp hB
    have h2 := t1.near (hr i) hp s4 (ht.orth (hr i))
    have conv : ∀ (q : ℕ) (A : ℕ → ℕ → ℝ),
        ∑ a ∈ range q, ∑ x ∈ range (dims i), ∑ y ∈ range (dims i), A x a * mat G x y * A y a =
          ∑ a ∈ range q, ∑ x ∈ range (dims i), ∑ y ∈ range (dims i), A x a * g x y * A y a := by
      intro q A
      refine sum_congr rfl fun a _ => sum_congr rfl fun x hx => sum_congr rfl fun y hy => ?_
      rw [hGm x (mem_range.1 hx) y (mem_range.1 hy)]
    have h3 := h1.trans h2
    rw [conv, conv] at h3
    exact h3
  refine ⟨C, F, e1, e2, fun j => (hloss j).1, e4, fun G B => ?_⟩
  refine (tuckErr_le_losses fun j => (hloss j).1).trans ?_
  calc ∑ i, modeLoss dims rk (arr V N) (mats F) i
      ≤ ∑ i : Fin N, (∑ idx ∈ Spec.Box dims, (arr V N idx - Spec.tuckRecon rk G B idx) ^ 2 +
          4 * (((1 + u) * (1 + eta) - 1) * (dims i * ∑ idx ∈ Spec.Box dims, arr V N idx ^ 2))) :=
        sum_le_sum fun i _ => modeLoss_near (hloss i).1 (hloss i).2 G B
    _ = _ := by
        rw [sum_add_distrib, ← mul_sum, ← mul_sum, ← sum_mul]
        simp only [sum_const, card_univ, Fintype.card_fin, nsmul_eq_mul]
        unfold hosvdLoss
        ring

/-- **C84 (meaning of the loss).** Without rounding errors nothing is lost. -/
theorem C84_loss_zero (b : ℕ) (V : (Fin N → ℕ) → ℝ) : hosvdLoss 0 0 b dims V = 0 := by
  simp [hosvdLoss, errBound]

theorem AlmostMonotone.upTo {loss : ℝ} {Ws : ℕ → List (Tensor ℝ)} (h : AlmostMonotone loss dims rk V Ws)
    (h0 : ∀ j : Fin N, Spec.Orthonormal (dims j) (rk j) (mats (Ws 0) j)) {l0 : ℝ} (hq : QuasiOptimalUpTo l0 dims rk V (Ws 0)) (n : ℕ) :
    QuasiOptimalUpTo (l0 + n * loss) dims rk V (Ws n) := by
  intro G B
  have hle : Spec.tuckErrSq dims rk (arr V N) (mats (Ws n)) ≤ Spec.tuckErrSq dims rk (arr V N) (mats (Ws 0)) + n * loss := by
    induction n with
    | zero => simp
    | succ n ih =>
      have := (h.2.2 n (.inr h0)).2
      push_cast
      linarith
  have := hq G B
  linarith

/-- **C84 (`alsTucker`).** Orders 2 to 10: after any number `n` of sweeps of `alsTucker` from the factors of `hosvd`, all in floating-point
arithmetic, the factors are orthonormal and quasi-optimal up to `hosvdLoss + n lossPerSweep`. -/
theorem C84_tucker (he : 0 ≤ eps) (het : 0 ≤ eta) (hP : FlEval eps P) (h2 : 2 ≤ N) (hN : N ≤ 10) (hb : 1 ≤ b) (hd : ∀ j, dims j ≤ b)
    (hr : ∀ j, rk j ≤ dims j) (hV : V.lens = List.ofFn dims) {k : Kern ℝ} (hk : SvdBack eta k) :
    ∃ C F, hosvdR P k V (List.ofFn rk) = .ok (C, F) ∧ ∃ Ws : ℕ → List (Tensor ℝ), Ws 0 = F ∧
      (∀ n, iterM (tuckSweepR P k V (List.ofFn rk)) n F = .ok (Ws n)) ∧
      ∀ n, (∀ j : Fin N, Spec.Orthonormal (dims j) (rk j) (mats (Ws n) j)) ∧
        QuasiOptimalUpTo (hosvdLoss eps eta b dims (arr V N) + n * lossPerSweep eps eta b dims rk (arr V N)) dims rk V (Ws n) := by
  obtain ⟨C, F, e1, e2, e3, _, e5⟩ := C84_hosvd he het hP (by omega) hb hd hr hV hk (rk := rk)
  obtain ⟨Ws, w1, w2, w3⟩ := C80_objective he het hP h2 hN hb hd hr e2 hk
  refine ⟨C, F, e1, Ws, w1, w2, fun n => ⟨?_, w3.upTo (by rw [w1]; exact e3) (by rw [w1]; exact e5) n⟩⟩
  rcases Nat.eq_zero_or_pos n with rfl | h
  · rw [w1]; exact e3
  · exact w3.2.1 n h

/-- **C84 (`alsTucker_DT`).** The same through the dimension tree (orders 4, 6 to 18). -/
theorem C84_tucker_dt (he : 0 ≤ eps) (het : 0 ≤ eta) (hP : FlEval eps P) (h4 : 4 ≤ N) (h5 : N ≠ 5) (hN : N ≤ 18) (hb : 1 ≤ b)
    (hd : ∀ j, dims j ≤ b) (hr : ∀ j, rk j ≤ dims j) (hV : V.lens = List.ofFn dims) {k : Kern ℝ} (hk : SvdBack eta k) :
    ∃ C F, hosvdR P k V (List.ofFn rk) = .ok (C, F) ∧ ∃ (Ws : ℕ → List (Tensor ℝ)) (Cs : ℕ → Tensor ℝ), Ws 0 = F ∧
      (∀ n, iterM (fun s : List (Tensor ℝ) × Tensor ℝ => tuckSweepDTR P k V (List.ofFn rk) s.1) n (F, C) = .ok (Ws n, Cs n)) ∧
      (∀ n, 1 ≤ n → TtmWithin (errBound eps (b * b) N) dims rk V (Ws n) ∅ (Cs n)) ∧
      ∀ n, (∀ j : Fin N, Spec.Orthonormal (dims j) (rk j) (mats (Ws n) j)) ∧
        QuasiOptimalUpTo (hosvdLoss eps eta b dims (arr V N) + n * lossPerSweep eps eta b dims rk (arr V N)) dims rk V (Ws n) := by
  obtain ⟨C, F, e1, e2, e3, _, e5⟩ := C84_hosvd he het hP hN hb hd hr hV hk (rk := rk)
  obtain ⟨Ws, Cs, w1, w2, w3, w4⟩ := C80_objective_dt he het hP h4 h5 hN hb hd hr e2 hk C
  refine ⟨C, F, e1, Ws, Cs, w1, w2, w4, fun n => ⟨?_, w3.upTo (by rw [w1]; exact e3) (by rw [w1]; exact e5) n⟩⟩
  rcases Nat.eq_zero_or_pos n with rfl | h
  · rw [w1]; exact e3
  · exact w3.2.1 n h

end

/-! Non-vacuity: a rounding that is not exact, a backward-stable SVD, an order-4 tensor with true truncation. -/

example : ∃ (k : Kern ℝ) (P : Arith) (C : Tensor ℝ) (F : List (Tensor ℝ)) (Ws : List (Tensor ℝ)),
    hosvdR P k exTuckV [1, 2, 1, 3] = .ok (C, F) ∧ iterM (tuckSweepR P k exTuckV [1, 2, 1, 3]) 5 F = .ok Ws := by
  obtain ⟨k, hb, _, _⟩ := exists_svdBack
  obtain ⟨C, F, e1, Ws, _, w2, _⟩ := C84_tucker (N := 4) (V := exTuckV) (dims := ![2, 3, 1, 4]) (rk := ![1, 2, 1, 3]) (by positivity) le_rfl exFl
    (by norm_num) (by norm_num) (b := 4) (by norm_num) (by decide) exTuckRank rfl hb
  exact ⟨k, _, C, F, Ws 5, e1, w2 5⟩

end Properties
