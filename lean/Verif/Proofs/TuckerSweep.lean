import Verif.Proofs.TuckerTree

/-! Sweeps of the Tucker ALS. -/

namespace Model

open Finset Function

variable {N : ℕ}

/-- Shape contract of the SVD of a square matrix. -/
def SvdShape (k : Kern ℝ) : Prop := ∀ (M : Tensor ℝ) (n r : ℕ), M.lens = [n, n] → r ≤ n → (k.svd M r).U.lens = [n, r]

/-- `M` is the Gram matrix of the mode-`i` unfolding of the input multiplied by all factors but the `i`-th. -/
def IsGram (dims rk : Fin N → ℕ) (V : Tensor ℝ) (W : List (Tensor ℝ)) (i : Fin N) (M : Tensor ℝ) : Prop :=
  Canon M ∧ M.lens = [dims i, dims i] ∧ ∀ x < dims i, ∀ y < dims i, mat M x y =
    Spec.unfoldGram (Spec.ttmShape dims rk {i}) (Spec.multiTTM dims (arr V N) (mats W) {i}) i x y

/-- One HOOI update of mode `i`: the factor becomes the leading left singular vectors of that Gram matrix. -/
def HooiMode (k : Kern ℝ) (dims rk : Fin N → ℕ) (V : Tensor ℝ) (W W' : List (Tensor ℝ)) (i : Fin N) : Prop :=
  ∃ M, IsGram dims rk V W i M ∧ W' = W.set i.1 (k.svd M (rk i)).U

/-- The first `n` modes are updated in order. -/
def HooiRun (k : Kern ℝ) (dims rk : Fin N → ℕ) (V : Tensor ℝ) (W W' : List (Tensor ℝ)) (n : ℕ) : Prop :=
  ∃ st : ℕ → List (Tensor ℝ), st 0 = W ∧ st n = W' ∧ ∀ i : Fin N, i.1 < n → HooiMode k dims rk V (st i.1) (st (i.1 + 1)) i

theorem IsGram.unique {dims rk : Fin N → ℕ} {V : Tensor ℝ} {W : List (Tensor ℝ)} {i : Fin N} {M M' : Tensor ℝ}
    (h : IsGram dims rk V W i M) (h' : IsGram dims rk V W i M') : M = M' := by
  refine Tensor.ext_canon h.1 h'.1 (h.2.1.trans h'.2.1.symm) ?_
  intro idx hidx
  rw [h.2.1] at hidx
  match idx, hidx with
  | [x, y], hidx =>
    simp only [fits, Bool.and_eq_true, decide_eq_true_eq, and_true] at hidx
    exact (h.2.2 x hidx.1 y hidx.2).trans (h'.2.2 x hidx.1 y hidx.2).symm
  | [x], hidx => simp [fits] at hidx
  | x :: y :: z :: t, hidx => simp [fits] at hidx

theorem HooiRun.unique {k : Kern ℝ} {dims rk : Fin N → ℕ} {V : Tensor ℝ} {W W1 W2 : List (Tensor ℝ)} {n : ℕ} (hn : n ≤ N)
    (h1 : HooiRun k dims rk V W W1 n) (h2 : HooiRun k dims rk V W W2 n) : W1 = W2 := by
  obtain ⟨st, a1, a2, a3⟩ := h1
  obtain ⟨st', b1, b2, b3⟩ := h2
  have : ∀ j, j ≤ n → st j = st' j := by
    intro j
    induction j with
    | zero => intro _; rw [a1, b1]
    | succ j ih =>
      intro hj
      obtain ⟨M, m1, m2⟩ := a3 ⟨j, by omega⟩ (by simp only; omega)
      obtain ⟨M', m1', m2'⟩ := b3 ⟨j, by omega⟩ (by simp only; omega)
      simp only at m1 m2 m1' m2'
      rw [ih (by omega)] at m1 m2
      rw [m2, m2', m1.unique m1']
  rw [← a2, ← b2, this n le_rfl]

theorem HooiRun.zero {k : Kern ℝ} {dims rk : Fin N → ℕ} {V : Tensor ℝ} (W : List (Tensor ℝ)) : HooiRun k dims rk V W W 0 :=
  ⟨fun _ => W, rfl, rfl, fun _ h => absurd h (by omega)⟩

theorem HooiRun.snoc {k : Kern ℝ} {dims rk : Fin N → ℕ} {V : Tensor ℝ} {W W1 W2 : List (Tensor ℝ)} {i : Fin N}
    (h : HooiRun k dims rk V W W1 i.1) (h2 : HooiMode k dims rk V W1 W2 i) : HooiRun k dims rk V W W2 (i.1 + 1) := by
  obtain ⟨st, a1, a2, a3⟩ := h
  refine ⟨fun n => if n ≤ i.1 then st n else W2, by simp [a1], by simp, ?_⟩
  intro j hj
  simp only
  by_cases e : j.1 = i.1
  · have : j = i := Fin.ext e
    subst this
    rw [if_pos le_rfl, if_neg (by omega), a2]
    exact h2
  · rw [if_pos (by omega), if_pos (by omega)]
    exact a3 j (by omega)

theorem norm2_nonneg_t (T : Tensor ℝ) : 0 ≤ norm2 T := Real.sqrt_nonneg _

/-- The branch `norm_U < 0` is dead. -/
theorem factorOf_eq (k : Kern ℝ) (Y : Tensor ℝ) (i r : ℕ) :
    factorOf k Y i r = (do let M ← unroll Y i; pure (k.svd M r).U) := by
  unfold factorOf
  simp only [not_lt.2 (norm2_nonneg_t _), if_false]

theorem factorOf_ok (hN : N ≤ 18) {dims rk : Fin N → ℕ} {V : Tensor ℝ} {W : List (Tensor ℝ)} {i : Fin N} {Y : Tensor ℝ}
    (hY : TValid dims rk (arr V N) (mats W) {i} Y) (k : Kern ℝ) :
    ∃ M, IsGram dims rk V W i M ∧ factorOf k Y i.1 (rk i) = .ok (k.svd M (rk i)).U := by
  obtain ⟨M, m1, m2, m3, m4⟩ := unroll_ok hN hY i
  have hi : klens dims rk {i} i = dims i := by simp [klens]
  rw [hi] at m3 m4
  refine ⟨M, ⟨m2, m3, m4⟩, ?_⟩
  rw [factorOf_eq, m1]
  rfl

theorem TuckShaped.set {dims rk : Fin N → ℕ} {V : Tensor ℝ} {W : List (Tensor ℝ)} (h : TuckShaped dims rk V W) (i : Fin N)
    {U : Tensor ℝ} (hU : U.lens = [dims i, rk i]) : TuckShaped dims rk V (W.set i.1 U) where
  lensV := h.lensV
  count := by simp [h.count]
  lensW := by
    intro j M hM
    by_cases e : i.1 = j.1
    · have : i = j := Fin.ext e
      subst this
      rw [List.getElem?_set_self (by rw [h.count]; exact i.2)] at hM
      cases hM
      exact hU
    · rw [List.getElem?_set_ne e] at hM
      exact h.lensW j M hM

theorem mats_set_ne {K : Type} [Zero K] {W : List (Tensor K)} {i j : Fin N} (U : Tensor K) (h : j ≠ i) :
    mats (W.set i.1 U) j = mats W j := by
  funext x r
  unfold mats
  rw [List.getElem?_set_ne (fun e => h (Fin.ext e.symm))]

theorem rd_ofFn {α : Type} (f : Fin N → α) (i : Fin N) : rd (List.ofFn f) (i.1 : ℤ) = .ok (f i) := by
  rw [rd_ok (by simp)]
  simp

/-! ### alsTucker -/

theorem tuckUpdate_ok (h2 : 2 ≤ N) (hN : N ≤ 10) {dims rk : Fin N → ℕ} {V : Tensor ℝ} {W : List (Tensor ℝ)}
    (hS : TuckShaped dims rk V W) (k : Kern ℝ) (i : Fin N) :
    ∃ W', tuckUpdate k V (List.ofFn rk) W i.1 = .ok W' ∧ HooiMode k dims rk V W W' i := by
  obtain ⟨Y, y1, y2, _⟩ := ttmc_loop hN hS i.1 ⟨[], fun _ => 0⟩
  obtain ⟨_, y3⟩ := y2 (by
    by_cases h : i.1 = 0
    · exact ⟨1, by omega, by rw [h]; simp⟩
    · exact ⟨0, by omega, by simp only [Nat.cast_zero, ne_eq]; omega⟩)
  rw [keepOf_self] at y3
  obtain ⟨M, m1, m2⟩ := factorOf_ok (by omega) y3 k
  refine ⟨_, ?_, M, m1, rfl⟩
  unfold tuckUpdate
  simp only [bind, Except.bind, pure, Except.pure]
  rw [y1]
  simp only
  rw [rd_ofFn]
  simp only
  rw [m2]

theorem HooiMode.shaped {k : Kern ℝ} (hk : SvdShape k) {dims rk : Fin N → ℕ} (hr : ∀ j, rk j ≤ dims j) {V : Tensor ℝ}
    {W W' : List (Tensor ℝ)} {i : Fin N} (h : HooiMode k dims rk V W W' i) (hS : TuckShaped dims rk V W) :
    TuckShaped dims rk V W' := by
  obtain ⟨M, m1, rfl⟩ := h
  exact hS.set i (hk M _ _ m1.2.1 (hr i))

theorem tuckSweep_ok (h2 : 2 ≤ N) (hN : N ≤ 10) {dims rk : Fin N → ℕ} (hr : ∀ j, rk j ≤ dims j) {V : Tensor ℝ}
    {W : List (Tensor ℝ)} (hS : TuckShaped dims rk V W) {k : Kern ℝ} (hk : SvdShape k) :
    ∃ W', tuckSweep k V (List.ofFn rk) W = .ok W' ∧ TuckShaped dims rk V W' ∧ HooiRun k dims rk V W W' N := by
  have hlen : V.lens.length = N := by rw [hS.lensV]; simp
  obtain ⟨s, h1, h3, h4⟩ := foldlM_range'_inv (s := 0) (n := N)
    (P := fun j (s : List (Tensor ℝ)) => TuckShaped dims rk V s ∧ HooiRun k dims rk V W s j)
    (f := tuckUpdate k V (List.ofFn rk)) (a := W) ⟨hS, HooiRun.zero W⟩
    (by
      rintro j s _ hj ⟨g1, g2⟩
      obtain ⟨W', w1, w2⟩ := tuckUpdate_ok h2 hN g1 k ⟨j, by omega⟩
      exact ⟨W', w1, w2.shaped hk hr g1, g2.snoc (i := ⟨j, by omega⟩) w2⟩)
  rw [Nat.zero_add] at h4
  refine ⟨s, ?_, h3, h4⟩
  unfold tuckSweep
  rw [hlen, List.range_eq_range']
  exact h1

/-! ### alsTucker_DT -/

theorem TuckGood.set {dims rk : Fin N → ℕ} {V : Tensor ℝ} {W : List (Tensor ℝ)} {n : Iv} {T : Tensor ℝ} {i : Fin N}
    (U : Tensor ℝ) (h : TuckGood dims rk V W n T) (h1 : n.1 ≤ i.1) (h2 : i.1 ≤ n.2) :
    TuckGood dims rk V (W.set i.1 U) n T := by
  refine TValid.congr h ?_
  intro j hj x _ r _
  rw [mats_set_ne]
  rintro rfl
  exact hj (mem_ivSet.2 ⟨h1, h2⟩)

theorem tuckUpdateDT_ok (h4 : 4 ≤ N) (h5 : N ≠ 5) (hN : N ≤ 18) {dims rk : Fin N → ℕ} {V : Tensor ℝ}
    {s : List (Tensor ℝ) × Cache ℝ × Tensor ℝ} (hS : TuckShaped dims rk V s.1) (k : Kern ℝ) (i : Fin N)
    (hI : DInv N (TuckGood dims rk V s.1) i.1 s.2.1) :
    ∃ s', tuckUpdateDT N (constructDT 0 (N - 1) {}) k V (List.ofFn rk) s i.1 = .ok s' ∧
      HooiMode k dims rk V s.1 s'.1 i ∧ DInv N (TuckGood dims rk V s'.1) (i.1 + 1) s'.2.1 ∧
      (i.1 = N - 1 → TValid dims rk (arr V N) (mats s'.1) {i} s'.2.2) := by
  obtain ⟨Y, c, y1, y2, y3, y4⟩ := tuckY_ok h4 h5 (by omega) hS i hI
  obtain ⟨M, m1, m2⟩ := factorOf_ok hN y3 k
  unfold tuckUpdateDT
  simp only [bind, Except.bind, pure, Except.pure]
  rw [y1]
  simp only
  rw [rd_ofFn]
  simp only
  rw [m2]
  refine ⟨_, rfl, ⟨M, m1, rfl⟩, ?_, ?_⟩
  · refine y4.next ?_
    intro n p b hn h1 h2 T hT
    exact hT.set _ h1 (by omega)
  · intro hi
    simp only [hi, if_true]
    refine y3.congr ?_
    intro j hj x _ r _
    rw [← hi, mats_set_ne]
    rintro rfl
    simp at hj

theorem tuckSweepDT_ok (h4 : 4 ≤ N) (h5 : N ≠ 5) (hN : N ≤ 18) {dims rk : Fin N → ℕ} (hr : ∀ j, rk j ≤ dims j) {V : Tensor ℝ}
    {W : List (Tensor ℝ)} (hS : TuckShaped dims rk V W) {k : Kern ℝ} (hk : SvdShape k) :
    ∃ W' C, tuckSweepDT k V (List.ofFn rk) W = .ok (W', C) ∧ TuckShaped dims rk V W' ∧ HooiRun k dims rk V W W' N ∧
      Canon C ∧ TValid dims rk (arr V N) (mats W') ∅ C := by
  have hlen : V.lens.length = N := by rw [hS.lensV]; simp
  obtain ⟨s, h1, h3, h6, _, h7⟩ := foldlM_range'_inv (s := 0) (n := N)
    (P := fun j (s : List (Tensor ℝ) × Cache ℝ × Tensor ℝ) => TuckShaped dims rk V s.1 ∧ HooiRun k dims rk V W s.1 j ∧
      DInv N (TuckGood dims rk V s.1) j s.2.1 ∧
      (j = N → TValid dims rk (arr V N) (mats s.1) {⟨N - 1, by omega⟩} s.2.2))
    (f := tuckUpdateDT N (constructDT 0 (N - 1) {}) k V (List.ofFn rk)) (a := (W, [], ⟨[], fun _ => 0⟩))
    ⟨hS, HooiRun.zero W, DInv.nil _ _, fun h => absurd h (by omega)⟩
    (by
      rintro j s _ hj ⟨g1, g2, g3, _⟩
      obtain ⟨s', w1, w2, w3, w4⟩ := tuckUpdateDT_ok h4 h5 hN g1 k ⟨j, by omega⟩ g3
      refine ⟨s', w1, w2.shaped hk hr g1, g2.snoc (i := ⟨j, by omega⟩) w2, w3, ?_⟩
      intro e
      have hj' : (⟨j, by omega⟩ : Fin N) = ⟨N - 1, by omega⟩ := Fin.ext (by simp only; omega)
      rw [hj'] at w4
      exact w4 (by simp))
  rw [Nat.zero_add] at h6 h7
  obtain ⟨Wl, l1, _, l2, l3⟩ := tmats_get h3 ⟨N - 1, by omega⟩
  obtain ⟨C, c1, c2, c3⟩ := coreEnd_ok (by omega) (by omega) (h7 rfl) l2 l3
  refine ⟨s.1, C, ?_, h3, h6, c2, c3⟩
  unfold tuckSweepDT
  simp only [bind, Except.bind, pure, Except.pure]
  rw [hlen, List.range_eq_range', h1]
  simp only
  have : ((N : ℤ) - 1) = ((N - 1 : ℕ) : ℤ) := by omega
  simp only at l1
  rw [this, l1]
  simp only
  rw [c1]

end Model
