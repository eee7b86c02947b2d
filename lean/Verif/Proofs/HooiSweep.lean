import Verif.Proofs.TuckerSign

/-! Sweeps made of optimal mode updates. -/

namespace Model

open Finset Function

variable {N : ℕ}

/-- Squared norm of the core for factors `W`. -/
noncomputable def coreSq (dims rk : Fin N → ℕ) (V : Tensor ℝ) (W : Fin N → ℕ → ℕ → ℝ) : ℝ :=
  Spec.sumSq rk (Spec.multiTTM dims (arr V N) W ∅)

/-- `W'` differs from `W` in mode `i` only, where it is an orthonormal matrix for which the norm of the core is largest. -/
def BestMode (dims rk : Fin N → ℕ) (V : Tensor ℝ) (W W' : List (Tensor ℝ)) (i : Fin N) : Prop :=
  (∃ U : Tensor ℝ, U.lens = [dims i, rk i] ∧ W' = W.set i.1 U) ∧ Spec.Orthonormal (dims i) (rk i) (mats W' i) ∧
    ∀ B, Spec.Orthonormal (dims i) (rk i) B → coreSq dims rk V (update (mats W) i B) ≤ coreSq dims rk V (mats W')

/-- One HOOI update up to the signs of the columns. -/
def HooiModeS (k : Kern ℝ) (dims rk : Fin N → ℕ) (V : Tensor ℝ) (W W' : List (Tensor ℝ)) (i : Fin N) : Prop :=
  ∃ M, IsGram dims rk V W i M ∧ ∃ U : Tensor ℝ, U.lens = [dims i, rk i] ∧ W' = W.set i.1 U ∧
    ∃ s : ℕ → ℝ, (∀ a, s a * s a = 1) ∧ ∀ x < dims i, ∀ a < rk i, mat U x a = mat (k.svd M (rk i)).U x a * s a

theorem IsGram.posSemidef {dims rk : Fin N → ℕ} {V : Tensor ℝ} {W : List (Tensor ℝ)} {i : Fin N} {M : Tensor ℝ}
    (h : IsGram dims rk V W i M) : (toM (dims i) (dims i) M).PosSemidef := by
  have := unfoldGram_posSemidef (Spec.ttmShape dims rk {i}) (Spec.multiTTM dims (arr V N) (mats W) {i}) i (M := M)
  have e : Spec.ttmShape dims rk {i} i = dims i := by simp [Spec.ttmShape]
  rw [e] at this
  exact this h.2.2

theorem HooiMode.toS {k : Kern ℝ} (hk : SvdLeading k) {dims rk : Fin N → ℕ} (hr : ∀ j, rk j ≤ dims j) {V : Tensor ℝ}
    {W W' : List (Tensor ℝ)} {i : Fin N} (h : HooiMode k dims rk V W W' i) : HooiModeS k dims rk V W W' i := by
  obtain ⟨M, hM, rfl⟩ := h
  exact ⟨M, hM, _, (hk _ _ M hM.2.1 (hr i) hM.posSemidef).lens, rfl, fun _ => 1, fun _ => by norm_num,
    fun x _ a _ => by rw [mul_one]⟩

theorem HooiModeS.best {k : Kern ℝ} (hk : SvdLeading k) {dims rk : Fin N → ℕ} (hr : ∀ j, rk j ≤ dims j) {V : Tensor ℝ}
    {W W' : List (Tensor ℝ)} {i : Fin N} (hl : W.length = N) (h : HooiModeS k dims rk V W W' i) :
    BestMode dims rk V W W' i := by
  obtain ⟨M, hM, U, hU, rfl, s, hs, hUs⟩ := h
  have hb := (hk _ _ M hM.2.1 (hr i) hM.posSemidef).best (hr i) hM.posSemidef
  have hself := mats_set_self hl U (i := i)
  refine ⟨⟨U, hU, rfl⟩, ?_, fun B hB => ?_⟩
  · rw [hself]
    exact orthonormal_sign (fun a _ => hs a) hUs hb.1
  · have hne : ∀ j, j ≠ i → mats (N := N) (W.set i.1 U) j = mats W j := fun j hj => mats_set_ne _ hj
    have e1 : Spec.multiTTM dims (arr V N) (mats (W.set i.1 U)) {i} = Spec.multiTTM dims (arr V N) (mats W) {i} :=
      multiTTM_single_congr hne
    have e2 : Spec.multiTTM dims (arr V N) (update (mats W) i B) {i} = Spec.multiTTM dims (arr V N) (mats W) {i} :=
      multiTTM_single_congr fun j hj => by rw [update_of_ne hj]
    unfold coreSq
    rw [core_norm_eq _ i, core_norm_eq (mats _) i, hself, e1, e2, update_self]
    refine le_trans (le_of_eq ?_) ((hb.2 B hB).trans (le_of_eq ?_))
    · refine sum_congr rfl fun a _ => sum_congr rfl fun x hx => sum_congr rfl fun y hy => ?_
      rw [hM.2.2 x (mem_range.1 hx) y (mem_range.1 hy)]
    · rw [← trace_sign (fun a _ => hs a) hUs]
      refine sum_congr rfl fun a _ => sum_congr rfl fun x hx => sum_congr rfl fun y hy => ?_
      rw [hM.2.2 x (mem_range.1 hx) y (mem_range.1 hy)]

theorem BestMode.shaped {dims rk : Fin N → ℕ} {V : Tensor ℝ} {W W' : List (Tensor ℝ)} {i : Fin N}
    (h : BestMode dims rk V W W' i) (hS : TuckShaped dims rk V W) : TuckShaped dims rk V W' := by
  obtain ⟨⟨U, hU, rfl⟩, _⟩ := h
  exact hS.set i hU

/-- The first `n` modes are updated optimally, in order. -/
def BestRun (dims rk : Fin N → ℕ) (V : Tensor ℝ) (W W' : List (Tensor ℝ)) (n : ℕ) : Prop :=
  ∃ st : ℕ → List (Tensor ℝ), st 0 = W ∧ st n = W' ∧ ∀ i : Fin N, i.1 < n → BestMode dims rk V (st i.1) (st (i.1 + 1)) i

theorem BestRun.zero {dims rk : Fin N → ℕ} {V : Tensor ℝ} (W : List (Tensor ℝ)) : BestRun dims rk V W W 0 :=
  ⟨fun _ => W, rfl, rfl, fun _ h => absurd h (by omega)⟩

theorem BestRun.snoc {dims rk : Fin N → ℕ} {V : Tensor ℝ} {W W1 W2 : List (Tensor ℝ)} {i : Fin N}
    (h : BestRun dims rk V W W1 i.1) (h2 : BestMode dims rk V W1 W2 i) : BestRun dims rk V W W2 (i.1 + 1) := by
  obtain ⟨st, a1, a2, a3⟩ := h
  refine ⟨fun n => if n ≤ i.1 then st n else W2, by simp [a1], by simp, ?_⟩
  intro j hj
  simp only
  by_cases e : j.1 = i.1
  · have : j = i := Fin.ext e
    subst this
    rw [if_pos le_rfl, if_neg (by omega), a2]
    exact h2
  · rw [if_pos (by omega), if_pos (by omega)]
    exact a3 j (by omega)

/-- Orthonormality of all factors of the modes in `S`. -/
def AllOrtho (dims rk : Fin N → ℕ) (W : List (Tensor ℝ)) : Prop :=
  ∀ j : Fin N, Spec.Orthonormal (dims j) (rk j) (mats W j)

theorem HooiRun.best {k : Kern ℝ} (hk : SvdLeading k) {dims rk : Fin N → ℕ} (hr : ∀ j, rk j ≤ dims j) {V : Tensor ℝ}
    {W W' : List (Tensor ℝ)} {n : ℕ} (hn : n ≤ N) (hS : TuckShaped dims rk V W) (h : HooiRun k dims rk V W W' n) :
    BestRun dims rk V W W' n := by
  obtain ⟨st, a1, a2, a3⟩ := h
  have hl : ∀ j ≤ n, (st j).length = N := by
    intro j
    induction j with
    | zero => intro _; rw [a1, hS.count]
    | succ j ih =>
      intro hj
      obtain ⟨M, _, hM⟩ := a3 ⟨j, by omega⟩ (by simp only; omega)
      simp only at hM
      rw [hM]; simp [ih (by omega)]
  exact ⟨st, a1, a2, fun i hi => ((a3 i hi).toS hk hr).best hk hr (hl _ (by omega))⟩

/-- After `n` updates: shapes, orthonormality of the updated modes; of all modes if they were orthonormal before, and then the
core norm has not decreased. -/
theorem BestRun.spec {dims rk : Fin N → ℕ} {V : Tensor ℝ} {W W' : List (Tensor ℝ)} {n : ℕ} (hn : n ≤ N)
    (hS : TuckShaped dims rk V W) (h : BestRun dims rk V W W' n) :
    TuckShaped dims rk V W' ∧ (∀ j : Fin N, j.1 < n → Spec.Orthonormal (dims j) (rk j) (mats W' j)) ∧
      (AllOrtho dims rk W → AllOrtho dims rk W' ∧ coreSq dims rk V (mats W) ≤ coreSq dims rk V (mats W')) := by
  obtain ⟨st, a1, a2, a3⟩ := h
  have key : ∀ j ≤ n, TuckShaped dims rk V (st j) ∧
      (∀ m : Fin N, m.1 < j → Spec.Orthonormal (dims m) (rk m) (mats (st j) m)) ∧
      (AllOrtho dims rk W → AllOrtho dims rk (st j) ∧ coreSq dims rk V (mats W) ≤ coreSq dims rk V (mats (st j))) := by
    intro j
    induction j with
    | zero =>
      intro _
      rw [a1]
      exact ⟨hS, fun m hm => absurd hm (by omega), fun h => ⟨h, le_rfl⟩⟩
    | succ j ih =>
      intro hj
      obtain ⟨i1, i2, i3⟩ := ih (by omega)
      have hb := a3 ⟨j, by omega⟩ (by simp only; omega)
      simp only at hb
      have hne : ∀ m : Fin N, m.1 ≠ j → mats (N := N) (st (j + 1)) m = mats (st j) m := by
        intro m hm
        obtain ⟨⟨U, _, e⟩, _⟩ := hb
        rw [e]
        exact mats_set_ne (i := ⟨j, by omega⟩) U (fun h => hm (by rw [h]))
      have ho : ∀ m : Fin N, m.1 = j → Spec.Orthonormal (dims m) (rk m) (mats (st (j + 1)) m) := by
        intro m hm
        have : m = ⟨j, by omega⟩ := Fin.ext hm
        rw [this]; exact hb.2.1
      refine ⟨hb.shaped i1, ?_, ?_⟩
      · intro m hm
        by_cases e : m.1 = j
        · exact ho m e
        · rw [hne m e]; exact i2 m (by omega)
      · intro hW
        obtain ⟨i3, i4⟩ := i3 hW
        refine ⟨?_, ?_⟩
        · intro m
          by_cases e : m.1 = j
          · exact ho m e
          · rw [hne m e]; exact i3 m
        · have := hb.2.2 (mats (st j) ⟨j, by omega⟩) (i3 _)
          rw [update_eq_self] at this
          exact i4.trans this
  rw [← a2]
  exact key n le_rfl

/-! ### alsTucker_DT_sub -/

theorem tuckUpdateDTsub_ok (h4 : 4 ≤ N) (h5 : N ≠ 5) (hN : N ≤ 18) {dims rk : Fin N → ℕ} (hr : ∀ j, rk j ≤ dims j)
    {V : Tensor ℝ} {Wp : List (Tensor ℝ)} (hP : TuckShaped dims rk V Wp)
    {s : List (Tensor ℝ) × Cache ℝ × Tensor ℝ} (hS : TuckShaped dims rk V s.1) {k : Kern ℝ} (hk : SvdShape k) (i : Fin N)
    (hI : DInv N (TuckGood dims rk V s.1) i.1 s.2.1) :
    ∃ s', tuckUpdateDTsub N (constructDT 0 (N - 1) {}) k V (List.ofFn rk) Wp s i.1 = .ok s' ∧
      HooiModeS k dims rk V s.1 s'.1 i ∧ DInv N (TuckGood dims rk V s'.1) (i.1 + 1) s'.2.1 ∧
      (i.1 = N - 1 → TValid dims rk (arr V N) (mats s'.1) {i} s'.2.2) ∧
      (∀ a < rk i, 0 ≤ ∑ x ∈ range (dims i), mats s'.1 i x a * mats Wp i x a) := by
  obtain ⟨Y, c, y1, y2, y3, y4⟩ := tuckY_ok h4 h5 (by omega) hS i hI
  obtain ⟨M, m1, m2⟩ := factorOf_ok hN y3 k
  obtain ⟨Wr, r1, _, r2, r3⟩ := tmats_get hP i
  obtain ⟨U, u1, u2, u3, u4⟩ := signAlign_ok (hk M _ _ m1.2.1 (hr i)) r2
  unfold tuckUpdateDTsub
  simp only [bind, Except.bind, pure, Except.pure]
  rw [y1]
  simp only
  rw [rd_ofFn]
  simp only
  rw [m2]
  simp only
  rw [r1]
  simp only
  rw [u1]
  refine ⟨_, rfl, ⟨M, m1, U, u3, rfl, _, colSign_sq _ _ _, u4⟩, ?_, ?_, ?_⟩
  · refine y4.next ?_
    intro n p b hn h1 h2 T hT
    exact hT.set _ h1 (by omega)
  · intro hi
    simp only [hi, if_true]
    refine y3.congr ?_
    intro j hj x _ r _
    rw [← hi, mats_set_ne]
    rintro rfl
    simp at hj
  · intro a ha
    simp only
    rw [mats_set_self hS.count, ← r3]
    have e : ∑ x ∈ range (dims i), mat U x a * mat Wr x a =
        colSign (dims i) (mat (k.svd M (rk i)).U) (mat Wr) a * ∑ x ∈ range (dims i), mat (k.svd M (rk i)).U x a * mat Wr x a := by
      rw [mul_sum]
      refine sum_congr rfl fun x hx => ?_
      rw [u4 x (mem_range.1 hx) a ha]; ring
    rw [e]
    unfold colSign
    split_ifs with h
    · linarith
    · linarith

theorem tuckSweepDTsub_ok (h4 : 4 ≤ N) (h5 : N ≠ 5) (hN : N ≤ 18) {dims rk : Fin N → ℕ} (hr : ∀ j, rk j ≤ dims j) {V : Tensor ℝ}
    {W Wp : List (Tensor ℝ)} (hP : TuckShaped dims rk V Wp) (hS : TuckShaped dims rk V W) {k : Kern ℝ} (hk : SvdShape k)
    (hl : SvdLeading k) :
    ∃ W' C, tuckSweepDTsub k V (List.ofFn rk) Wp W = .ok (W', C) ∧ TuckShaped dims rk V W' ∧ BestRun dims rk V W W' N ∧
      Canon C ∧ TValid dims rk (arr V N) (mats W') ∅ C ∧
      ∀ i : Fin N, ∀ a < rk i, 0 ≤ ∑ x ∈ range (dims i), mats W' i x a * mats Wp i x a := by
  have hlen : V.lens.length = N := by rw [hS.lensV]; simp
  obtain ⟨s, h1, h3, h6, _, h7, h8⟩ := foldlM_range'_inv (s := 0) (n := N)
    (P := fun j (s : List (Tensor ℝ) × Cache ℝ × Tensor ℝ) => TuckShaped dims rk V s.1 ∧ BestRun dims rk V W s.1 j ∧
      DInv N (TuckGood dims rk V s.1) j s.2.1 ∧
      (j = N → TValid dims rk (arr V N) (mats s.1) {⟨N - 1, by omega⟩} s.2.2) ∧
      ∀ i : Fin N, i.1 < j → ∀ a < rk i, 0 ≤ ∑ x ∈ range (dims i), mats s.1 i x a * mats Wp i x a)
    (f := tuckUpdateDTsub N (constructDT 0 (N - 1) {}) k V (List.ofFn rk) Wp) (a := (W, [], ⟨[], fun _ => 0⟩))
    ⟨hS, BestRun.zero W, DInv.nil _ _, fun h => absurd h (by omega), fun i h => absurd h (by omega)⟩
    (by
      rintro j s _ hj ⟨g1, g2, g3, _, g5⟩
      obtain ⟨s', w1, w2, w3, w4, w5⟩ := tuckUpdateDTsub_ok h4 h5 hN hr hP g1 hk ⟨j, by omega⟩ g3
      have hb := w2.best hl hr g1.count
      refine ⟨s', w1, hb.shaped g1, g2.snoc (i := ⟨j, by omega⟩) hb, w3, ?_, ?_⟩
      · intro e
        have hj' : (⟨j, by omega⟩ : Fin N) = ⟨N - 1, by omega⟩ := Fin.ext (by simp only; omega)
        rw [hj'] at w4
        exact w4 (by simp)
      · intro i hi a ha
        by_cases e : i.1 = j
        · have : i = ⟨j, by omega⟩ := Fin.ext e
          rw [this] at ha ⊢
          exact w5 a ha
        · obtain ⟨⟨U, _, e'⟩, _⟩ := hb
          rw [e', mats_set_ne (i := ⟨j, by omega⟩) U (fun h => e (by rw [h]))]
          exact g5 i (by omega) a ha)
  rw [Nat.zero_add] at h6 h7 h8
  obtain ⟨Wl, l1, _, l2, l3⟩ := tmats_get h3 ⟨N - 1, by omega⟩
  obtain ⟨C, c1, c2, c3⟩ := coreEnd_ok (by omega) (by omega) (h7 rfl) l2 l3
  refine ⟨s.1, C, ?_, h3, h6, c2, c3, fun i => h8 i i.2⟩
  unfold tuckSweepDTsub
  simp only [bind, Except.bind, pure, Except.pure]
  rw [hlen, List.range_eq_range', h1]
  simp only
  have : ((N : ℤ) - 1) = ((N - 1 : ℕ) : ℤ) := by omega
  simp only at l1
  rw [this, l1]
  simp only
  rw [c1]

/-! ### the residual -/

theorem sum_tuckRecon_sq {dims rk : Fin N → ℕ} {W : Fin N → ℕ → ℕ → ℝ} (hW : ∀ j, Spec.Orthonormal (dims j) (rk j) (W j))
    (C : (Fin N → ℕ) → ℝ) : ∑ idx ∈ Spec.Box dims, Spec.tuckRecon rk C W idx ^ 2 = Spec.sumSq rk C := by
  have e : ∀ idx, Spec.tuckRecon rk C W idx ^ 2 =
      ∑ z ∈ Spec.Box rk, ∑ z' ∈ Spec.Box rk, C z * C z' * ∏ j, (W j (idx j) (z j) * W j (idx j) (z' j)) := by
    intro idx
    unfold Spec.tuckRecon
    rw [sq, sum_mul_sum]
    refine sum_congr rfl fun z _ => sum_congr rfl fun z' _ => ?_
    rw [prod_mul_distrib]; ring
  simp only [e]
  rw [sum_comm]
  unfold Spec.sumSq
  refine sum_congr rfl fun z hz => ?_
  rw [sum_comm]
  rw [sum_eq_single z]
  · rw [← mul_sum]
    unfold Spec.Box
    rw [← Finset.prod_univ_sum (fun j => range (dims j)) (fun j x => W j x (z j) * W j x (z j))]
    have : ∀ j, ∑ x ∈ range (dims j), W j x (z j) * W j x (z j) = 1 := by
      intro j
      have := hW j (z j) (Spec.mem_Box.1 hz j) (z j) (Spec.mem_Box.1 hz j)
      rw [if_pos rfl] at this
      exact this
    rw [prod_congr rfl fun j _ => this j]
    simp [sq]
  · intro z' hz' hne
    rw [← mul_sum]
    unfold Spec.Box
    rw [← Finset.prod_univ_sum (fun j => range (dims j)) (fun j x => W j x (z j) * W j x (z' j))]
    obtain ⟨j, hj⟩ := Function.ne_iff.1 hne
    have h0 : ∑ x ∈ range (dims j), W j x (z j) * W j x (z' j) = 0 := by
      have := hW j (z j) (Spec.mem_Box.1 hz j) (z' j) (Spec.mem_Box.1 hz' j)
      rw [if_neg (Ne.symm hj)] at this
      exact this
    rw [prod_eq_zero (mem_univ j) h0, mul_zero]
  · intro h; exact absurd hz h

/-- For orthonormal factors the squared error is the squared norm of the tensor minus that of the core. -/
theorem error_identity {dims rk : Fin N → ℕ} {V : (Fin N → ℕ) → ℝ} {W : Fin N → ℕ → ℕ → ℝ}
    (hW : ∀ j, Spec.Orthonormal (dims j) (rk j) (W j)) :
    ∑ idx ∈ Spec.Box dims, (V idx - Spec.tuckRecon rk (Spec.multiTTM dims V W ∅) W idx) ^ 2 =
      Spec.sumSq dims V - Spec.sumSq rk (Spec.multiTTM dims V W ∅) := by
  set C := Spec.multiTTM dims V W ∅ with hC
  have hcross : ∑ idx ∈ Spec.Box dims, V idx * Spec.tuckRecon rk C W idx = Spec.sumSq rk C := by
    unfold Spec.tuckRecon Spec.sumSq
    simp only [mul_sum]
    rw [sum_comm]
    refine sum_congr rfl fun z _ => ?_
    have : C z = ∑ idx ∈ Spec.Box dims, V idx * ∏ j, W j (idx j) (z j) := by
      rw [hC]; unfold Spec.multiTTM; simp
    rw [sq]
    conv_rhs => lhs; rw [this]
    rw [sum_mul]
    refine sum_congr rfl fun idx _ => ?_
    ring
  have hsq := sum_tuckRecon_sq hW C
  have : ∀ idx, (V idx - Spec.tuckRecon rk C W idx) ^ 2 =
      V idx ^ 2 - 2 * (V idx * Spec.tuckRecon rk C W idx) + Spec.tuckRecon rk C W idx ^ 2 := fun idx => by ring
  simp only [this]
  rw [sum_add_distrib, sum_sub_distrib, ← mul_sum, hcross, hsq]
  unfold Spec.sumSq
  ring

end Model
