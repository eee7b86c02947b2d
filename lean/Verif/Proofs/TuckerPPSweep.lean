import Verif.Proofs.TuckerPP

/-! One sweep of Tucker pairwise perturbation. -/

namespace Model

open Finset Function

variable {N : ℕ}

theorem ttmVal_eq_ttm1 {dims rk : Fin N → ℕ} (g : (Fin N → ℕ) → ℝ) (i : Fin N) (B : ℕ → ℕ → ℝ) :
    ttmVal (klens dims rk {i}) g i B = Spec.ttm1 (dims i) g i B := by
  funext z
  unfold ttmVal Spec.ttm1
  simp [klens]

theorem sumSq_ttm1 {dims rk : Fin N → ℕ} (g : (Fin N → ℕ) → ℝ) (i : Fin N) (B : ℕ → ℕ → ℝ) :
    Spec.sumSq rk (Spec.ttm1 (dims i) g i B) = ∑ a ∈ range (rk i), ∑ x ∈ range (dims i), ∑ y ∈ range (dims i),
      B x a * Spec.unfoldGram (klens dims rk {i}) g i x y * B y a := by
  have h := sumSq_ttm (klens dims rk {i}) g i (rk i) B
  rw [klens_update] at h
  have e1 : klens dims rk (({i} : Finset (Fin N)).erase i) = rk := by funext j; simp [klens]
  have e2 : klens dims rk {i} i = dims i := by simp [klens]
  rw [e1, e2, ttmVal_eq_ttm1] at h
  exact h

/-- The leading singular vectors of the unfolding of any `Y`. -/
theorem factorOf_best (hN : N ≤ 18) {dims rk : Fin N → ℕ} (hr : ∀ j, rk j ≤ dims j) {i : Fin N} {Y : Tensor ℝ}
    {g : (Fin N → ℕ) → ℝ} (hY : TVal Y (klens dims rk {i}) g) {k : Kern ℝ} (hl : SvdLeading k) :
    ∃ U, factorOf k Y i.1 (rk i) = .ok U ∧ U.lens = [dims i, rk i] ∧ Spec.Orthonormal (dims i) (rk i) (mat U) ∧
      ∀ B, Spec.Orthonormal (dims i) (rk i) B →
        ∑ a ∈ range (rk i), ∑ x ∈ range (dims i), ∑ y ∈ range (dims i), B x a * Spec.unfoldGram (klens dims rk {i}) g i x y * B y a ≤
        ∑ a ∈ range (rk i), ∑ x ∈ range (dims i), ∑ y ∈ range (dims i),
          mat U x a * Spec.unfoldGram (klens dims rk {i}) g i x y * mat U y a := by
  obtain ⟨M, m1, _, m3, m4⟩ := unroll_ok hN hY i
  have e2 : klens dims rk {i} i = dims i := by simp [klens]
  have hp := unfoldGram_posSemidef (klens dims rk {i}) g i m4
  rw [e2] at hp m3 m4
  have hb := (hl _ _ M m3 (hr i) hp)
  obtain ⟨b1, b2⟩ := hb.best (hr i) hp
  refine ⟨(k.svd M (rk i)).U, ?_, hb.lens, b1, fun B hB => ?_⟩
  · rw [factorOf_eq]
    simp only [bind, Except.bind, pure, Except.pure]
    rw [m1]
  · refine le_trans (le_of_eq ?_) ((b2 B hB).trans (le_of_eq ?_))
    · refine sum_congr rfl fun a _ => sum_congr rfl fun x hx => sum_congr rfl fun y hy => ?_
      rw [m4 x (mem_range.1 hx) y (mem_range.1 hy)]
    · refine sum_congr rfl fun a _ => sum_congr rfl fun x hx => sum_congr rfl fun y hy => ?_
      rw [m4 x (mem_range.1 hx) y (mem_range.1 hy)]

/-- What one update of a Tucker PP phase does. -/
structure TPPStep (dims rk : Fin N → ℕ) (V : Tensor ℝ) (Winit W dW W' dW' : List (Tensor ℝ)) (i : Fin N) : Prop where
  shW : TuckShaped dims rk V W'
  shD : TuckShaped dims rk V dW'
  otherW : ∀ j, j ≠ i → mats (N := N) W' j = mats W j
  otherD : ∀ j, j ≠ i → mats (N := N) dW' j = mats dW j
  ortho : Spec.Orthonormal (dims i) (rk i) (mats W' i)
  best : ∀ B, Spec.Orthonormal (dims i) (rk i) B →
    Spec.sumSq rk (Spec.ttm1 (dims i) (Spec.ppTTM dims (arr V N) (mats Winit) (mats dW) i) i B) ≤
      Spec.sumSq rk (Spec.ttm1 (dims i) (Spec.ppTTM dims (arr V N) (mats Winit) (mats dW) i) i (mats W' i))
  disp : ∀ x < dims i, ∀ r < rk i, mats dW' i x r = mats W' i x r - mats Winit i x r
  sign : ∀ r < rk i, 0 ≤ ∑ x ∈ range (dims i), mats W' i x r * mats Winit i x r

theorem tuckPPUpdate_ok (hN : N ≤ 18) {dims rk : Fin N → ℕ} (hr : ∀ j, rk j ≤ dims j) {V : Tensor ℝ}
    {Winit : List (Tensor ℝ)} {ops : Cache ℝ} (ho : TPPOps dims rk V Winit ops) (hI : TuckShaped dims rk V Winit)
    {s : List (Tensor ℝ) × List (Tensor ℝ) × Tensor ℝ} (hW : TuckShaped dims rk V s.1) (hD : TuckShaped dims rk V s.2.1)
    {k : Kern ℝ} (hl : SvdLeading k) (i : Fin N) :
    ∃ s', tuckPPUpdate N k (List.ofFn rk) ops Winit s i.1 = .ok s' ∧
      TPPStep dims rk V Winit s.1 s.2.1 s'.1 s'.2.1 i ∧
      (i.1 = N - 1 → TVal s'.2.2 (klens dims rk {i}) (Spec.ppTTM dims (arr V N) (mats Winit) (mats s'.2.1) i)) := by
  obtain ⟨Y, y1, _, y3, y4⟩ := tuckPPY_ok (by omega) ho hD i
  have hY : TVal Y (klens dims rk {i}) (Spec.ppTTM dims (arr V N) (mats Winit) (mats s.2.1) i) := ⟨y3, y4⟩
  obtain ⟨U, u1, u2, u3, u4⟩ := factorOf_best hN hr hY hl
  obtain ⟨Wr, r1, _, r2, r3⟩ := tmats_get hI i
  obtain ⟨W', w1, _, w3, w4⟩ := signAlign_ok u2 r2
  obtain ⟨D, d1, _, d3, d4⟩ := zipT_ok (fun a b : ℝ => a - b) (A := W') (B := Wr) (by rw [w3, r2])
  have hDi : D.lens = [dims i, rk i] := by rw [d3, w3]
  have hsW := mats_set_self hW.count W' (i := i)
  have hsD := mats_set_self hD.count D (i := i)
  refine ⟨(s.1.set i.1 W', s.2.1.set i.1 D, if i.1 = N - 1 then Y else s.2.2), ?_, ⟨hW.set i w3, hD.set i hDi,
    fun j hj => mats_set_ne _ hj, fun j hj => mats_set_ne _ hj, ?_, ?_, ?_, ?_⟩, ?_⟩
  · unfold tuckPPUpdate
    simp only [bind, Except.bind, pure, Except.pure]
    rw [y1]
    simp only
    rw [rd_ofFn]
    simp only
    rw [u1]
    simp only
    rw [r1]
    simp only
    rw [w1]
    simp only
    rw [d1]
  · rw [hsW]
    exact orthonormal_sign (fun a _ => colSign_sq _ _ _ a) w4 u3
  · intro B hB
    rw [sumSq_ttm1, sumSq_ttm1, hsW, trace_sign (fun a _ => colSign_sq _ _ _ a) w4]
    exact u4 B hB
  · intro x hx r hr'
    simp only
    rw [hsW, hsD, ← r3]
    exact d4 [x, r] (by rw [w3]; exact fits_two.2 ⟨hx, hr'⟩)
  · intro a ha
    simp only
    rw [hsW, ← r3]
    have e : ∑ x ∈ range (dims i), mat W' x a * mat Wr x a =
        colSign (dims i) (mat U) (mat Wr) a * ∑ x ∈ range (dims i), mat U x a * mat Wr x a := by
      rw [mul_sum]
      refine sum_congr rfl fun x hx => ?_
      rw [w4 x (mem_range.1 hx) a ha]; ring
    rw [e]
    unfold colSign
    split_ifs with h <;> linarith
  · intro hi
    simp only [hi, if_true]
    refine hY.congr fun z _ => ?_
    unfold Spec.ppTTM
    congr 1
    refine sum_congr rfl fun j hj => ?_
    rw [← hi, mats_set_ne _ (Finset.ne_of_mem_erase hj)]

/-- A whole sweep: the updates in order, and the core. -/
theorem tuckPPSweep_ok (hN : N ≤ 18) (l : Fin N) (hlast : l.1 = N - 1) {dims rk : Fin N → ℕ} (hr : ∀ j, rk j ≤ dims j) {V : Tensor ℝ}
    {Winit : List (Tensor ℝ)} {ops : Cache ℝ} (ho : TPPOps dims rk V Winit ops) (hI : TuckShaped dims rk V Winit)
    {W dW : List (Tensor ℝ)} (hW : TuckShaped dims rk V W) (hD : TuckShaped dims rk V dW)
    {k : Kern ℝ} (hl : SvdLeading k) :
    ∃ (st : ℕ → List (Tensor ℝ) × List (Tensor ℝ)) (C : Tensor ℝ),
      tuckPPSweep N k (List.ofFn rk) ops Winit W dW = .ok ((st N).1, (st N).2, C) ∧ st 0 = (W, dW) ∧
      (∀ i : Fin N, TPPStep dims rk V Winit (st i.1).1 (st i.1).2 (st (i.1 + 1)).1 (st (i.1 + 1)).2 i) ∧
      C.lens = List.ofFn rk ∧
      ∀ z : Fin N → ℕ, (∀ j, z j < rk j) → arr C N z = Spec.ttm1 (dims l)
        (Spec.ppTTM dims (arr V N) (mats Winit) (mats (st N).2) l) l
        (mats (st N).1 l) z := by
  obtain ⟨s, h1', ⟨st, a1, a2, a3, a4, a5⟩, a6⟩ := foldlM_range'_inv (s := 0) (n := N)
    (P := fun j (s : List (Tensor ℝ) × List (Tensor ℝ) × Tensor ℝ) =>
      (∃ st : ℕ → List (Tensor ℝ) × List (Tensor ℝ), st 0 = (W, dW) ∧ st j = (s.1, s.2.1) ∧
        TuckShaped dims rk V s.1 ∧ TuckShaped dims rk V s.2.1 ∧
        ∀ i : Fin N, i.1 < j → TPPStep dims rk V Winit (st i.1).1 (st i.1).2 (st (i.1 + 1)).1 (st (i.1 + 1)).2 i) ∧
      (j = N → TVal s.2.2 (klens dims rk {l})
        (Spec.ppTTM dims (arr V N) (mats Winit) (mats s.2.1) l)))
    (f := tuckPPUpdate N k (List.ofFn rk) ops Winit) (a := (W, dW, ⟨[], fun _ => 0⟩))
    ⟨⟨fun _ => (W, dW), rfl, rfl, hW, hD, fun i h => absurd h (by omega)⟩, fun h => absurd h (by have := l.2; omega)⟩
    (by
      rintro j s _ hj ⟨⟨st, g1, g2, g3, g4, g5⟩, _⟩
      obtain ⟨s', w1, w2, w3⟩ := tuckPPUpdate_ok hN hr ho hI g3 g4 hl ⟨j, by omega⟩
      refine ⟨s', w1, ⟨fun n => if n ≤ j then st n else (s'.1, s'.2.1), by simp [g1], by simp, w2.shW, w2.shD, ?_⟩, ?_⟩
      · intro i hi
        simp only
        by_cases e : i.1 = j
        · have : (⟨j, by omega⟩ : Fin N) = i := Fin.ext e.symm
          rw [this] at w2
          rw [if_pos e.le, if_neg (by omega), e, g2]
          exact w2
        · rw [if_pos (by omega), if_pos (by omega)]
          exact g5 i (by omega)
      · intro e
        have hj' : (⟨j, by omega⟩ : Fin N) = l := Fin.ext (by simp only; omega)
        rw [hj'] at w3
        exact w3 hlast)
  rw [Nat.zero_add] at a2 a5 a6
  obtain ⟨Wl, l1, _, l2, l3⟩ := tmats_get a3 l
  have hY := a6 rfl
  have h1 : 1 ≤ N := by have := l.2; omega
  have hinj := letter_injective (N := N) (by omega)
  have hs := tletter_ne_star (N := N) (by omega)
  have hne : ∀ k, update (fun k : Fin N => letter k.1) l star k ≠ letter l.1 := by
    intro k
    by_cases e : k = l
    · rw [e, update_self]; exact (hs l).symm
    · rw [update_of_ne e]; exact fun h => e (hinj h)
  obtain ⟨C, c1, _, c3⟩ := ttm_step (update_inj hinj hs l) hne hY (j := l) (m := rk l) (B := Wl) (by rw [l2]; simp [klens])
  have e1 : update (klens dims rk {l}) l (rk l) = rk := by
    rw [klens_update]; funext m; simp [klens]
  rw [e1] at c1 c3
  refine ⟨st, C, ?_, a1, fun i => a5 i i.2, c3.1, fun z hz => ?_⟩
  · unfold tuckPPSweep
    simp only [bind, Except.bind, pure, Except.pure]
    rw [List.range_eq_range', h1']
    simp only
    have : ((N : ℤ) - 1) = ((l.1 : ℕ) : ℤ) := by have := l.2; omega
    rw [this, l1]
    simp only
    unfold coreEnd
    rw [update_self, update_idem, update_eq_self_iff.2 rfl] at c1
    rw [allLetters_ofFn, ← hlast, ofFn_set, c1, a2]
  · rw [c3.2 z hz, a2, ttmVal_eq_ttm1, l3]

end Model
