import Verif.Proofs.RoundTuckerRun

/-! Rounding errors of the Gram matrices and of whole Tucker sweeps. -/

namespace Model

open Finset Function

variable {N : ℕ}

theorem unroll_einsum {K : Type} [CommRing K] (hN : N ≤ 18) {lens : Fin N → ℕ} {T : Tensor K} (hT : T.lens = List.ofFn lens) (i : Fin N) :
    unroll T i.1 = einsum [lens i, lens i] [hat, ampersand]
      [(T, List.ofFn (update (fun j : Fin N => (105 + (j.1 : ℤ) : Label)) i hat)),
       (T, List.ofFn (update (fun j : Fin N => (105 + (j.1 : ℤ) : Label)) i ampersand))] := by
  unfold unroll
  have hlen : T.lens.length = N := by rw [hT]; simp
  rw [hlen, tmapM_chr hN]
  simp only [bind, Except.bind]
  have : rd T.lens (i.1 : ℤ) = .ok (lens i) := by
    rw [rd_ok (by omega)]
    congr 1
    simp [hT]
  rw [this]
  simp only
  rw [ofFn_set, ofFn_set]

theorem unrollR_ev (P : Arith) (hN : N ≤ 18) {lens : Fin N → ℕ} {T : Tensor ℝ} (hT : T.lens = List.ofFn lens) (i : Fin N) :
    unrollR P T i.1 = P.ev [lens i, lens i] [hat, ampersand]
      [(T, List.ofFn (update (fun j : Fin N => (105 + (j.1 : ℤ) : Label)) i hat)),
       (T, List.ofFn (update (fun j : Fin N => (105 + (j.1 : ℤ) : Label)) i ampersand))] := by
  unfold unrollR
  have hlen : T.lens.length = N := by rw [hT]; simp
  rw [hlen, tmapM_chr hN]
  simp only [bind, Except.bind]
  have : rd T.lens (i.1 : ℤ) = .ok (lens i) := by
    rw [rd_ok (by omega)]
    congr 1
    simp [hT]
  rw [this]
  simp only
  rw [ofFn_set, ofFn_set]

/-- `M` approximates the Gram matrix of the mode-`i` unfolding of `g`, relative to the one of `gA`. -/
def GramNear (c : ℝ) (lens : Fin N → ℕ) (g gA : (Fin N → ℕ) → ℝ) (i : Fin N) (M : Tensor ℝ) : Prop :=
  M.lens = [lens i, lens i] ∧ ∀ x < lens i, ∀ y < lens i,
    |mat M x y - Spec.unfoldGram lens g i x y| ≤ (c - 1) * Spec.unfoldGram lens gA i x y

theorem unrollR_ok {b : ℕ} {u : ℝ} {P : Arith} (hP : RoundOk (b ^ (N - 1)) u P) (hu : 0 ≤ u) (hb : 1 ≤ b) (hN : N ≤ 18) {lens : Fin N → ℕ}
    (hl : ∀ j, lens j ≤ b) {c : ℝ} (hc : 1 ≤ c) {E A T : Tensor ℝ} {g gA : (Fin N → ℕ) → ℝ} (hE : TVal E lens g) (hA : TVal A lens gA)
    (hT : RelT c E A T) (i : Fin N) :
    ∃ M, unrollR P T i.1 = .ok M ∧ GramNear (c * c * (1 + u)) lens g gA i M := by
  obtain ⟨ME, e1, -, e3, e4⟩ := unroll_ok hN hE i
  obtain ⟨MA, a1, -, a3, a4⟩ := unroll_ok hN hA i
  have hTl : T.lens = List.ofFn lens := by rw [← hT.1]; exact hE.1
  rw [unroll_einsum hN hE.1] at e1
  rw [unroll_einsum hN hA.1] at a1
  obtain ⟨A', T', b1, b2, b3⟩ := ev_rel hP hu (lens := [lens i, lens i]) (sc := [hat, ampersand])
    (l := [⟨E, A, T, List.ofFn (update (fun j : Fin N => (105 + (j.1 : ℤ) : Label)) i hat), c⟩,
      ⟨E, A, T, List.ofFn (update (fun j : Fin N => (105 + (j.1 : ℤ) : Label)) i ampersand), c⟩]) (by simp) (by simp)
    (by
      intro q hq
      simp only [List.mem_cons, List.not_mem_nil, or_false] at hq
      rcases hq with rfl | rfl <;> exact ⟨hc, hT⟩) (E' := ME) e1 (by
      have hcard : ((univ.erase i).image fun j : Fin N => (105 + (j.1 : ℤ) : Label)).card ≤ N - 1 := by
        refine le_trans Finset.card_image_le ?_
        rw [Finset.card_erase_of_mem (mem_univ i)]
        simp
      refine le_trans (nTerms_le_pow hb ((univ.erase i).image fun j : Fin N => (105 + (j.1 : ℤ) : Label)) ?_ ?_)
        (Nat.pow_le_pow_right hb hcard)
      · intro o ho l' hl' hn
        simp only [List.length_cons, List.length_nil, List.take_succ_cons, List.take_zero, List.mem_cons, List.not_mem_nil,
          or_false, not_or] at hn
        have hl' := List.mem_of_mem_take hl'
        simp only [List.map_cons, List.map_nil, List.mem_cons, List.not_mem_nil, or_false] at ho
        rw [Finset.mem_image]
        rcases ho with rfl | rfl
        · rcases mem_ofFn_update.1 hl' with h | ⟨k, h, e⟩
          · exact absurd h hn.1
          · exact ⟨k, by simp [h], e⟩
        · rcases mem_ofFn_update.1 hl' with h | ⟨k, h, e⟩
          · exact absurd h hn.2
          · exact ⟨k, by simp [h], e⟩
      · intro o ho n hn
        simp only [List.map_cons, List.map_nil, List.mem_cons, List.not_mem_nil, or_false] at ho
        have hn : n ∈ E.lens := by rcases ho with rfl | rfl <;> exact hn
        rw [hE.1, List.mem_ofFn] at hn
        obtain ⟨k, rfl⟩ := hn
        exact hl k)
  simp only [List.map_cons, List.map_nil, List.prod_cons, List.prod_nil, mul_one] at b1 b2 b3
  rw [a1] at b1
  rw [← Except.ok.inj b1] at b3
  refine ⟨T', by rw [unrollR_ev P hN hTl]; exact b2, by rw [← b3.1]; exact e3, ?_⟩
  intro x hx y hy
  rw [← e4 x hx y hy, ← a4 x hx y hy]
  exact (b3.2.2 _).2

/-! ### sweeps -/

/-- One update with rounded intermediate results: the factor becomes the leading left singular vectors of a matrix near the Gram matrix. -/
def HooiNear (cG : ℝ) (k : Kern ℝ) (dims rk : Fin N → ℕ) (V : Tensor ℝ) (W W' : List (Tensor ℝ)) (i : Fin N) : Prop :=
  ∃ M, GramNear cG (klens dims rk {i}) (Spec.multiTTM dims (arr V N) (mats W) {i})
      (Spec.multiTTM dims (Spec.absArr (arr V N)) (Spec.absMats (mats W)) {i}) i M ∧ W' = W.set i.1 (k.svd M (rk i)).U

/-- The first `n` modes are updated in order. -/
def HooiRunNear (cG : ℝ) (k : Kern ℝ) (dims rk : Fin N → ℕ) (V : Tensor ℝ) (W W' : List (Tensor ℝ)) (n : ℕ) : Prop :=
  ∃ st : ℕ → List (Tensor ℝ), st 0 = W ∧ st n = W' ∧ ∀ i : Fin N, i.1 < n → HooiNear cG k dims rk V (st i.1) (st (i.1 + 1)) i

theorem HooiRunNear.zero {cG : ℝ} {k : Kern ℝ} {dims rk : Fin N → ℕ} {V : Tensor ℝ} (W : List (Tensor ℝ)) :
    HooiRunNear cG k dims rk V W W 0 := ⟨fun _ => W, rfl, rfl, fun _ h => absurd h (by omega)⟩

theorem HooiRunNear.snoc {cG : ℝ} {k : Kern ℝ} {dims rk : Fin N → ℕ} {V : Tensor ℝ} {W W1 W2 : List (Tensor ℝ)} {i : Fin N}
    (h : HooiRunNear cG k dims rk V W W1 i.1) (h2 : HooiNear cG k dims rk V W1 W2 i) : HooiRunNear cG k dims rk V W W2 (i.1 + 1) := by
  obtain ⟨st, a1, a2, a3⟩ := h
  refine ⟨fun n => if n ≤ i.1 then st n else W2, by simp [a1], by simp, ?_⟩
  intro j hj
  simp only
  by_cases e : j.1 = i.1
  · have : j = i := Fin.ext e
    subst this
    rw [if_pos le_rfl, if_neg (by omega), a2]
    exact h2
  · rw [if_pos (by omega), if_pos (by omega)]
    exact a3 j (by omega)

theorem HooiNear.shaped {cG : ℝ} {k : Kern ℝ} (hk : SvdShape k) {dims rk : Fin N → ℕ} (hr : ∀ j, rk j ≤ dims j) {V : Tensor ℝ}
    {W W' : List (Tensor ℝ)} {i : Fin N} (h : HooiNear cG k dims rk V W W' i) (hS : TuckShaped dims rk V W) :
    TuckShaped dims rk V W' := by
  obtain ⟨M, m1, rfl⟩ := h
  have hi : klens dims rk {i} i = dims i := by simp [klens]
  have h1 := m1.1
  rw [hi] at h1
  exact hS.set i (hk M _ _ h1 (hr i))

theorem factorOfR_eq (P : Arith) (k : Kern ℝ) (Y : Tensor ℝ) (i r : ℕ) :
    factorOfR P k Y i r = (do let M ← unrollR P Y i; pure (k.svd M r).U) := by
  unfold factorOfR
  simp only [not_lt.2 (norm2_nonneg_t _), if_false]

section

variable {b : ℕ} {u u' : ℝ} {P : Arith} {dims rk : Fin N → ℕ}

theorem factorOfR_ok (hG : RoundOk (b ^ (N - 1)) u' P) (hu : 0 ≤ u') (hb : 1 ≤ b) (hd : ∀ j, dims j ≤ b) (hr : ∀ j, rk j ≤ b) (hN : N ≤ 18)
    {V : Tensor ℝ} {W : List (Tensor ℝ)} {i : Fin N} {Y : Tensor ℝ} {c : ℝ} (hc : 1 ≤ c)
    (hY : TNear c dims rk (arr V N) (Spec.absArr (arr V N)) (mats W) {i} Y) (k : Kern ℝ) :
    ∃ U, factorOfR P k Y i.1 (rk i) = .ok U ∧ HooiNear (c * c * (1 + u')) k dims rk V W (W.set i.1 U) i := by
  obtain ⟨E, A, e, a, rel⟩ := hY
  obtain ⟨M, m1, m2⟩ := unrollR_ok hG hu hb hN (klens_le hd hr _) hc e a rel i
  refine ⟨_, ?_, M, m2, rfl⟩
  rw [factorOfR_eq, m1]
  rfl

theorem tuckUpdateR_ok (hP : RoundOk (b * b) u P) (hG : RoundOk (b ^ (N - 1)) u' P) (hu : 0 ≤ u) (hu' : 0 ≤ u') (hb : 1 ≤ b)
    (hd : ∀ j, dims j ≤ b) (hr : ∀ j, rk j ≤ b) (h2 : 2 ≤ N) (hN : N ≤ 10) {V : Tensor ℝ} {W : List (Tensor ℝ)}
    (hS : TuckShaped dims rk V W) (k : Kern ℝ) (i : Fin N) :
    ∃ W', tuckUpdateR P k V (List.ofFn rk) W i.1 = .ok W' ∧
      HooiNear (((1 + u) ^ (N - 1)) * ((1 + u) ^ (N - 1)) * (1 + u')) k dims rk V W W' i := by
  obtain ⟨Y, y1, y2⟩ := ttmcR_ok hP hu hb hd hr hN hS le_rfl (RelT.exact V) i.1 (by
    by_cases h : i.1 = 0
    · exact ⟨1, by omega, by rw [h]; simp⟩
    · exact ⟨0, by omega, by simp only [Nat.cast_zero, ne_eq]; omega⟩) ⟨[], fun _ => 0⟩
  rw [keepOf_self, one_mul] at y2
  obtain ⟨U, m1, m2⟩ := factorOfR_ok hG hu' hb hd hr (by omega) (accU_one hu _) y2 k
  rw [show accU u ({i} : Finset (Fin N)) = (1 + u) ^ (N - 1) by simp [accU]] at m2
  refine ⟨_, ?_, m2⟩
  unfold tuckUpdateR
  simp only [bind, Except.bind, pure, Except.pure]
  rw [y1]
  simp only
  rw [rd_ofFn]
  simp only
  rw [m1]

theorem tuckSweepR_ok (hP : RoundOk (b * b) u P) (hG : RoundOk (b ^ (N - 1)) u' P) (hu : 0 ≤ u) (hu' : 0 ≤ u') (hb : 1 ≤ b)
    (hd : ∀ j, dims j ≤ b) (hr : ∀ j, rk j ≤ dims j) (h2 : 2 ≤ N) (hN : N ≤ 10) {V : Tensor ℝ} {W : List (Tensor ℝ)}
    (hS : TuckShaped dims rk V W) {k : Kern ℝ} (hk : SvdShape k) :
    ∃ W', tuckSweepR P k V (List.ofFn rk) W = .ok W' ∧ TuckShaped dims rk V W' ∧
      HooiRunNear (((1 + u) ^ (N - 1)) * ((1 + u) ^ (N - 1)) * (1 + u')) k dims rk V W W' N := by
  have hlen : V.lens.length = N := by rw [hS.lensV]; simp
  have hrb : ∀ j, rk j ≤ b := fun j => (hr j).trans (hd j)
  obtain ⟨s, h1, h3, h4⟩ := foldlM_range'_inv (s := 0) (n := N)
    (P := fun j (s : List (Tensor ℝ)) => TuckShaped dims rk V s ∧
      HooiRunNear (((1 + u) ^ (N - 1)) * ((1 + u) ^ (N - 1)) * (1 + u')) k dims rk V W s j)
    (f := tuckUpdateR P k V (List.ofFn rk)) (a := W) ⟨hS, HooiRunNear.zero W⟩
    (by
      rintro j s _ hj ⟨g1, g2⟩
      obtain ⟨W', w1, w2⟩ := tuckUpdateR_ok hP hG hu hu' hb hd hrb h2 hN g1 k ⟨j, by omega⟩
      exact ⟨W', w1, w2.shaped hk hr g1, g2.snoc (i := ⟨j, by omega⟩) w2⟩)
  rw [Nat.zero_add] at h4
  refine ⟨s, ?_, h3, h4⟩
  unfold tuckSweepR
  rw [hlen, List.range_eq_range']
  exact h1

theorem TuckNear.set {V : Tensor ℝ} {W : List (Tensor ℝ)} {n : Iv} {T : Tensor ℝ} {i : Fin N}
    (U : Tensor ℝ) (h : TuckNear u dims rk V W n T) (h1 : n.1 ≤ i.1) (h2 : i.1 ≤ n.2) :
    TuckNear u dims rk V (W.set i.1 U) n T := by
  refine TNear.congr h ?_
  intro j hj x _ r _
  rw [mats_set_ne]
  rintro rfl
  exact hj (mem_ivSet.2 ⟨h1, h2⟩)

theorem tuckUpdateDTR_ok (hP : RoundOk (b * b) u P) (hG : RoundOk (b ^ (N - 1)) u' P) (hu : 0 ≤ u) (hu' : 0 ≤ u') (hb : 1 ≤ b)
    (hd : ∀ j, dims j ≤ b) (hr : ∀ j, rk j ≤ b) (h4 : 4 ≤ N) (h5 : N ≠ 5) (hN : N ≤ 18) {V : Tensor ℝ}
    {s : List (Tensor ℝ) × Cache ℝ × Tensor ℝ} (hS : TuckShaped dims rk V s.1) (k : Kern ℝ) (i : Fin N)
    (hI : DInv N (TuckNear u dims rk V s.1) i.1 s.2.1) :
    ∃ s', tuckUpdateDTR P N (constructDT 0 (N - 1) {}) k V (List.ofFn rk) s i.1 = .ok s' ∧
      HooiNear (((1 + u) ^ (N - 1)) * ((1 + u) ^ (N - 1)) * (1 + u')) k dims rk V s.1 s'.1 i ∧
      DInv N (TuckNear u dims rk V s'.1) (i.1 + 1) s'.2.1 ∧
      (i.1 = N - 1 → TNear (accU u {i}) dims rk (arr V N) (Spec.absArr (arr V N)) (mats s'.1) {i} s'.2.2) := by
  obtain ⟨Y, c, y1, y3, y4⟩ := tuckYR_ok hP hu hb hd hr h4 h5 (by omega) hS i hI
  obtain ⟨U, m2, m1⟩ := factorOfR_ok hG hu' hb hd hr (by omega) (accU_one hu _) y3 k
  rw [show accU u ({i} : Finset (Fin N)) = (1 + u) ^ (N - 1) by simp [accU]] at m1
  unfold tuckUpdateDTR
  simp only [bind, Except.bind, pure, Except.pure]
  rw [y1]
  simp only
  rw [rd_ofFn]
  simp only
  rw [m2]
  refine ⟨_, rfl, m1, ?_, ?_⟩
  · refine y4.next ?_
    intro n p b hn h1 h2 T hT
    exact hT.set _ h1 (by omega)
  · intro hi
    simp only [hi, if_true]
    refine y3.congr ?_
    intro j hj x _ r _
    rw [← hi, mats_set_ne]
    rintro rfl
    simp at hj

theorem tuckSweepDTR_ok (hP : RoundOk (b * b) u P) (hG : RoundOk (b ^ (N - 1)) u' P) (hu : 0 ≤ u) (hu' : 0 ≤ u') (hb : 1 ≤ b)
    (hd : ∀ j, dims j ≤ b) (hr : ∀ j, rk j ≤ dims j) (h4 : 4 ≤ N) (h5 : N ≠ 5) (hN : N ≤ 18) {V : Tensor ℝ}
    {W : List (Tensor ℝ)} (hS : TuckShaped dims rk V W) {k : Kern ℝ} (hk : SvdShape k) :
    ∃ W' C, tuckSweepDTR P k V (List.ofFn rk) W = .ok (W', C) ∧ TuckShaped dims rk V W' ∧
      HooiRunNear (((1 + u) ^ (N - 1)) * ((1 + u) ^ (N - 1)) * (1 + u')) k dims rk V W W' N ∧
      TNear (accU u (∅ : Finset (Fin N))) dims rk (arr V N) (Spec.absArr (arr V N)) (mats W') ∅ C := by
  have hlen : V.lens.length = N := by rw [hS.lensV]; simp
  have hrb : ∀ j, rk j ≤ b := fun j => (hr j).trans (hd j)
  obtain ⟨s, h1, h3, h6, _, h7⟩ := foldlM_range'_inv (s := 0) (n := N)
    (P := fun j (s : List (Tensor ℝ) × Cache ℝ × Tensor ℝ) => TuckShaped dims rk V s.1 ∧
      HooiRunNear (((1 + u) ^ (N - 1)) * ((1 + u) ^ (N - 1)) * (1 + u')) k dims rk V W s.1 j ∧
      DInv N (TuckNear u dims rk V s.1) j s.2.1 ∧
      (j = N → TNear (accU u {(⟨N - 1, by omega⟩ : Fin N)}) dims rk (arr V N) (Spec.absArr (arr V N)) (mats s.1) {⟨N - 1, by omega⟩} s.2.2))
    (f := tuckUpdateDTR P N (constructDT 0 (N - 1) {}) k V (List.ofFn rk)) (a := (W, [], ⟨[], fun _ => 0⟩))
    ⟨hS, HooiRunNear.zero W, DInv.nil _ _, fun h => absurd h (by omega)⟩
    (by
      rintro j s _ hj ⟨g1, g2, g3, _⟩
      obtain ⟨s', w1, w2, w3, w4⟩ := tuckUpdateDTR_ok hP hG hu hu' hb hd hrb h4 h5 hN g1 k ⟨j, by omega⟩ g3
      refine ⟨s', w1, w2.shaped hk hr g1, g2.snoc (i := ⟨j, by omega⟩) w2, w3, ?_⟩
      intro e
      have hj' : (⟨j, by omega⟩ : Fin N) = ⟨N - 1, by omega⟩ := Fin.ext (by simp only; omega)
      rw [hj'] at w4
      exact w4 (by simp))
  rw [Nat.zero_add] at h6 h7
  obtain ⟨Wl, l1, _, l2, l3⟩ := tmats_get h3 ⟨N - 1, by omega⟩
  obtain ⟨C, c1, c3⟩ := coreEndR_ok hP hu hb hd hrb (by omega) (by omega) (accU_one hu _) (h7 rfl) l2 l3
  rw [accU_erase u (j := ⟨N - 1, by omega⟩) (by simp), show ({(⟨N - 1, by omega⟩ : Fin N)} : Finset (Fin N)).erase ⟨N - 1, by omega⟩ = ∅ by simp] at c3
  refine ⟨s.1, C, ?_, h3, h6, c3⟩
  unfold tuckSweepDTR
  simp only [bind, Except.bind, pure, Except.pure]
  rw [hlen, List.range_eq_range', h1]
  simp only
  have : ((N : ℤ) - 1) = ((N - 1 : ℕ) : ℤ) := by omega
  simp only at l1
  rw [this, l1]
  simp only
  rw [c1]

end

end Model
