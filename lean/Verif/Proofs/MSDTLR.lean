import Verif.Proofs.DTLR

namespace Model

open Finset

variable {K : Type} [CommRing K] {N : ℕ}

/-- Invariant of `CPMSDTLROptimizer` before step number `t`; `H s` are the factors before step `s`. -/
structure MSDTLRInv (dims : Fin N → ℕ) (R q : ℕ) (V : (Fin N → ℕ) → K) (t : ℕ)
    (H : ℕ → Fin N → ℕ → ℕ → K) (o : MSDTLRState K) (W : Fin N → ℕ → ℕ → K) : Prop where
  tree : GoodTree (N - 1) o.base.tree
  left : (o.base.left + t) % N = 0
  lenI : o.isCached.length = N
  lenC : o.cached.length = N
  lenO : o.old.length = N
  flags : ∀ m : Fin N, o.isCached[m.1]? = some (decide (N - 1 - m.1 < t))
  cached : ∀ s < t, t ≤ s + N → ∀ m : Fin N, m.1 = N - 1 - s % N →
    ∃ T A, o.cached[m.1]? = some T ∧ o.old[m.1]? = some A ∧ A.lens = [dims m, R] ∧
      mat A = H s m ∧ TopIs dims R V m (mat A) T
  pend : N ≤ t → ∀ m : Fin N, m.1 = N - 1 - t % N → o.low = true ∧ LRShape o.u (dims m) q R ∧
    ∀ x < dims m, ∀ r < R, W m x r = H (t - N) m x r + lrDelta q o.u x r

theorem msdtlrInit_ok (h3 : 3 ≤ N) (hN : N ≤ 31) (dims : Fin N → ℕ) (R q : ℕ) (V : (Fin N → ℕ) → K)
    (H : ℕ → Fin N → ℕ → ℕ → K) (W : Fin N → ℕ → ℕ → K) :
    ∃ o : MSDTLRState K, msdtlrInit N = .ok o ∧ MSDTLRInv dims R q V 0 H o W := by
  obtain ⟨b, h0, hl, ht⟩ := msdtInit_ok h3 hN
  refine ⟨_, by unfold msdtlrInit; rw [h0]; rfl, ?_⟩
  exact ⟨ht, by simp [hl], by simp, by simp, by simp, fun m => by simp [m.2],
    fun s hs => by omega, fun h => by omega⟩

theorem left_val {left t : ℕ} (h3 : 3 ≤ N) (h : (left + t) % N = 0) :
    (left + N - 1) % N = N - 1 - t % N := by
  have hN : 0 < N := by omega
  have ht := Nat.mod_lt t hN
  have hl := Nat.mod_lt left hN
  have h1 : (left % N + t % N) % N = 0 := by rw [← Nat.add_mod]; exact h
  have h2 : (left + N - 1) % N = (left % N + (N - 1)) % N := by
    rw [Nat.mod_add_mod]; congr 1; omega
  rw [h2]
  rcases Nat.eq_zero_or_pos (left % N + t % N) with e | e
  · rw [show left % N = 0 by omega, Nat.zero_add, Nat.mod_eq_of_lt (by omega)]; omega
  · have h4 : left % N + t % N = N := by
      have h5 : N ∣ (left % N + t % N) := Nat.dvd_of_mod_eq_zero h1
      obtain ⟨c, hc⟩ := h5
      have : c = 1 := by
        have : c < 2 := by
          by_contra h6
          have : N * 2 ≤ N * c := Nat.mul_le_mul_left _ (by omega)
          omega
        have : c ≠ 0 := by rintro rfl; omega
        omega
      rw [this] at hc; omega
    rw [show left % N + (N - 1) = (left % N - 1) + N by omega, Nat.add_mod_right,
      Nat.mod_eq_of_lt (by omega)]
    omega

theorem msdtlrTop_ok (h3 : 3 ≤ N) (hN : N ≤ 31) {dims : Fin N → ℕ} {R q : ℕ} {V : Tensor K} {t : ℕ}
    {H : ℕ → Fin N → ℕ → ℕ → K} {o : MSDTLRState K} {W : List (Tensor K)} (hS : Shaped dims R V W)
    (hI : MSDTLRInv dims R q (arr V N) t H o (mats W)) (left : Fin N) (hl : left.1 = N - 1 - t % N) :
    ∃ T o' Wl, msdtlrTop N q V W left.1 o = .ok (T, o') ∧ Canon T ∧
      TopIs dims R (arr V N) left (mats W left) T ∧
      o'.base = o.base ∧ o'.low = o.low ∧ o'.cached = o.cached.set left.1 T ∧
      o'.old = o.old.set left.1 Wl ∧ o'.isCached = o.isCached.set left.1 true ∧
      Wl.lens = [dims left, R] ∧ mat Wl = mats W left := by
  have htN := Nat.mod_lt t (show 0 < N by omega)
  obtain ⟨Wl, r1, _, r3, r4⟩ := mats_get hS left
  have hb : rd o.isCached ((left.1 : ℕ) : ℤ) = .ok (decide (N ≤ t)) := by
    rw [rd_of (hI.flags left)]
    congr 1
    rw [Bool.eq_iff_iff]
    simp only [decide_eq_true_eq]
    have := Nat.mod_add_div t N
    constructor
    · intro h
      by_contra h'
      rw [Nat.mod_eq_of_lt (by omega)] at hl
      omega
    · intro h; omega
  unfold msdtlrTop
  simp only [hb, r1, bind, Except.bind]
  by_cases hc : N ≤ t
  · obtain ⟨p1, p2, p3⟩ := hI.pend hc left hl
    obtain ⟨T0, A, e1, e2, e3, e4, e5⟩ := hI.cached (t - N) (by omega) (by omega) left (by
      rw [hl]
      congr 1
      conv_lhs => rw [show t = (t - N) + N by omega, Nat.add_mod_right])
    obtain ⟨u', c', q1, q2, q3⟩ := patchMSDT_ok (by omega) hN hS.lensV p2 e5
    simp only [p1, hc, decide_true, and_self, if_true, rd_of e1, q1, pure, Except.pure]
    refine ⟨c', _, Wl, rfl, q2, q3.congr ?_, rfl, ?_, rfl, rfl, rfl, r3, r4.symm⟩
    · intro x hx r hr
      rw [p3 x hx r hr, e4]
    · simp [p1]
  · obtain ⟨T, t1, t2, t3⟩ := topT_ok (by omega) hN hS left
    simp only [hc, decide_false, Bool.false_eq_true, and_false, if_false, t1, pure, Except.pure]
    exact ⟨T, _, Wl, rfl, t2, (topIs_iff (by omega)).1 t3, rfl, rfl, rfl, rfl, rfl, r3, r4.symm⟩

/-- Modes and flags of step `t`. -/
theorem msdtlr_modes (h3 : 3 ≤ N) (t : ℕ) (left : Fin N) (hl : left.1 = N - 1 - t % N) (flag : ℕ → Bool)
    (hf : ∀ p < N - 1, flag p = decide (p = N - 2 ∧ N - 1 ≤ t)) :
    (List.range' 0 (N - 1)).map (fun p => (modeAt left p, flag p)) = Spec.msdtlrOps N (by omega) t := by
  have htN := Nat.mod_lt t (show 0 < N by omega)
  have hm := msdt_modes h3 t left (by
    rw [hl]
    have : (N - 1 - t % N + t + 1) % N = ((N - 1 - t % N + 1) + t % N) % N := by
      rw [Nat.add_mod_mod]; congr 1; omega
    rw [this, show N - 1 - t % N + 1 + t % N = N by omega, Nat.mod_self])
  unfold Spec.cyclicModes at hm
  rw [Nat.add_mul, one_mul, List.range_add, List.map_append, List.map_map] at hm
  have hm' := List.append_cancel_left hm
  unfold Spec.msdtlrOps
  rw [← List.range_eq_range']
  apply List.map_congr_left
  intro p hp
  rw [List.mem_range] at hp
  have h1 := List.map_inj_left.1 hm' p (List.mem_range.2 hp)
  rw [hf p hp, ← h1]
  rfl

theorem msdtlrStep_ok (h3 : 3 ≤ N) (hN : N ≤ 31) {dims : Fin N → ℕ} {R : ℕ} {V : Tensor K} {t : ℕ}
    {H : ℕ → Fin N → ℕ → ℕ → K}
    {o : MSDTLRState K} {f : Fac K} (lam : K) (solve : Spec.Solver K) (q : ℕ) (lr : Spec.LowRank K)
    (hS : Shaped dims R V f.W) (hG : f.G.length = N) (hH : H t = mats f.W)
    (hI : MSDTLRInv dims R q (arr V N) t H o (mats f.W)) :
    ∃ o' f', msdtlrStep N R lam solve q lr V (o, f) = .ok (o', f') ∧
      Shaped dims R V f'.W ∧ (f'.G.length = N ∧ (Shaped dims R V f.G → Shaped dims R V f'.G)) ∧ MSDTLRInv dims R q (arr V N) (t + 1) H o' (mats f'.W) ∧
      absF N f' = Spec.lrRun dims R lam solve q lr (arr V N) (fun _ => H (t + 1 - N))
        (Spec.msdtlrOps N (by omega) t) (absF N f) := by
  have hN0 : 0 < N := by omega
  have htN := Nat.mod_lt t hN0
  have hlv := left_val h3 hI.left
  obtain ⟨left, hl⟩ : ∃ left : Fin N, left.1 = N - 1 - t % N := ⟨⟨N - 1 - t % N, by omega⟩, rfl⟩
  obtain ⟨T, o1, Wl, t1, t2, t3, t4, t5, t6, t7, t8, t9, t10⟩ := msdtlrTop_ok h3 hN hS hI left hl
  -- the flags seen by the loop
  have hflags1 : ∀ m : Fin N, o1.isCached[m.1]? = some (decide (N - 1 - m.1 < t + 1)) := by
    intro m
    rw [t8, List.getElem?_set]
    have hm := m.2
    by_cases e : left.1 = m.1
    · have : t % N ≤ t := Nat.mod_le _ _
      simp [e, hI.lenI]
      omega
    · rw [if_neg e, hI.flags]
      congr 1
      rw [Bool.eq_iff_iff]
      simp only [decide_eq_true_eq]
      constructor
      · intro h; omega
      · intro h
        by_contra h'
        have : N - 1 - m.1 = t := by omega
        rw [Nat.mod_eq_of_lt (by omega)] at hl
        omega
  -- the next left mode
  have hnext : (modeAt left (N - 2)).1 = N - 1 - (t + 1) % N := by
    rw [modeAt_val left (by omega), hl, Nat.add_mod, Nat.mod_eq_of_lt (show 1 < N by omega)]
    rcases Nat.lt_or_ge (t % N + 1) N with h | h
    · rw [Nat.mod_eq_of_lt h]; split_ifs <;> omega
    · rw [show t % N + 1 = N by omega, Nat.mod_self]; split_ifs <;> omega
  have hnextflag : (N - 1 - (modeAt left (N - 2)).1 < t + 1) ↔ N - 1 ≤ t := by
    have h' := Nat.mod_lt (t + 1) hN0
    rw [hnext]
    rcases Nat.lt_or_ge (t + 1) N with h | h
    · rw [Nat.mod_eq_of_lt h]; omega
    · omega
  set flag : ℕ → Bool := fun p => decide (p = N - 2 ∧ N - 1 ≤ t) with hflag
  have hne : modeAt left (N - 2) ≠ left := by
    intro e
    have := modeAt_inj left (by omega) (by omega) (e.trans (modeAt_last left).symm)
    omega
  -- the base matrix
  have hold : N - 1 ≤ t → ∃ T2 A, o1.cached[(modeAt left (N - 2)).1]? = some T2 ∧
      o1.old[(modeAt left (N - 2)).1]? = some A ∧ A.lens = [dims (modeAt left (N - 2)), R] ∧
      mat A = H (t + 1 - N) (modeAt left (N - 2)) ∧
      TopIs dims R (arr V N) (modeAt left (N - 2)) (mat A) T2 := by
    intro h
    obtain ⟨T2, A, e1, e2, e3⟩ := hI.cached (t + 1 - N) (by omega) (by omega) (modeAt left (N - 2)) (by
      rw [hnext]
      congr 1
      conv_lhs => rw [show t + 1 = (t + 1 - N) + N by omega, Nat.add_mod_right])
    refine ⟨T2, A, ?_, ?_, e3⟩
    · rw [t6, List.getElem?_set, if_neg (fun e => hne (Fin.ext e.symm)), e1]
    · rw [t7, List.getElem?_set, if_neg (fun e => hne (Fin.ext e.symm)), e2]
  have hmN : ∀ i, i < N - 1 → flag i = true → i = N - 2 ∧ N - 1 ≤ t := by
    intro i _ h; simpa [hflag] using h
  obtain ⟨f', u', low', cache', l1, l2, l3, l4, l5, l6, l7, l8⟩ := lrLoop_ok h3 hN (u := o1.u) (low := o1.low)
    hS hG left (tree := o.base.tree) hI.tree lam solve q lr (s := 0) (c := N - 1) (by omega) t2 t3
    (msdtlrUpd N R lam solve q lr (N - 1) o1.isCached o1.old) (fun _ => H (t + 1 - N)) flag (N - 2)
    (H (t + 1 - N) (modeAt left (N - 2)))
    (fun i _ h2 h => (hmN i (by omega) h).1)
    (fun st _ => rfl)
    (by
      intro i a M _ h2 h gS
      obtain ⟨rfl, h'⟩ := hmN i (by omega) h
      obtain ⟨T2, A, e1, e2, e3, e4, e5⟩ := hold h'
      refine ⟨A, e3, e4, ?_⟩
      unfold msdtlrUpd
      simp only [bind, Except.bind]
      rw [rd_of (hflags1 _)]
      simp only [hnextflag, h', decide_true]
      rw [if_neg (by simp; omega)]
      rw [rd_of e2]
      simp only
      cases lrMode N R lam q lr a.1 (modeAt left (N - 2)).1 A M <;> rfl)
    (by
      intro i a M _ h2 h
      unfold msdtlrUpd
      simp only [bind, Except.bind]
      rw [rd_of (hflags1 _)]
      simp only
      rw [if_pos (by
        by_contra hcon
        simp only [not_or, not_not, Bool.not_eq_true, decide_eq_false_iff_not] at hcon
        obtain ⟨c1, c2⟩ := hcon
        have c2' : i = N - 2 := by omega
        subst c2'
        simp [hflag] at h
        have := hnextflag.1 (by simpa using c1)
        omega)]
      cases updateMode N R lam solve a.1 (modeAt left i).1 M <;> rfl)
  refine ⟨{ o1 with base := ⟨left.1, indexesOf N left.1, o.base.tree⟩, u := u', low := low' }, f', ?_, l2, l3,
    ?_, ?_⟩
  · unfold msdtlrStep
    simp only [hlv, ← hl]
    rw [indexesOf_length left]
    simp only [bind, Except.bind]
    rw [t1]
    simp only
    rw [List.range_eq_range', l1]
    rfl
  · have hunch : mats f'.W left = mats f.W left := by
      have := l5 (N - 1) (by omega) (Or.inr (by omega))
      rwa [modeAt_last] at this
    refine ⟨hI.tree, ?_, ?_, ?_, ?_, hflags1, ?_, ?_⟩
    · simp only
      rw [hl, show N - 1 - t % N + (t + 1) = (N - t % N) + t by omega, ← Nat.add_mod_mod,
        show N - t % N + t % N = N by omega, Nat.mod_self]
    · simp [t8, hI.lenI]
    · simp [t6, hI.lenC]
    · simp [t7, hI.lenO]
    · intro s hs hs' m hm
      simp only
      have hlc : left.1 < o.cached.length := by rw [hI.lenC]; exact left.2
      have hlo : left.1 < o.old.length := by rw [hI.lenO]; exact left.2
      by_cases e : s = t
      · subst e
        have e : left = m := Fin.ext (hl.trans hm.symm)
        subst e
        refine ⟨T, Wl, by rw [t6]; simp [hlc], by rw [t7]; simp [hlo], t9, by rw [t10, hH], ?_⟩
        rw [t10]; exact t3
      · have hne : left.1 ≠ m.1 := by
          rw [hm, hl]
          intro e2
          have h1 := Nat.mod_lt s hN0
          have h2 : s % N = t % N := by omega
          have h5 : N ∣ t - s := (Nat.modEq_iff_dvd' (by omega)).1 h2
          have := Nat.le_of_dvd (by omega) h5
          omega
        obtain ⟨T2, A, e1, e2, e3⟩ := hI.cached s (by omega) (by omega) m hm
        refine ⟨T2, A, ?_, ?_, e3⟩
        · rw [t6, List.getElem?_set, if_neg hne, e1]
        · rw [t7, List.getElem?_set, if_neg hne, e2]
    · intro hNt m hm
      have e : modeAt left (N - 2) = m := Fin.ext (hnext.trans hm.symm)
      obtain ⟨b1, b2, b3⟩ := l7 (by omega) (by omega) (by simp [hflag]; omega)
      rw [e] at b2 b3
      exact ⟨b1, b2, b3⟩
  · rw [l4]
    congr 1
    exact msdtlr_modes h3 t left hl flag (fun p _ => rfl)

end Model
