import Verif.Proofs.LowRankSteps

namespace Model

open Finset

variable {K : Type} [CommRing K] {N : ℕ}

/-- The cached tensor `oT` of mode `m` is exact. -/
def Fresh (dims : Fin N → ℕ) (R : ℕ) (V : (Fin N → ℕ) → K) (W : Fin N → ℕ → ℕ → K) (m : Fin N)
    (oT : Option (Tensor K)) : Prop :=
  ∃ T, oT = some T ∧ TopIs dims R V m (W m) T

/-- The cached tensor `oT` of mode `m` lacks exactly the correction `u`. -/
def Pend (dims : Fin N → ℕ) (R q : ℕ) (V : (Fin N → ℕ) → K) (W : Fin N → ℕ → ℕ → K) (m : Fin N)
    (u : LR K) (oT : Option (Tensor K)) : Prop :=
  ∃ T A, oT = some T ∧ TopIs dims R V m A T ∧ LRShape u (dims m) q R ∧
    ∀ x < dims m, ∀ r < R, W m x r = A x r + lrDelta q u x r

/-- Invariant of `CPDTLROptimizer` before step number `t`. -/
structure DTLRInv (dims : Fin N → ℕ) (R q : ℕ) (V : (Fin N → ℕ) → K) (h3 : 3 ≤ N) (t : ℕ)
    (o : DTLRState K) (W : Fin N → ℕ → ℕ → K) : Prop where
  good : DTGood o.base N
  first : o.base.first = decide (t % 2 = 0)
  special : o.base.special = (t / 2 / 5) % (N - 1)
  left1 : o.base.left1 = N - 1 - o.base.special
  left2 : o.base.left2 = N - 2 - o.base.special
  count : o.count = (t / 2) % 5
  even1 : t % 2 = 0 → 2 ≤ o.count → o.low = true ∧ Pend dims R q V W ⟨o.base.left1, good.l1⟩ o.u o.c1
  even2 : t % 2 = 0 → 2 ≤ o.count → Fresh dims R V W ⟨o.base.left2, good.l2⟩ o.c2
  odd1 : t % 2 = 1 → 1 ≤ o.count → Fresh dims R V W ⟨o.base.left1, good.l1⟩ o.c1
  odd2 : t % 2 = 1 → 2 ≤ o.count → o.low = true ∧ Pend dims R q V W ⟨o.base.left2, good.l2⟩ o.u o.c2

theorem dtlrInit_ok (h3 : 3 ≤ N) (hN : N ≤ 31) (dims : Fin N → ℕ) (R q : ℕ) (V : (Fin N → ℕ) → K)
    (W : Fin N → ℕ → ℕ → K) :
    ∃ o : DTLRState K, dtlrInit N = .ok o ∧ DTLRInv dims R q V h3 0 o W := by
  obtain ⟨b, h0, hg, hf, hs, h1, h2⟩ := dtInit_ok h3 hN
  refine ⟨_, by unfold dtlrInit; rw [h0]; rfl, ?_⟩
  exact ⟨hg, by simp [hf], by simp [hs], by simp [hs, h1], by simp [hs, h2], by simp,
    fun _ h => by simp at h, fun _ h => by simp at h, fun h => by simp at h, fun h => by simp at h⟩

theorem dtlrTop_ok (h3 : 3 ≤ N) (hN : N ≤ 31) {dims : Fin N → ℕ} {R q : ℕ} {V : Tensor K} {t : ℕ}
    {o : DTLRState K} {W : List (Tensor K)} (hS : Shaped dims R V W)
    (hI : DTLRInv dims R q (arr V N) h3 t o (mats W)) :
    ∃ T o', dtlrTop N V W o.base.left o = .ok (T, o') ∧ Canon T ∧
      TopIs dims R (arr V N) ⟨o.base.left, hI.good.left_lt⟩ (mats W ⟨o.base.left, hI.good.left_lt⟩) T ∧
      o'.base = o.base ∧ o'.count = o.count ∧ o'.low = o.low ∧
      (o.base.first = true → o'.c1 = some T ∧ o'.c2 = o.c2) ∧
      (o.base.first = false → o'.c2 = some T ∧ o'.c1 = o.c1) := by
  unfold dtlrTop
  by_cases hc : o.low = true ∧ o.count > 1
  · rw [if_pos hc]
    have hP : Pend dims R q (arr V N) (mats W) ⟨o.base.left, hI.good.left_lt⟩ o.u
        (if o.base.first then o.c1 else o.c2) := by
      rcases Nat.mod_two_eq_zero_or_one t with ht | ht
      · have hf : o.base.first = true := by rw [hI.first]; simp [ht]
        have := (hI.even1 ht (by omega)).2
        simpa only [DTState.left, hf, if_true] using this
      · have hf : o.base.first = false := by rw [hI.first]; simp [ht]
        have := (hI.odd2 ht (by omega)).2
        simpa only [DTState.left, hf, if_false, Bool.false_eq_true] using this
    obtain ⟨T0, A, e, hT0, hu, hW⟩ := hP
    obtain ⟨u', c', p1, p2, p3⟩ := patchDT_ok (by omega) hN hS.lensV hu hT0
    rw [e]
    simp only at p1
    simp only [p1, bind, Except.bind, pure, Except.pure]
    refine ⟨c', _, rfl, p2, p3.congr fun x hx r hr => (hW x hx r hr).symm, ?_, ?_, ?_, ?_, ?_⟩
    all_goals cases o.base.first <;> simp
  · rw [if_neg hc]
    obtain ⟨T, t1, t2, t3⟩ := topT_ok (by omega) hN hS ⟨o.base.left, hI.good.left_lt⟩
    simp only at t1
    simp only [t1, bind, Except.bind, pure, Except.pure]
    refine ⟨T, _, rfl, t2, (topIs_iff (by omega)).1 t3, ?_, ?_, ?_, ?_, ?_⟩
    all_goals cases o.base.first <;> simp

/-- Positions of a step, as an explicit interval. -/
theorem dtPositions_eq {n special : ℕ} (h : special < n) (first : Bool) :
    dtPositions n special first =
      List.range' (if first then special else 0) (if first then n - special else special + 1) := by
  cases first
  · simp [dtPositions_second n special h, List.range_eq_range']
  · simp [dtPositions_first n special (by omega)]

theorem dtlr_modes (h3 : 3 ≤ N) (t : ℕ) (left : Fin N) (sp : ℕ) (hsp : sp = (t / 2 / 5) % (N - 1))
    (hl : left.1 = if t % 2 = 0 then N - 1 - sp else N - 2 - sp) :
    (List.range' (if t % 2 = 0 then sp else 0) (if t % 2 = 0 then N - 1 - sp else sp + 1)).map
      (fun p => (modeAt left p, decide (((t % 2 = 0 ∧ p = N - 2) ∨ (t % 2 ≠ 0 ∧ p = 0)) ∧ (t / 2) % 5 ≥ 1))) =
    Spec.dtlrOps N t := by
  have hlt : sp < N - 1 := by rw [hsp]; exact Nat.mod_lt _ (by omega)
  unfold Spec.dtlrOps
  simp only [← hsp]
  by_cases ht : t % 2 = 0
  · simp only [ht, if_true] at hl ⊢
    apply List.ext_getElem
    · simp; omega
    · intro k h1 h2
      simp only [List.length_map, List.length_range'] at h1
      have hm : modeAt left (sp + 1 * k) = ⟨k, by omega⟩ := by
        apply Fin.ext
        rw [modeAt_val left (by omega), hl]
        split_ifs <;> simp only <;> omega
      simp only [List.getElem_map, List.getElem_range', List.getElem_take, List.getElem_finRange, hm]
      congr 1
      simp only [Fin.val_cast]
      rw [Bool.eq_iff_iff]
      simp
      omega
  · simp only [ht, if_false] at hl ⊢
    apply List.ext_getElem
    · simp; omega
    · intro k h1 h2
      simp only [List.length_map, List.length_range'] at h1
      have hm : modeAt left (0 + 1 * k) = ⟨N - 1 - sp + k, by omega⟩ := by
        apply Fin.ext
        rw [modeAt_val left (by omega), hl]
        split_ifs <;> simp only <;> omega
      simp only [List.getElem_map, List.getElem_range', List.getElem_drop, List.getElem_finRange, hm]
      congr 1
      simp only [Fin.val_cast]
      rw [Bool.eq_iff_iff]
      simp
      omega

theorem dtlrStep_ok (h3 : 3 ≤ N) (hN : N ≤ 31) {dims : Fin N → ℕ} {R : ℕ} {V : Tensor K} {t : ℕ}
    {o : DTLRState K} {f : Fac K} (lam : K) (solve : Spec.Solver K) (q : ℕ) (lr : Spec.LowRank K)
    (hS : Shaped dims R V f.W) (hG : f.G.length = N)
    (hI : DTLRInv dims R q (arr V N) h3 t o (mats f.W)) :
    ∃ o' f', dtlrStep N R lam solve q lr V (o, f) = .ok (o', f') ∧
      Shaped dims R V f'.W ∧ (f'.G.length = N ∧ (Shaped dims R V f.G → Shaped dims R V f'.G)) ∧ DTLRInv dims R q (arr V N) h3 (t + 1) o' (mats f'.W) ∧
      absF N f' = Spec.lrRun dims R lam solve q lr (arr V N) (fun st => st.W) (Spec.dtlrOps N t)
        (absF N f) := by
  obtain ⟨T, o1, t1, t2, t3, t4, t5, t6, t7, t8⟩ := dtlrTop_ok h3 hN hS hI
  have hspl : o.base.special < N - 1 := hI.good.sp
  set left : Fin N := ⟨o.base.left, hI.good.left_lt⟩ with hleft
  have hidx : (if o.base.first then o.base.indexes1 else o.base.indexes2) = indexesOf N left.1 := by
    simp only [hleft, DTState.left]
    split_ifs
    · exact hI.good.i1
    · exact hI.good.i2
  -- flags
  set flag : ℕ → Bool := fun p =>
    decide (((t % 2 = 0 ∧ p = N - 2) ∨ (t % 2 ≠ 0 ∧ p = 0)) ∧ (t / 2) % 5 ≥ 1) with hflag
  set s := if t % 2 = 0 then o.base.special else 0 with hs
  set c := if t % 2 = 0 then N - 1 - o.base.special else o.base.special + 1 with hc
  have hsc : s + c ≤ N - 1 := by rw [hs, hc]; split_ifs <;> omega
  set istar := if t % 2 = 0 then N - 2 else 0 with histar
  have hstar : s ≤ istar ∧ istar < s + c := by rw [hs, hc, histar]; split_ifs <;> omega
  have hfirst : (o.base.first = true) ↔ t % 2 = 0 := by rw [hI.first]; simp
  have hcond : ∀ i, (((o.base.first = true ∧ i = N - 1 - 1) ∨ (¬ o.base.first = true ∧ i = 0)) ∧
      o1.count ≥ 1) ↔ flag i = true := by
    intro i
    rw [hflag, t5, hI.count, hfirst, show N - 1 - 1 = N - 2 by omega]
    simp
  obtain ⟨f', u', low', cache', l1, l2, l3, l4, l5, l6, l7, l8⟩ := lrLoop_ok h3 hN (u := o1.u) (low := o1.low)
    hS hG left (tree := o.base.tree) hI.good.tree lam solve q lr hsc t2 t3
    (dtlrUpd N R lam solve q lr (N - 1) o.base.first o1.count) (fun st => st.W) flag istar
    (mats f.W (modeAt left istar))
    (by
      intro i h1 h2 h
      rw [hflag] at h
      simp only [decide_eq_true_eq] at h
      rw [histar]
      split_ifs <;> omega)
    (fun st h => h)
    (by
      intro i a M h1 h2 h gS
      obtain ⟨A, r1, _, r3, r4⟩ := mats_get gS (modeAt left i)
      refine ⟨A, r3, r4.symm, ?_⟩
      unfold dtlrUpd
      rw [if_pos ((hcond i).2 h)]
      simp only [bind, Except.bind]
      rw [r1]
      simp only
      cases lrMode N R lam q lr a.1 (modeAt left i).1 A M <;> rfl)
    (by
      intro i a M h1 h2 h
      unfold dtlrUpd
      rw [if_neg (fun h' => by rw [(hcond i).1 h'] at h; cases h)]
      simp only [bind, Except.bind]
      cases updateMode N R lam solve a.1 (modeAt left i).1 M <;> rfl)
  refine ⟨dtlrFinish N { o1 with u := u', low := low' }, f', ?_, l2, l3, ?_, ?_⟩
  · unfold dtlrStep
    simp only [hidx, indexesOf_length]
    rw [show (if o.base.first = true then o.base.left1 else o.base.left2) = o.base.left from rfl]
    simp only [bind, Except.bind]
    rw [t1]
    simp only
    rw [dtPositions_eq hspl]
    simp only [hfirst]
    rw [← hs, ← hc, l1]
    rfl
  · -- the invariant
    have hlast : modeAt left (N - 1) = left := modeAt_last left
    have hunch : mats f'.W left = mats f.W left := by
      have := l5 (N - 1) (by omega) (Or.inr hsc)
      rwa [hlast] at this
    have hmstar : (modeAt left istar).1 = if t % 2 = 0 then o.base.left2 else o.base.left1 := by
      rw [modeAt_val left (by rw [histar]; split_ifs <;> omega)]
      have e1 := hI.left1
      have e2 := hI.left2
      simp only [hleft, DTState.left, hfirst, histar]
      split_ifs <;> omega
    rcases Nat.mod_two_eq_zero_or_one t with ht | ht
    · -- first subtree
      have hf : o.base.first = true := hfirst.2 ht
      have hfin : dtlrFinish N { o1 with u := u', low := low' } =
          { o1 with u := u', low := low', base := { o.base with first := false } } := by
        simp [dtlrFinish, t4, hf]
      rw [hfin]
      have ht1 : (t + 1) % 2 = 1 := by omega
      have ht2 : (t + 1) / 2 = t / 2 := by omega
      have hm2 : modeAt left istar = ⟨o.base.left2, hI.good.l2⟩ := Fin.ext (by rw [hmstar, if_pos ht])
      have hm1 : left = ⟨o.base.left1, hI.good.l1⟩ := Fin.ext (by simp [hleft, DTState.left, hf])
      have hg : DTGood { o.base with first := false } N :=
        ⟨hI.good.l1, hI.good.l2, hI.good.i1, hI.good.i2, hI.good.sp, hI.good.tree⟩
      refine ⟨hg, by simp [ht1], by simp only [ht2]; exact hI.special, hI.left1, hI.left2,
        by simp only [ht2]; rw [t5]; exact hI.count, fun h => by omega, fun h => by omega, ?_, ?_⟩
      · intro _ _
        refine ⟨T, (t7 hf).1, ?_⟩
        simp only
        rw [← hm1, hunch]
        exact t3
      · intro _ hcnt
        simp only at hcnt
        rw [t5] at hcnt
        obtain ⟨b1, b2, b3⟩ := l7 hstar.1 hstar.2 (by
          rw [hflag]; simp only [decide_eq_true_eq]; rw [histar, ← hI.count]; simp only [ht, if_true]
          exact ⟨Or.inl ⟨trivial, trivial⟩, by omega⟩)
        refine ⟨b1, ?_⟩
        obtain ⟨T2, e2, h2'⟩ := hI.even2 ht hcnt
        simp only [hm2] at b2 b3
        exact ⟨T2, _, by simp only; rw [(t7 hf).2, e2], h2', b2, b3⟩
    · -- second subtree
      have hf : o.base.first = false := by
        rw [← Bool.not_eq_true, hfirst]; omega
      have ht0 : t % 2 ≠ 0 := by omega
      have ht1 : (t + 1) % 2 = 0 := by omega
      have ht2 : (t + 1) / 2 = t / 2 + 1 := by omega
      have hm1 : modeAt left istar = ⟨o.base.left1, hI.good.l1⟩ := Fin.ext (by rw [hmstar, if_neg ht0])
      have hm2 : left = ⟨o.base.left2, hI.good.l2⟩ := Fin.ext (by simp [hleft, DTState.left, hf])
      by_cases h5 : o.count + 1 = 5
      · -- rotation
        have hcnt5 : (t / 2) % 5 = 4 := by have := hI.count; omega
        have hdiv : ((t + 1) / 2 / 5) % (N - 1) = (o.base.special + 1) % (N - 1) := by
          rw [ht2, hI.special, show (t / 2 + 1) / 5 = t / 2 / 5 + 1 by omega, Nat.mod_add_mod]
        have e1 := hI.left1
        have e2 := hI.left2
        set sp' := (o.base.special + 1) % (N - 1) with hsp'
        have hsp'lt : sp' < N - 1 := Nat.mod_lt _ (by omega)
        have hsp'v : sp' ≠ 0 → sp' = o.base.special + 1 := by
          intro h
          rw [hsp'] at h ⊢
          rcases Nat.lt_or_ge (o.base.special + 1) (N - 1) with h' | h'
          · exact Nat.mod_eq_of_lt h'
          · rw [show o.base.special + 1 = N - 1 by omega] at h; simp at h
        have hL1 : (if sp' ≠ 0 then (o.base.left1 + N - 1) % N else N - 1) = N - 1 - sp' := by
          split_ifs with h
          · have := hsp'v h
            rw [e1, show N - 1 - o.base.special + N - 1 = (N - 1 - sp') + N by omega, Nat.add_mod_right,
              Nat.mod_eq_of_lt (by omega)]
          · omega
        have hL2 : (if sp' ≠ 0 then (o.base.left2 + N - 1) % N else (N - 1 + N - 1) % N) = N - 2 - sp' := by
          split_ifs with h
          · have := hsp'v h
            rw [e2, show N - 2 - o.base.special + N - 1 = (N - 2 - sp') + N by omega, Nat.add_mod_right,
              Nat.mod_eq_of_lt (by omega)]
          · rw [show N - 1 + N - 1 = (N - 2) + N by omega, Nat.add_mod_right, Nat.mod_eq_of_lt (by omega)]
            omega
        have hfin : dtlrFinish N { o1 with u := u', low := low' } =
            { o1 with u := u', low := false, count := 0,
                      base := { o.base with first := true, special := sp',
                                            left1 := N - 1 - sp', left2 := N - 2 - sp',
                                            indexes1 := indexesOf N (N - 1 - sp'),
                                            indexes2 := indexesOf N (N - 2 - sp') } } := by
          simp only [dtlrFinish, t4, hf, t5, h5, ← hsp', hL1, hL2]
          simp
        rw [hfin]
        have hg : DTGood { o.base with first := true, special := sp',
                                       left1 := N - 1 - sp', left2 := N - 2 - sp',
                                       indexes1 := indexesOf N (N - 1 - sp'),
                                       indexes2 := indexesOf N (N - 2 - sp') } N :=
          ⟨by simp only; omega, by simp only; omega, rfl, rfl, hsp'lt, hI.good.tree⟩
        refine ⟨hg, by simp [ht1], by simp only; rw [hdiv], rfl, rfl, by simp only; omega,
          fun _ h => by simp at h, fun _ h => by simp at h, fun h => by omega, fun h => by omega⟩
      · have hfin : dtlrFinish N { o1 with u := u', low := low' } =
            { o1 with u := u', low := low', count := o.count + 1,
                      base := { o.base with first := true } } := by
          simp [dtlrFinish, t4, hf, t5, h5]
        rw [hfin]
        have hg : DTGood { o.base with first := true } N :=
          ⟨hI.good.l1, hI.good.l2, hI.good.i1, hI.good.i2, hI.good.sp, hI.good.tree⟩
        have hcnt := hI.count
        have hdiv : (t + 1) / 2 / 5 = t / 2 / 5 := by rw [ht2]; omega
        refine ⟨hg, by simp [ht1], by simp only [hdiv]; exact hI.special, hI.left1, hI.left2,
          by simp only; omega, ?_, ?_, fun h => by omega, fun h => by omega⟩
        · intro _ h2'
          simp only at h2'
          obtain ⟨b1, b2, b3⟩ := l7 hstar.1 hstar.2 (by
            rw [hflag]; simp only [decide_eq_true_eq]; rw [histar, ← hI.count]; simp only [ht0, if_false]
            exact ⟨Or.inr ⟨ht0, trivial⟩, by omega⟩)
          refine ⟨b1, ?_⟩
          obtain ⟨T1, e1, h1'⟩ := hI.odd1 ht (by omega)
          simp only [hm1] at b2 b3
          exact ⟨T1, _, by simp only; rw [(t8 hf).2, e1], h1', b2, b3⟩
        · intro _ _
          refine ⟨T, (t8 hf).1, ?_⟩
          simp only
          rw [← hm2, hunch]
          exact t3
  · rw [l4]
    congr 1
    exact dtlr_modes h3 t left o.base.special hI.special (by
      simp only [hleft, DTState.left, hfirst, hI.left1, hI.left2])

end Model
