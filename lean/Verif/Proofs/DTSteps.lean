import Verif.Proofs.DT
import Mathlib.Data.Nat.ModEq

namespace Model

open Finset

variable {K : Type} [CommRing K] {N : ℕ}

/-! ### plain step -/

theorem simpleStep_ok (h2 : 2 ≤ N) (hN : N ≤ 10) {s R : ℕ} {V : Tensor K} {f : Fac K}
    (hS : Shaped (fun _ : Fin N => s) R V f.W) (hG : f.G.length = N) (lam : K)
    (solve : Spec.Solver K) :
    ∃ f', simpleStep N R lam solve V f = .ok f' ∧ Shaped (fun _ : Fin N => s) R V f'.W ∧
      f'.G.length = N ∧
      absF N f' = Spec.alsSweep (fun _ => s) R lam solve (arr V N) (absF N f) := by
  obtain ⟨f', h1, h2'⟩ := foldlM_inv
    (f := fun (f : Fac K) (i : ℕ) => do
      let M ← simpleM N V f.W i
      updateMode N R lam solve f i M)
    (P := fun done (g : Fac K) => Shaped (fun _ : Fin N => s) R V g.W ∧ g.G.length = N ∧
      ∀ h : ∀ x ∈ done, x < N,
        absF N g = Spec.alsRun (fun _ => s) R lam solve (arr V N) (toFins done h) (absF N f))
    (List.range N) [] f ⟨hS, hG, fun _ => rfl⟩ (by
      rintro d x g hx ⟨t, ht⟩ ⟨g1, g2, g3⟩
      have hxN : x < N := by simpa using hx
      obtain ⟨M, m1, m2, m3, m4⟩ := simpleM_ok h2 hN g1 ⟨x, hxN⟩
      obtain ⟨f', q1, q2, q3, q4⟩ := updateMode_ok h2 g1 g2 lam solve ⟨x, hxN⟩ m2 m3 m4
      refine ⟨f', ?_, q2, q3, ?_⟩
      · simp only [bind, Except.bind]
        rw [m1]
        exact q1
      · intro h
        rw [q4, g3 (fun y hy => h y (by simp [hy]))]
        simp [Spec.alsRun, toFins])
  refine ⟨f', h1, h2'.1, h2'.2.1, ?_⟩
  rw [h2'.2.2 (by simp)]
  unfold Spec.alsSweep
  congr 1
  apply List.ext_getElem
  · simp [toFins]
  · intro k _ _
    simp [toFins]

/-! ### DT optimizer -/

/-- A consistent optimizer state: the index vectors are those of the left-out modes. -/
structure DTGood (o : DTState) (N : ℕ) : Prop where
  l1 : o.left1 < N
  l2 : o.left2 < N
  i1 : o.indexes1 = indexesOf N o.left1
  i2 : o.indexes2 = indexesOf N o.left2
  sp : o.special < N - 1
  tree : GoodTree (N - 1) o.tree

/-- The left-out mode of the coming step. -/
def DTState.left (o : DTState) : ℕ := if o.first then o.left1 else o.left2

theorem DTGood.left_lt {o : DTState} (h : DTGood o N) : o.left < N := by
  unfold DTState.left; split_ifs
  · exact h.l1
  · exact h.l2

theorem dtPositions_first (n special : ℕ) (h : special ≤ n) :
    dtPositions n special true = List.range' special (n - special) := by
  unfold dtPositions
  rw [if_pos rfl]
  rw [show n = special + (n - special) by omega, List.range_add, List.filter_append]
  rw [List.filter_eq_nil_iff.2 (by simp), List.nil_append]
  rw [List.filter_eq_self.2 (by simp)]
  rw [List.range'_eq_map_range]
  simp

theorem dtPositions_second (n special : ℕ) (h : special < n) :
    dtPositions n special false = List.range (special + 1) := by
  unfold dtPositions
  rw [if_neg (by simp)]
  rw [show n = (special + 1) + (n - (special + 1)) by omega, List.range_add]
  rw [List.takeWhile_append_of_pos (by simp; omega)]
  have : (List.map (fun x => special + 1 + x) (List.range (n - (special + 1)))).takeWhile
      (fun i => decide (¬ i > special)) = [] := by
    cases hc : n - (special + 1) with
    | zero => simp
    | succ c => rw [List.range_succ_eq_map]; simp
  rw [this, List.append_nil]

/-- Positions of the coming step, as an interval. -/
theorem dtPositions_range' {n special : ℕ} (h : special < n) (first : Bool) :
    ∃ s c, dtPositions n special first = List.range' s c ∧ s + c ≤ n := by
  cases first
  · exact ⟨0, special + 1, by rw [dtPositions_second n special h, List.range_eq_range'], by omega⟩
  · exact ⟨special, n - special, dtPositions_first n special (by omega), by omega⟩

theorem dtStep_ok (h3 : 3 ≤ N) (hN : N ≤ 31) {dims : Fin N → ℕ} {R : ℕ} {V : Tensor K}
    {o : DTState} {f : Fac K} (ho : DTGood o N)
    (hS : Shaped dims R V f.W) (hG : f.G.length = N) (lam : K) (solve : Spec.Solver K) :
    ∃ f', dtStep N R lam solve V (o, f) = .ok ({ o with first := !o.first }, f') ∧
      Shaped dims R V f'.W ∧ f'.G.length = N ∧
      absF N f' = Spec.alsRun dims R lam solve (arr V N)
        ((dtPositions (N - 1) o.special o.first).map (modeAt ⟨o.left, ho.left_lt⟩)) (absF N f) := by
  have hidx : (if o.first then o.indexes1 else o.indexes2) = indexesOf N o.left := by
    unfold DTState.left
    split_ifs
    · exact ho.i1
    · exact ho.i2
  obtain ⟨T, hT, hTc, hTv⟩ := mapInit_ok (by omega) hN hS ⟨o.left, ho.left_lt⟩
  obtain ⟨s, c, hpos, hsc⟩ := dtPositions_range' ho.sp o.first
  obtain ⟨f', cache', h1, h2, h4, h5⟩ := treeLoop_ok h3 hN hS hG ⟨o.left, ho.left_lt⟩ ho.tree lam solve
    hsc hTc hTv
  refine ⟨f', ?_, h2, h4, by rw [hpos]; exact h5⟩
  unfold dtStep
  simp only [hidx]
  rw [show (if o.first = true then o.left1 else o.left2) = o.left from rfl]
  rw [indexesOf_length ⟨o.left, ho.left_lt⟩, hpos]
  simp only [bind, Except.bind]
  simp only at hT
  rw [hT]
  simp only
  rw [h1]
  rfl

theorem dtInit_ok (h3 : 3 ≤ N) (hN : N ≤ 31) :
    ∃ o, dtInit N = .ok o ∧ DTGood o N ∧ o.first = true ∧ o.special = 0 ∧ o.left1 = N - 1 ∧
      o.left2 = N - 2 := by
  obtain ⟨t, h1, h2⟩ := constructTree_ok h3 hN
  have hl2 : (N - 1 + N - 1) % N = N - 2 := by
    rw [show N - 1 + N - 1 = (N - 2) + N by omega, Nat.add_mod_right, Nat.mod_eq_of_lt (by omega)]
  refine ⟨_, by unfold dtInit; rw [h1]; rfl, ?_, rfl, rfl, rfl, hl2⟩
  constructor
  · simp; omega
  · simp only [hl2]; omega
  · simp [indexesOf]
    omega
  · rfl
  · simp; omega
  · exact h2

/-! ### iteration -/

theorem iterM_succ_right {σ : Type} (step : σ → Except Fault σ) (n : ℕ) (s : σ) :
    iterM step (n + 1) s = (iterM step n s).bind step := by
  induction n generalizing s with
  | zero =>
    simp only [iterM, bind, Except.bind]
    cases step s <;> rfl
  | succ n ih =>
    rw [iterM, show iterM step (n + 1) s = (step s).bind (iterM step n) from rfl]
    simp only [bind]
    cases h : step s with
    | error e => rfl
    | ok v => simp only [Except.bind]; rw [ih v]; rfl

theorem iterM_add {σ : Type} (step : σ → Except Fault σ) (m n : ℕ) (s : σ) :
    iterM step (m + n) s = (iterM step m s).bind (iterM step n) := by
  induction m generalizing s with
  | zero => simp only [Nat.zero_add]; rfl
  | succ m ih =>
    rw [show m + 1 + n = (m + n) + 1 by omega, iterM, iterM]
    simp only [bind]
    cases h : step s with
    | error e => rfl
    | ok v => simp only [Except.bind]; rw [ih v]; rfl

theorem alsRun_append (dims : Fin N → ℕ) (R : ℕ) (lam : K) (solve : Spec.Solver K)
    (V : (Fin N → ℕ) → K) (a b : List (Fin N)) (st : Spec.AlsState N K) :
    Spec.alsRun dims R lam solve V (a ++ b) st =
      Spec.alsRun dims R lam solve V b (Spec.alsRun dims R lam solve V a st) := by
  simp [Spec.alsRun]

/-- Modes of the two steps of the plain DT optimizer together: `0, ..., N-1`. -/
theorem dt_modes (h3 : 3 ≤ N) :
    (List.range' 0 (N - 1)).map (modeAt (⟨N - 1, by omega⟩ : Fin N)) ++
      (List.range 1).map (modeAt (⟨N - 2, by omega⟩ : Fin N)) = List.finRange N := by
  apply List.ext_getElem
  · simp; omega
  · intro k h1 h2
    have hk : k < N := by simpa using h2
    apply Fin.ext
    by_cases h : k < N - 1
    · rw [List.getElem_append_left (by simpa using h)]
      simp only [List.getElem_map, List.getElem_range', List.getElem_finRange]
      rw [modeAt_val _ (by omega)]
      simp only [Fin.val_cast]
      split_ifs <;> omega
    · rw [List.getElem_append_right (by simp; omega)]
      simp only [List.getElem_map, List.getElem_range, List.getElem_finRange, List.length_map,
        List.length_range']
      rw [modeAt_val _ (by omega)]
      simp only [Fin.val_cast]
      split_ifs <;> omega

theorem dt_two_steps (h3 : 3 ≤ N) (hN : N ≤ 31) {dims : Fin N → ℕ} {R : ℕ} {V : Tensor K}
    {o : DTState} {f : Fac K} (ho : DTGood o N) (hf : o.first = true) (hsp : o.special = 0)
    (hl1 : o.left1 = N - 1) (hl2 : o.left2 = N - 2)
    (hS : Shaped dims R V f.W) (hG : f.G.length = N) (lam : K) (solve : Spec.Solver K) :
    ∃ f', iterM (dtStep N R lam solve V) 2 (o, f) = .ok (o, f') ∧
      Shaped dims R V f'.W ∧ f'.G.length = N ∧
      absF N f' = Spec.alsSweep dims R lam solve (arr V N) (absF N f) := by
  obtain ⟨f1, a1, a2, a3, a4⟩ := dtStep_ok h3 hN ho hS hG lam solve
  have ho' : DTGood { o with first := !o.first } N := ⟨ho.l1, ho.l2, ho.i1, ho.i2, ho.sp, ho.tree⟩
  obtain ⟨f2, b1, b2, b3, b4⟩ := dtStep_ok h3 hN ho' a2 a3 lam solve
  refine ⟨f2, ?_, b2, b3, ?_⟩
  · simp only [iterM, bind, Except.bind, a1, b1]
    simp
  · rw [b4, a4, ← alsRun_append]
    unfold Spec.alsSweep
    congr 1
    rw [← dt_modes h3]
    congr 1
    · simp only [hf, hsp, dtPositions_first _ _ (Nat.zero_le _)]
      congr 2
      apply Fin.ext
      simp [DTState.left, hf, hl1]
    · simp only [hf, hsp, Bool.not_true, dtPositions_second _ _ (show 0 < N - 1 by omega)]
      congr 2
      apply Fin.ext
      simp [DTState.left, hf, hl2]

/-! ### MSDT optimizer -/

theorem msdtInit_ok (h3 : 3 ≤ N) (hN : N ≤ 31) :
    ∃ o, msdtInit N = .ok o ∧ o.left = N ∧ GoodTree (N - 1) o.tree := by
  obtain ⟨t, h1, h2⟩ := constructTree_ok h3 hN
  exact ⟨_, by unfold msdtInit; rw [h1]; rfl, rfl, h2⟩

theorem msdtStep_ok (h3 : 3 ≤ N) (hN : N ≤ 31) {dims : Fin N → ℕ} {R : ℕ} {V : Tensor K}
    {o : MSDTState} {f : Fac K} (ho : GoodTree (N - 1) o.tree)
    (hS : Shaped dims R V f.W) (hG : f.G.length = N) (lam : K) (solve : Spec.Solver K) :
    ∃ o' f', msdtStep N R lam solve V (o, f) = .ok (o', f') ∧
      o'.left = (o.left + N - 1) % N ∧ o'.tree = o.tree ∧
      Shaped dims R V f'.W ∧ f'.G.length = N ∧
      absF N f' = Spec.alsRun dims R lam solve (arr V N)
        ((List.range (N - 1)).map (modeAt ⟨(o.left + N - 1) % N, Nat.mod_lt _ (by omega)⟩))
        (absF N f) := by
  have hlt : (o.left + N - 1) % N < N := Nat.mod_lt _ (by omega)
  obtain ⟨T, hT, hTc, hTv⟩ := mapInit_ok (by omega) hN hS ⟨(o.left + N - 1) % N, hlt⟩
  obtain ⟨f', cache', h1, h2, h4, h5⟩ := treeLoop_ok h3 hN hS hG ⟨(o.left + N - 1) % N, hlt⟩ ho lam solve
    (s := 0) (c := N - 1) (by omega) hTc hTv
  refine ⟨⟨(o.left + N - 1) % N, indexesOf N ((o.left + N - 1) % N), o.tree⟩, f', ?_, rfl, rfl, h2, h4, ?_⟩
  · unfold msdtStep
    simp only
    rw [indexesOf_length ⟨(o.left + N - 1) % N, hlt⟩, List.range_eq_range']
    simp only [bind, Except.bind]
    simp only at hT
    rw [hT]
    simp only
    rw [h1]
    rfl
  · rw [List.range_eq_range']; exact h5

theorem msdt_modes (h3 : 3 ≤ N) (k : ℕ) (left : Fin N) (hl : (left.1 + k + 1) % N = 0) :
    (Spec.cyclicModes N (by omega) ((k + 1) * (N - 1))) =
      Spec.cyclicModes N (by omega) (k * (N - 1)) ++ (List.range (N - 1)).map (modeAt left) := by
  unfold Spec.cyclicModes
  rw [Nat.add_mul, one_mul, List.range_add, List.map_append, List.map_map]
  congr 1
  apply List.map_congr_left
  intro p _
  apply Fin.ext
  simp only [Function.comp, modeAt]
  -- k (N-1) + p ≡ left + 1 + p (mod N)
  have h1 : (k * (N - 1) + p + k) % N = p % N := by
    have : k * (N - 1) + p + k = p + N * k := by
      have : k * (N - 1) + k = N * k := by
        rw [← Nat.mul_succ, Nat.mul_comm]; congr 1; omega
      omega
    rw [this, Nat.add_mul_mod_self_left]
  have h2 : (left.1 + 1 + p + k) % N = p % N := by
    rw [show left.1 + 1 + p + k = p + (left.1 + k + 1) by omega, Nat.add_mod, hl]
    simp
  have : Nat.ModEq N (k * (N - 1) + p + k) (left.1 + 1 + p + k) := h1.trans h2.symm
  exact Nat.ModEq.add_right_cancel' k this

theorem msdt_steps (h3 : 3 ≤ N) (hN : N ≤ 31) {dims : Fin N → ℕ} {R : ℕ} {V : Tensor K}
    {o : MSDTState} {f : Fac K} (ho : GoodTree (N - 1) o.tree) (hl : o.left = N)
    (hS : Shaped dims R V f.W) (hG : f.G.length = N) (lam : K) (solve : Spec.Solver K) (k : ℕ) :
    ∃ o' f', iterM (msdtStep N R lam solve V) k (o, f) = .ok (o', f') ∧
      Shaped dims R V f'.W ∧ f'.G.length = N ∧ o'.tree = o.tree ∧ (o'.left + k) % N = 0 ∧
      absF N f' = Spec.alsRun dims R lam solve (arr V N)
        (Spec.cyclicModes N (by omega) (k * (N - 1))) (absF N f) := by
  induction k with
  | zero =>
    exact ⟨o, f, rfl, hS, hG, rfl, by simp [hl], by simp [Spec.cyclicModes, Spec.alsRun]⟩
  | succ k ih =>
    obtain ⟨o1, f1, a1, a2, a3, a4, a5, a6⟩ := ih
    obtain ⟨o2, f2, b1, b2, b3, b4, b5, b6⟩ := msdtStep_ok h3 hN (by rw [a4]; exact ho) a2 a3 lam solve
    refine ⟨o2, f2, ?_, b4, b5, by rw [b3, a4], ?_, ?_⟩
    · rw [iterM_succ_right, a1]
      exact b1
    · rw [b2, Nat.mod_add_mod]
      rw [show o1.left + N - 1 + (k + 1) = (o1.left + k) + N by omega, Nat.add_mod_right, a5]
    · rw [b6, a6, ← alsRun_append]
      congr 1
      symm
      apply msdt_modes h3
      simp only
      rw [Nat.add_assoc, Nat.mod_add_mod]
      rw [show o1.left + N - 1 + (k + 1) = (o1.left + k) + N by omega, Nat.add_mod_right, a5]

end Model
