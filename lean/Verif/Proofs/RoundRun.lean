import Verif.Proofs.RoundSteps
import Verif.Proofs.DTSteps

/-! Rounding errors of whole runs, and a floating-point evaluation that satisfies the contract. -/

namespace Model

variable {N : ℕ}

theorem dt_two_stepsR {B : ℕ} {u : ℝ} {P : Arith} (hP : RoundOk B u P) (hu : 0 ≤ u) (hB : 1 ≤ B) (h3 : 3 ≤ N) (hN : N ≤ 31)
    {dims : Fin N → ℕ} {R : ℕ} (hd : ∀ j, dims j ≤ B) (hRB : R ≤ B) {V : Tensor ℝ}
    {o : DTState} {f : Fac ℝ} (ho : DTGood o N) (hf : o.first = true) (hsp : o.special = 0)
    (hl1 : o.left1 = N - 1) (hl2 : o.left2 = N - 2)
    (hS : Shaped dims R V f.W) (hG : f.G.length = N) (lam : ℝ) (solve : Spec.Solver ℝ) :
    ∃ f', iterM (dtStepR P N R lam solve V) 2 (o, f) = .ok (o, f') ∧
      Shaped dims R V f'.W ∧ f'.G.length = N ∧
      Spec.RoundedRun dims R lam solve (arr V N) ((1 + u) ^ (N - 1) - 1) ((1 + u) ^ N - 1) ((1 + u) ^ (N + 2) - 1)
        (List.finRange N) (absF N f) (absF N f') := by
  obtain ⟨f1, a1, a2, a3, a4⟩ := dtStepR_ok hP hu hB h3 hN hd hRB ho hS hG lam solve
  have ho' : DTGood { o with first := !o.first } N := ⟨ho.l1, ho.l2, ho.i1, ho.i2, ho.sp, ho.tree⟩
  obtain ⟨f2, b1, b2, b3, b4⟩ := dtStepR_ok hP hu hB h3 hN hd hRB ho' a2 a3 lam solve
  refine ⟨f2, ?_, b2, b3, ?_⟩
  · simp only [iterM, bind, Except.bind, a1, b1]
    simp
  · have := RoundedRun.append a4 b4
    convert this using 1
    rw [← dt_modes h3]
    congr 1
    · simp only [hf, hsp, dtPositions_first _ _ (Nat.zero_le _)]
      congr 2
      apply Fin.ext
      simp [DTState.left, hf, hl1]
    · simp only [hf, hsp, Bool.not_true, dtPositions_second _ _ (show 0 < N - 1 by omega)]
      congr 2
      apply Fin.ext
      simp [DTState.left, hf, hl2]

theorem dt_stepsR {B : ℕ} {u : ℝ} {P : Arith} (hP : RoundOk B u P) (hu : 0 ≤ u) (hB : 1 ≤ B) (h3 : 3 ≤ N) (hN : N ≤ 31)
    {dims : Fin N → ℕ} {R : ℕ} (hd : ∀ j, dims j ≤ B) (hRB : R ≤ B) {V : Tensor ℝ} {f : Fac ℝ}
    (hS : Shaped dims R V f.W) (hG : f.G.length = N) (lam : ℝ) (solve : Spec.Solver ℝ) (m : ℕ) :
    ∃ o0 f', dtInit N = .ok o0 ∧ iterM (dtStepR P N R lam solve V) (2 * m) (o0, f) = .ok (o0, f') ∧
      Shaped dims R V f'.W ∧ f'.G.length = N ∧
      Spec.RoundedRun dims R lam solve (arr V N) ((1 + u) ^ (N - 1) - 1) ((1 + u) ^ N - 1) ((1 + u) ^ (N + 2) - 1)
        (List.replicate m (List.finRange N)).flatten (absF N f) (absF N f') := by
  obtain ⟨o0, h0, hg, hf, hs, h1, h2⟩ := dtInit_ok h3 hN
  refine ⟨o0, ?_⟩
  induction m with
  | zero => exact ⟨f, h0, rfl, hS, hG, .nil _⟩
  | succ m ih =>
    obtain ⟨f1, _, a1, a2, a3, a4⟩ := ih
    obtain ⟨f2, b1, b2, b3, b4⟩ := dt_two_stepsR hP hu hB h3 hN hd hRB hg hf hs h1 h2 a2 a3 lam solve
    refine ⟨f2, h0, ?_, b2, b3, ?_⟩
    · rw [show 2 * (m + 1) = 2 * m + 2 by ring, iterM_add, a1]; exact b1
    · have := RoundedRun.append a4 b4
      rwa [List.replicate_succ', List.flatten_append, List.flatten_singleton]

theorem msdt_stepsR {B : ℕ} {u : ℝ} {P : Arith} (hP : RoundOk B u P) (hu : 0 ≤ u) (hB : 1 ≤ B) (h3 : 3 ≤ N) (hN : N ≤ 31)
    {dims : Fin N → ℕ} {R : ℕ} (hd : ∀ j, dims j ≤ B) (hRB : R ≤ B) {V : Tensor ℝ}
    {o : MSDTState} {f : Fac ℝ} (ho : GoodTree (N - 1) o.tree) (hl : o.left = N)
    (hS : Shaped dims R V f.W) (hG : f.G.length = N) (lam : ℝ) (solve : Spec.Solver ℝ) (k : ℕ) :
    ∃ o' f', iterM (msdtStepR P N R lam solve V) k (o, f) = .ok (o', f') ∧
      Shaped dims R V f'.W ∧ f'.G.length = N ∧ o'.tree = o.tree ∧ (o'.left + k) % N = 0 ∧
      Spec.RoundedRun dims R lam solve (arr V N) ((1 + u) ^ (N - 1) - 1) ((1 + u) ^ N - 1) ((1 + u) ^ (N + 2) - 1)
        (Spec.cyclicModes N (by omega) (k * (N - 1))) (absF N f) (absF N f') := by
  induction k with
  | zero =>
    exact ⟨o, f, rfl, hS, hG, rfl, by simp [hl], by simpa [Spec.cyclicModes] using Spec.RoundedRun.nil _⟩
  | succ k ih =>
    obtain ⟨o1, f1, a1, a2, a3, a4, a5, a6⟩ := ih
    obtain ⟨o2, f2, b1, b2, b3, b4, b5, b6⟩ := msdtStepR_ok hP hu hB h3 hN hd hRB (by rw [a4]; exact ho) a2 a3 lam solve
    refine ⟨o2, f2, ?_, b4, b5, by rw [b3, a4], ?_, ?_⟩
    · rw [iterM_succ_right, a1]
      exact b1
    · rw [b2, Nat.mod_add_mod]
      rw [show o1.left + N - 1 + (k + 1) = (o1.left + k) + N by omega, Nat.add_mod_right, a5]
    · have := RoundedRun.append a6 b6
      convert this using 1
      apply msdt_modes h3
      simp only
      rw [Nat.add_assoc, Nat.mod_add_mod]
      rw [show o1.left + N - 1 + (k + 1) = (o1.left + k) + N by omega, Nat.add_mod_right, a5]

theorem simple_stepsR {B : ℕ} {u : ℝ} {P : Arith} (hP : RoundOk B u P) (hu : 0 ≤ u) (hB : 1 ≤ B) (h2 : 2 ≤ N) (hN : N ≤ 10)
    {s R : ℕ} (hd : s ≤ B) (hRB : R ≤ B) {V : Tensor ℝ} {f : Fac ℝ}
    (hS : Shaped (fun _ : Fin N => s) R V f.W) (hG : f.G.length = N) (lam : ℝ) (solve : Spec.Solver ℝ) (m : ℕ) :
    ∃ f', iterM (simpleStepR P N R lam solve V) m f = .ok f' ∧ Shaped (fun _ : Fin N => s) R V f'.W ∧ f'.G.length = N ∧
      Spec.RoundedRun (fun _ => s) R lam solve (arr V N) ((1 + u) ^ N - 1) ((1 + u) ^ N - 1) ((1 + u) ^ (N + 2) - 1)
        (List.replicate m (List.finRange N)).flatten (absF N f) (absF N f') := by
  induction m with
  | zero => exact ⟨f, rfl, hS, hG, .nil _⟩
  | succ m ih =>
    obtain ⟨f1, a1, a2, a3, a4⟩ := ih
    obtain ⟨f2, b1, b2, b3, b4⟩ := simpleStepR_ok hP hu hB h2 hN hd hRB a2 a3 lam solve
    refine ⟨f2, ?_, b2, b3, ?_⟩
    · rw [iterM_succ_right, a1]; exact b1
    · have := RoundedRun.append a4 b4
      rwa [List.replicate_succ', List.flatten_append, List.flatten_singleton]

/-! ### an instance of the contract: left-to-right evaluation with a rounding function -/

/-- Product with every multiplication rounded. -/
noncomputable def prodR (rnd : ℝ → ℝ) : List ℝ → ℝ
  | [] => 1
  | [x] => x
  | x :: y :: l => rnd (x * prodR rnd (y :: l))

/-- Sum with every addition rounded. -/
noncomputable def sumR (rnd : ℝ → ℝ) : List ℝ → ℝ
  | [] => 0
  | [x] => x
  | x :: y :: l => rnd (x + sumR rnd (y :: l))

open Classical in
/-- Contractions evaluated term by term, every operation rounded by `rnd`. -/
noncomputable def seqArith (rnd : ℝ → ℝ) : Arith where
  ev lens sc ops := do
    let C ← einsum lens sc ops
    pure ⟨C.lens, fun idx =>
      if fits lens idx = true ∧ (sc.take lens.length).map (bindIdx (sc.take lens.length) idx) = idx then
        sumR rnd ((envs (sumTab lens sc ops) (bindIdx (sc.take lens.length) idx)).map fun env =>
          prodR rnd ((cutOps ops).map fun o => o.1.val (o.2.map env)))
      else 0⟩
  zp f A B := do
    let C ← zipT f A B
    pure ⟨C.lens, fun idx => rnd (C.val idx)⟩

theorem prodR_fl {eps : ℝ} {rnd : ℝ → ℝ} (h : ∀ x, |rnd x - x| ≤ eps * |x|) (l : List ℝ) (hl : l ≠ []) :
    Spec.FlPoly eps {(l : Multiset ℝ)} (prodR rnd l) := by
  induction l with
  | nil => exact absurd rfl hl
  | cons x l ih =>
    cases l with
    | nil => exact .leaf x
    | cons y l =>
      have := Spec.FlPoly.mul (.leaf x) (ih (by simp)) (h (x * prodR rnd (y :: l)))
      rw [prodR]
      simpa using this

theorem sumR_fl {eps : ℝ} {rnd : ℝ → ℝ} (h : ∀ x, |rnd x - x| ≤ eps * |x|) {α : Type} (g : α → Multiset ℝ) (v : α → ℝ) (l : List α)
    (hl : ∀ a ∈ l, Spec.FlPoly eps {g a} (v a)) : Spec.FlSum eps ((l.map g : List (Multiset ℝ)) : Multiset (Multiset ℝ)) (sumR rnd (l.map v)) := by
  induction l with
  | nil => exact .inl ⟨rfl, rfl⟩
  | cons a l ih =>
    have ha := hl a (by simp)
    cases l with
    | nil => exact .inr ha
    | cons b l =>
      rcases ih fun a ha => hl a (by simp [ha]) with ⟨h1, _⟩ | h1
      · simp at h1
      · refine .inr ?_
        exact Spec.FlPoly.add ha h1 (h (v a + sumR rnd ((b :: l).map v)))

open Classical in
theorem flEval_seq {eps : ℝ} {rnd : ℝ → ℝ} (h : ∀ x, |rnd x - x| ≤ eps * |x|) : FlEval eps (seqArith rnd) where
  ev_ok := by
    intro lens sc ops C hne hC
    have e : (seqArith rnd).ev lens sc ops = .ok ⟨C.lens, fun idx =>
      if fits lens idx = true ∧ (sc.take lens.length).map (bindIdx (sc.take lens.length) idx) = idx then
        sumR rnd ((envs (sumTab lens sc ops) (bindIdx (sc.take lens.length) idx)).map fun env =>
          prodR rnd ((cutOps ops).map fun o => o.1.val (o.2.map env)))
      else 0⟩ := by
      simp only [seqArith, hC, bind, Except.bind, pure, Except.pure]
    refine ⟨_, e, rfl, fun idx => ?_⟩
    by_cases hc : fits lens idx = true ∧ (sc.take lens.length).map (bindIdx (sc.take lens.length) idx) = idx
    · rw [if_pos hc]
      simp only
      rw [if_pos hc]
      refine sumR_fl h (fun env => (((cutOps ops).map fun o => o.1.val (o.2.map env) : List ℝ) : Multiset ℝ)) _ _ fun env _ => prodR_fl h _ ?_
      simp [cutOps, hne]
    · rw [if_neg hc]
      simp only
      rw [if_neg hc]
  zp_ok := by
    intro f A B C _ hC
    have e : (seqArith rnd).zp f A B = .ok ⟨C.lens, fun idx => rnd (C.val idx)⟩ := by
      simp only [seqArith, hC, bind, Except.bind, pure, Except.pure]
    exact ⟨_, e, rfl, fun idx => h _⟩

end Model
