import Verif.Proofs.DTSteps
import Mathlib.Tactic.FinCases
import Mathlib.Tactic.NormNum
import Mathlib.Data.Fin.VecNotation

/-! # C04, C05, C06, C10: dimension-tree optimizers -/

namespace Properties

open Model

variable {K : Type} [CommRing K] {N : ℕ}

/-- The factors and gradients of a problem as the specification sees them. -/
abbrev facs (N : ℕ) (f : Fac K) : Spec.AlsState N K := ⟨mats f.W, mats f.G⟩

/-- The reachable DT states, and that every run from a fresh optimizer succeeds. -/
theorem dt_reach (h3 : 3 ≤ N) (hN : N ≤ 31) {dims : Fin N → ℕ} {R : ℕ} {V : Tensor K} {f : Fac K}
    (hS : Shaped dims R V f.W) (hG : f.G.length = N) (lam : K) (solve : Spec.Solver K) (k : ℕ) :
    ∃ o0 o f', dtInit N = .ok o0 ∧ iterM (dtStep N R lam solve V) k (o0, f) = .ok (o, f') ∧
      Shaped dims R V f'.W ∧ f'.G.length = N ∧ DTGood o N ∧ o.first = decide (k % 2 = 0) ∧
      o.special = 0 ∧ o.left1 = N - 1 ∧ o.left2 = N - 2 := by
  obtain ⟨o0, h0, hg, hf, hs, h1, h2⟩ := dtInit_ok h3 hN
  refine ⟨o0, ?_⟩
  induction k with
  | zero => exact ⟨o0, f, h0, rfl, hS, hG, hg, by simpa using hf, hs, h1, h2⟩
  | succ k ih =>
    obtain ⟨o, f', _, a2, a3, a4, a5, a6, a7, a8, a9⟩ := ih
    obtain ⟨f2, b1, b2, b3, _⟩ := dtStep_ok h3 hN a5 a3 a4 lam solve
    refine ⟨{ o with first := !o.first }, f2, h0, ?_, b2, b3, ⟨a5.l1, a5.l2, a5.i1, a5.i2, a5.sp, a5.tree⟩, ?_, a7, a8, a9⟩
    · rw [iterM_succ_right, a2]; exact b1
    · simp only [a6]
      rcases Nat.mod_two_eq_zero_or_one k with h | h
      · simp [h, show (k + 1) % 2 = 1 by omega]
      · simp [h, show (k + 1) % 2 = 0 by omega]

/-- **C04 (DT).** Order 3..31, arbitrary (also unequal) mode lengths, rank, tensor, factors, solver and
regularisation: from a fresh `CPDTOptimizer`, after any number `k` of earlier steps, the next step
succeeds and performs exactly the ALS updates of modes `0..N-2` (`k` even) or `N-1` (`k` odd), each with the exact
MTTKRP of the factors current at that moment. Since the solver is arbitrary (it may return its argument
`M`), this says that every `M` handed to the solver is the MTTKRP. -/
theorem C04_dt_step_exact (h3 : 3 ≤ N) (hN : N ≤ 31) {dims : Fin N → ℕ} {R : ℕ} {V : Tensor K} {f : Fac K}
    (hS : Shaped dims R V f.W) (hG : f.G.length = N) (lam : K) (solve : Spec.Solver K) (k : ℕ) :
    ∃ o0 s f1 s' f2, dtInit N = .ok o0 ∧
      iterM (dtStep N R lam solve V) k (o0, f) = .ok (s, f1) ∧
      dtStep N R lam solve V (s, f1) = .ok (s', f2) ∧
      facs N f2 = Spec.alsRun dims R lam solve (arr V N)
        (if k % 2 = 0 then (List.finRange N).dropLast else [⟨N - 1, by omega⟩]) (facs N f1) := by
  obtain ⟨o0, o, f1, h0, a1, a2, a3, a4, a5, a6, a7, a8⟩ := dt_reach h3 hN hS hG lam solve k
  obtain ⟨f2, b1, _, _, b4⟩ := dtStep_ok h3 hN a4 a2 a3 lam solve
  refine ⟨o0, o, f1, _, f2, h0, a1, b1, ?_⟩
  have := b4
  unfold absF at this
  unfold facs
  rw [this]
  congr 1
  rw [a5, a6]
  rcases Nat.mod_two_eq_zero_or_one k with h | h
  · simp only [h, decide_true, if_true, dtPositions_first _ _ (Nat.zero_le _)]
    have hd := dt_modes h3
    rw [← hd, List.range_one, List.map_singleton, List.dropLast_concat]
    congr 2
    apply Fin.ext
    simp [DTState.left, a5, h, a7]
  · simp only [h, dtPositions_second _ _ (show 0 < N - 1 by omega)]
    simp only [one_ne_zero, decide_false, if_false, List.range_one, List.map_singleton]
    rw [dtPositions_second _ _ (show 0 < N - 1 by omega)]
    simp only [zero_add, List.range_one, List.map_singleton]
    congr 1
    apply Fin.ext
    rw [modeAt_val _ (by omega)]
    simp [DTState.left, a5, h, a8]
    split_ifs <;> omega

/-- **C04 (MSDT).** The same for `CPMSDTOptimizer`: the step after `k` steps performs exactly the
`N-1` updates number `k(N-1), ..., (k+1)(N-1)-1` of cyclic ALS. -/
theorem C04_msdt_step_exact (h3 : 3 ≤ N) (hN : N ≤ 31) {dims : Fin N → ℕ} {R : ℕ} {V : Tensor K}
    {f : Fac K} (hS : Shaped dims R V f.W) (hG : f.G.length = N) (lam : K) (solve : Spec.Solver K)
    (k : ℕ) :
    ∃ o0 s f1 s' f2, msdtInit N = .ok o0 ∧
      iterM (msdtStep N R lam solve V) k (o0, f) = .ok (s, f1) ∧
      msdtStep N R lam solve V (s, f1) = .ok (s', f2) ∧
      facs N f2 = Spec.alsRun dims R lam solve (arr V N)
        ((List.range (N - 1)).map fun t => ⟨(k * (N - 1) + t) % N, Nat.mod_lt _ (by omega)⟩)
        (facs N f1) := by
  obtain ⟨o0, h0, hl, ht⟩ := msdtInit_ok h3 hN
  obtain ⟨s, f1, a1, a2, a3, a4, a5, _⟩ := msdt_steps h3 hN ht hl hS hG lam solve k
  obtain ⟨s', f2, b1, _, _, _, _, b6⟩ := msdtStep_ok h3 hN (by rw [a4]; exact ht) a2 a3 lam solve
  refine ⟨o0, s, f1, s', f2, h0, a1, b1, ?_⟩
  have := b6
  unfold absF at this
  unfold facs
  rw [this]
  congr 1
  have hm := msdt_modes h3 k ⟨(s.left + N - 1) % N, Nat.mod_lt _ (by omega)⟩ (by
    simp only
    rw [Nat.add_assoc, Nat.mod_add_mod]
    rw [show s.left + N - 1 + (k + 1) = (s.left + k) + N by omega, Nat.add_mod_right, a5])
  unfold Spec.cyclicModes at hm
  rw [Nat.add_mul, one_mul, List.range_add, List.map_append, List.map_map] at hm
  rw [← List.append_cancel_left hm]
  rfl

/-- **C05.** `2m` DT steps from a fresh optimizer leave exactly the factors and gradients of `m` plain ALS
sweeps; any shape, order 3..31. -/
theorem C05_dt_steps_are_sweeps (h3 : 3 ≤ N) (hN : N ≤ 31) {dims : Fin N → ℕ} {R : ℕ} {V : Tensor K}
    {f : Fac K} (hS : Shaped dims R V f.W) (hG : f.G.length = N) (lam : K) (solve : Spec.Solver K)
    (m : ℕ) :
    ∃ o0 s f', dtInit N = .ok o0 ∧ iterM (dtStep N R lam solve V) (2 * m) (o0, f) = .ok (s, f') ∧
      facs N f' = (Spec.alsSweep dims R lam solve (arr V N))^[m] (facs N f) := by
  obtain ⟨o0, h0, hg, hf, hs, h1, h2⟩ := dtInit_ok h3 hN
  have key : ∃ f', iterM (dtStep N R lam solve V) (2 * m) (o0, f) = .ok (o0, f') ∧
      Shaped dims R V f'.W ∧ f'.G.length = N ∧
      absF N f' = (Spec.alsSweep dims R lam solve (arr V N))^[m] (absF N f) := by
    induction m with
    | zero => exact ⟨f, rfl, hS, hG, rfl⟩
    | succ m ih =>
      obtain ⟨f1, a1, a2, a3, a4⟩ := ih
      obtain ⟨f2, b1, b2, b3, b4⟩ := dt_two_steps h3 hN hg hf hs h1 h2 a2 a3 lam solve
      refine ⟨f2, ?_, b2, b3, ?_⟩
      · rw [show 2 * (m + 1) = 2 * m + 2 by ring, iterM_add, a1]; exact b1
      · rw [b4, a4, Function.iterate_succ_apply']
  obtain ⟨f', a1, _, _, a4⟩ := key
  exact ⟨o0, o0, f', h0, a1, a4⟩

/-- **C05 (against the code's own plain optimizer).** On uniform shapes of order 3..10, `2m` DT steps and `m` steps of
`CPSimpleOptimizer` leave the same factors and gradients. -/
theorem C05_dt_eq_simple (h3 : 3 ≤ N) (hN : N ≤ 10) {s R : ℕ} {V : Tensor K}
    {f : Fac K} (hS : Shaped (fun _ : Fin N => s) R V f.W) (hG : f.G.length = N) (lam : K)
    (solve : Spec.Solver K) (m : ℕ) :
    ∃ o0 o f' g, dtInit N = .ok o0 ∧ iterM (dtStep N R lam solve V) (2 * m) (o0, f) = .ok (o, f') ∧
      iterM (simpleStep N R lam solve V) m f = .ok g ∧ facs N f' = facs N g := by
  obtain ⟨o0, o, f', h0, h1, h2⟩ := C05_dt_steps_are_sweeps h3 (by omega) hS hG lam solve m
  have key : ∃ g, iterM (simpleStep N R lam solve V) m f = .ok g ∧
      Shaped (fun _ : Fin N => s) R V g.W ∧ g.G.length = N ∧
      absF N g = (Spec.alsSweep (fun _ => s) R lam solve (arr V N))^[m] (absF N f) := by
    clear h1 h2
    induction m with
    | zero => exact ⟨f, rfl, hS, hG, rfl⟩
    | succ m ih =>
      obtain ⟨f1, a1, a2, a3, a4⟩ := ih
      obtain ⟨f2, b1, b2, b3, b4⟩ := simpleStep_ok (by omega) hN a2 a3 lam solve
      refine ⟨f2, ?_, b2, b3, ?_⟩
      · rw [iterM_succ_right, a1]; exact b1
      · rw [b4, a4, Function.iterate_succ_apply']
  obtain ⟨g, a1, _, _, a4⟩ := key
  exact ⟨o0, o, f', g, h0, h1, a1, h2.trans a4.symm⟩

/-- **C06.** After `k` MSDT steps the factors and gradients are those after the first `k(N-1)` updates of cyclic ALS. -/
theorem C06_msdt_cyclic (h3 : 3 ≤ N) (hN : N ≤ 31) {dims : Fin N → ℕ} {R : ℕ} {V : Tensor K}
    {f : Fac K} (hS : Shaped dims R V f.W) (hG : f.G.length = N) (lam : K) (solve : Spec.Solver K)
    (k : ℕ) :
    ∃ o0 s f', msdtInit N = .ok o0 ∧ iterM (msdtStep N R lam solve V) k (o0, f) = .ok (s, f') ∧
      facs N f' = Spec.alsRun dims R lam solve (arr V N)
        (Spec.cyclicModes N (by omega) (k * (N - 1))) (facs N f) := by
  obtain ⟨o0, h0, hl, ht⟩ := msdtInit_ok h3 hN
  obtain ⟨s, f1, a1, _, _, _, _, a6⟩ := msdt_steps h3 hN ht hl hS hG lam solve k
  exact ⟨o0, s, f1, h0, a1, a6⟩

theorem cyclicModes_mul (h : 0 < N) (m : ℕ) (dims : Fin N → ℕ) (R : ℕ) (lam : K)
    (solve : Spec.Solver K) (V : (Fin N → ℕ) → K) (st : Spec.AlsState N K) :
    Spec.alsRun dims R lam solve V (Spec.cyclicModes N h (m * N)) st =
      (Spec.alsSweep dims R lam solve V)^[m] st := by
  induction m with
  | zero => simp [Spec.cyclicModes, Spec.alsRun]
  | succ m ih =>
    rw [Function.iterate_succ_apply', ← ih, Nat.add_mul, one_mul]
    have : Spec.cyclicModes N h (m * N + N) = Spec.cyclicModes N h (m * N) ++ List.finRange N := by
      unfold Spec.cyclicModes
      rw [List.range_add, List.map_append, List.map_map]
      congr 1
      apply List.ext_getElem
      · simp
      · intro k _ h2
        apply Fin.ext
        simp at h2
        simp [Nat.mod_eq_of_lt h2]
    rw [this, alsRun_append]
    rfl

/-- **C06 (sweep count).** `N·m` MSDT steps are exactly `(N-1)·m` plain ALS sweeps: the step's return
value `(N-1)/N` counts sweeps correctly. -/
theorem C06_msdt_sweeps (h3 : 3 ≤ N) (hN : N ≤ 31) {dims : Fin N → ℕ} {R : ℕ} {V : Tensor K}
    {f : Fac K} (hS : Shaped dims R V f.W) (hG : f.G.length = N) (lam : K) (solve : Spec.Solver K)
    (m : ℕ) :
    ∃ o0 s f', msdtInit N = .ok o0 ∧
      iterM (msdtStep N R lam solve V) (N * m) (o0, f) = .ok (s, f') ∧
      facs N f' = (Spec.alsSweep dims R lam solve (arr V N))^[(N - 1) * m] (facs N f) := by
  obtain ⟨o0, s, f', h0, h1, h2⟩ := C06_msdt_cyclic h3 hN hS hG lam solve (N * m)
  refine ⟨o0, s, f', h0, h1, ?_⟩
  rw [h2, ← cyclicModes_mul (by omega)]
  congr 2
  ring

/-- Limit of C04/C05/C06: at order 2 both constructors index outside their vectors. -/
theorem C04_order_two_ub : dtInit 2 = .error .ub ∧ msdtInit 2 = .error .ub := by
  unfold dtInit msdtInit
  rw [constructTree_two]
  exact ⟨rfl, rfl⟩

/-- **C10.** `update_S(i)` computes the Hadamard product of the other Gram matrices plus `lam·I`, for every order ≥ 2
and every shape. -/
theorem C10_update_S (h2 : 2 ≤ N) {dims : Fin N → ℕ} {R : ℕ} {V : Tensor K} {W : List (Tensor K)}
    (hS : Shaped dims R V W) (lam : K) (i : Fin N) :
    ∃ S, updateS N R lam W i = .ok S ∧ S.lens = [R, R] ∧
      (∀ a < R, ∀ b < R, mat S a b = Spec.gramExcept dims (mats W) i a b + if a = b then lam else 0) ∧
      ∀ a b, mat S a b = mat S b a := by
  obtain ⟨S, h1, _, h3, h4⟩ := updateS_ok h2 hS lam i
  refine ⟨S, h1, h3, ?_, ?_⟩
  · intro a ha b hb
    rw [h4]
    simp [Spec.normalMat, Spec.clip, ha, hb]
  · intro a b
    rw [h4]
    have hg : Spec.gramExcept dims (mats W) i a b = Spec.gramExcept dims (mats W) i b a := by
      unfold Spec.gramExcept Spec.gram
      exact Finset.prod_congr rfl fun j _ => Finset.sum_congr rfl fun x _ => mul_comm _ _
    simp only [Spec.normalMat, Spec.clip, hg, and_comm (a := a < R), eq_comm (a := a)]

/-- **C10 (independence).** Replacing `W_i` by any other matrix of the same shape does not change `update_S(i)`. -/
theorem C10_update_S_ignores_own_factor (h2 : 2 ≤ N) {dims : Fin N → ℕ} {R : ℕ} {V : Tensor K}
    {W : List (Tensor K)} (hS : Shaped dims R V W) (lam : K) (i : Fin N) (T : Tensor K)
    (hT : T.lens = [dims i, R]) :
    updateS N R lam (W.set i T) i = updateS N R lam W i := by
  obtain ⟨S, h1, c1, l1, m1⟩ := updateS_ok h2 hS lam i
  obtain ⟨S', h1', c1', l1', m1'⟩ := updateS_ok h2 (hS.set i hT) lam i
  rw [h1, h1']
  congr 1
  apply Tensor.ext_canon c1' c1 (l1'.trans l1.symm)
  intro idx hfit
  rw [l1'] at hfit
  have hlen := fits_length hfit
  match idx, hlen with
  | [x, r], _ =>
    change mat S' x r = mat S x r
    rw [m1, m1', mats_set hS.count]
    unfold Spec.normalMat Spec.gramExcept
    congr 1
    funext a b
    congr 1
    apply Finset.prod_congr rfl
    intro j hj
    rw [Function.update_of_ne (Finset.ne_of_mem_erase hj)]

/-! Non-vacuity: an order-4 problem with four different mode lengths and rank 2; the theorems above
apply to it (run here for five DT steps and seven MSDT steps with a solver that returns its argument). -/

/-- Example factors and gradients. -/
def exFac : Fac ℤ :=
  ⟨[⟨[2, 2], fun idx => idx.getD 0 0 + 1⟩, ⟨[3, 2], fun idx => idx.getD 1 0⟩,
    ⟨[1, 2], fun idx => idx.getD 1 0 + 5⟩, ⟨[4, 2], fun idx => 3 - idx.getD 0 0⟩],
   [⟨[2, 2], fun _ => 0⟩, ⟨[3, 2], fun _ => 0⟩, ⟨[1, 2], fun _ => 0⟩, ⟨[4, 2], fun _ => 0⟩]⟩

/-- Example tensor. -/
def exV : Tensor ℤ := ⟨[2, 3, 1, 4], fun idx => 1 + idx.getD 0 0 + 2 * idx.getD 1 0 + 7 * idx.getD 3 0⟩

theorem exShaped : Shaped (N := 4) ![2, 3, 1, 4] 2 exV exFac.W where
  lensV := rfl
  count := rfl
  lensW := by
    intro j M h
    fin_cases j <;> (simp [exFac] at h; subst h; rfl)

example := C04_dt_step_exact (by norm_num) (by norm_num) exShaped rfl 3 (fun _ _ M _ => M) 5
example := C04_msdt_step_exact (by norm_num) (by norm_num) exShaped rfl 3 (fun _ _ M _ => M) 7
example := C05_dt_steps_are_sweeps (by norm_num) (by norm_num) exShaped rfl 3 (fun _ _ M _ => M) 2
example := C06_msdt_cyclic (by norm_num) (by norm_num) exShaped rfl 3 (fun _ _ M _ => M) 3
example := C10_update_S (by norm_num) exShaped 3 2

end Properties
