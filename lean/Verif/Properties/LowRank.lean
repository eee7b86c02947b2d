import Verif.Proofs.MSDTLR
import Verif.Properties.Trees

/-! # C07, C08, C09: low-rank optimizers -/

namespace Properties

open Model

variable {K : Type} [CommRing K] {N : ℕ}

/-- `T` stores the contraction of `V` with the matrix `A` along mode `left`; its modes are the others, cyclically from
`left + 1`, and the rank index comes last. -/
def HoldsContraction (dims : Fin N → ℕ) (R : ℕ) (V : (Fin N → ℕ) → K) (left : Fin N) (A : ℕ → ℕ → K)
    (T : Tensor K) : Prop :=
  T.lens = (Spec.modesAfter left).map dims ++ [R] ∧
  ∀ y : Fin N → ℕ, (∀ m, m ≠ left → y m < dims m) → ∀ r < R,
    T.val ((Spec.modesAfter left).map y ++ [r]) =
      ∑ x ∈ Finset.range (dims left), V (Function.update y left x) * A x r

theorem modesAfter_eq (h2 : 2 ≤ N) (left : Fin N) : nodeModes left (N - 2) (N - 2) = Spec.modesAfter left := by
  unfold nodeModes Spec.modesAfter
  rw [node_self, show N - 2 + 1 = N - 1 by omega]
  rfl

theorem topIs_holds (h2 : 2 ≤ N) {dims : Fin N → ℕ} {R : ℕ} {V : (Fin N → ℕ) → K} {left : Fin N}
    {A : ℕ → ℕ → K} {T : Tensor K} (h : TopIs dims R V left A T) : HoldsContraction dims R V left A T := by
  unfold TopIs at h
  rw [modesAfter_eq h2] at h
  exact h

theorem lrRun_append (dims : Fin N → ℕ) (R : ℕ) (lam : K) (solve : Spec.Solver K) (q : ℕ)
    (lr : Spec.LowRank K) (V : (Fin N → ℕ) → K) (base : Spec.AlsState N K → Fin N → ℕ → ℕ → K)
    (a b : List (Fin N × Bool)) (st : Spec.AlsState N K) :
    Spec.lrRun dims R lam solve q lr V base (a ++ b) st =
      Spec.lrRun dims R lam solve q lr V base b (Spec.lrRun dims R lam solve q lr V base a st) := by
  unfold Spec.lrRun; rw [List.foldl_append]

/-- Reachable states of the low-rank DT optimizer. -/
theorem dtlr_reach (h3 : 3 ≤ N) (hN : N ≤ 31) {dims : Fin N → ℕ} {R : ℕ} {V : Tensor K} {f : Fac K}
    (hS : Shaped dims R V f.W) (hG : f.G.length = N) (lam : K) (solve : Spec.Solver K) (q : ℕ)
    (lr : Spec.LowRank K) :
    ∃ o0 : DTLRState K, dtlrInit N = .ok o0 ∧ ∀ k, ∃ o f',
      iterM (dtlrStep N R lam solve q lr V) k (o0, f) = .ok (o, f') ∧
      Shaped dims R V f'.W ∧ f'.G.length = N ∧ DTLRInv dims R q (arr V N) h3 k o (mats f'.W) ∧
      facs N f' = Spec.lrRun dims R lam solve q lr (arr V N) (fun st => st.W)
        ((List.range k).flatMap (Spec.dtlrOps N)) (facs N f) := by
  obtain ⟨o0, h0, hI0⟩ := dtlrInit_ok h3 hN dims R q (arr V N) (mats f.W)
  refine ⟨o0, h0, fun k => ?_⟩
  induction k with
  | zero => exact ⟨o0, f, rfl, hS, hG, hI0, by simp [Spec.lrRun]⟩
  | succ k ih =>
    obtain ⟨o, f1, a1, a2, a3, a4, a5⟩ := ih
    obtain ⟨o', f2, b1, b2, ⟨b3, -⟩, b4, b5⟩ := dtlrStep_ok h3 hN lam solve q lr a2 a3 a4
    refine ⟨o', f2, ?_, b2, b3, b4, ?_⟩
    · rw [iterM_succ_right, a1]; exact b1
    · rw [List.range_succ, List.flatMap_append, lrRun_append, ← a5]
      simpa [absF, facs] using b5

/-- **C07.** From a fresh `CPDTLROptimizer`, before the pair of steps number `p` (any `p`, so before and after
every rotation of the tree) no fault has occurred, the two steps succeed, and together they update every mode
exactly once in the order `0, 1, ..., N-1`: the new factors and gradients are those of one pass over
`finRange N`, each update using the factors current at that moment; `low j` tells whether mode `j` is updated by a
normal-equation solve or by a low-rank correction of its current value. Any order 3..31, shapes, rank, update rank
`q`, tensor, factors, solver and low-rank routine. -/
theorem C07_dtlr_pair_is_sweep (h3 : 3 ≤ N) (hN : N ≤ 31) {dims : Fin N → ℕ} {R : ℕ} {V : Tensor K}
    {f : Fac K} (hS : Shaped dims R V f.W) (hG : f.G.length = N) (lam : K) (solve : Spec.Solver K)
    (q : ℕ) (lr : Spec.LowRank K) (p : ℕ) :
    ∃ o0 s f1 s' f2, dtlrInit N = .ok o0 ∧
      iterM (dtlrStep N R lam solve q lr V) (2 * p) (o0, f) = .ok (s, f1) ∧
      iterM (dtlrStep N R lam solve q lr V) 2 (s, f1) = .ok (s', f2) ∧
      ∃ low : Fin N → Bool, facs N f2 = Spec.lrRun dims R lam solve q lr (arr V N) (fun st => st.W)
        ((List.finRange N).map fun j => (j, low j)) (facs N f1) := by
  obtain ⟨o0, h0, h⟩ := dtlr_reach h3 hN hS hG lam solve q lr
  obtain ⟨s, f1, a1, a2, a3, a4, a5⟩ := h (2 * p)
  obtain ⟨s1, g, b1, b2, ⟨b3, -⟩, b4, b5⟩ := dtlrStep_ok h3 hN lam solve q lr a2 a3 a4
  obtain ⟨s', f2, c1, c2, ⟨c3, -⟩, c4, c5⟩ := dtlrStep_ok h3 hN lam solve q lr b2 b3 b4
  refine ⟨o0, s, f1, s', f2, h0, a1, ?_, ?_⟩
  · change (dtlrStep N R lam solve q lr V (s, f1) >>= iterM (dtlrStep N R lam solve q lr V) 1) = _
    rw [b1]
    change (dtlrStep N R lam solve q lr V (s1, g) >>= iterM (dtlrStep N R lam solve q lr V) 0) = _
    rw [c1]
    rfl
  · have hsplit : ∃ low : Fin N → Bool,
        Spec.dtlrOps N (2 * p) ++ Spec.dtlrOps N (2 * p + 1) = (List.finRange N).map fun j => (j, low j) := by
      set sp := (p / 5) % (N - 1) with hsp
      have hlt : sp < N - 1 := Nat.mod_lt _ (by omega)
      refine ⟨fun j => decide (p % 5 ≠ 0) && (decide (j.1 = N - 2 - sp) || decide (j.1 = N - 1 - sp)), ?_⟩
      unfold Spec.dtlrOps
      rw [if_pos (by omega), if_neg (by omega)]
      simp only [show (2 * p) / 2 = p by omega, show (2 * p + 1) / 2 = p by omega, ← hsp]
      conv_rhs => rw [← List.take_append_drop (N - 1 - sp) (List.finRange N), List.map_append]
      congr 1
      · apply List.map_congr_left
        intro j hj
        obtain ⟨k, hk, rfl⟩ := List.mem_take_iff_getElem.1 hj
        have : k < N - 1 - sp := by omega
        congr 2
        simp
        omega
      · apply List.map_congr_left
        intro j hj
        obtain ⟨k, hk, rfl⟩ := List.mem_drop_iff_getElem.1 hj
        congr 2
        simp
        omega
    obtain ⟨low, hlow⟩ := hsplit
    refine ⟨low, ?_⟩
    rw [← hlow, lrRun_append]
    change absF N f2 = Spec.lrRun _ _ _ _ _ _ _ _ _ (Spec.lrRun _ _ _ _ _ _ _ _ _ (absF N f1))
    rw [c5, b5]

/-- **C07 (exact schedule).** Which updates of each step are low-rank: step number `t` performs exactly
`Spec.dtlrOps N t`. -/
theorem C07_dtlr_schedule (h3 : 3 ≤ N) (hN : N ≤ 31) {dims : Fin N → ℕ} {R : ℕ} {V : Tensor K}
    {f : Fac K} (hS : Shaped dims R V f.W) (hG : f.G.length = N) (lam : K) (solve : Spec.Solver K)
    (q : ℕ) (lr : Spec.LowRank K) (k : ℕ) :
    ∃ o0 s f', dtlrInit N = .ok o0 ∧
      iterM (dtlrStep N R lam solve q lr V) k (o0, f) = .ok (s, f') ∧
      facs N f' = Spec.lrRun dims R lam solve q lr (arr V N) (fun st => st.W)
        ((List.range k).flatMap (Spec.dtlrOps N)) (facs N f) := by
  obtain ⟨o0, h0, h⟩ := dtlr_reach h3 hN hS hG lam solve q lr
  obtain ⟨s, f1, a1, _, _, _, a5⟩ := h k
  exact ⟨o0, s, f1, h0, a1, a5⟩

/-- **C08.** From a fresh `CPDTLROptimizer`, after any number `k` of steps, the tensor that the next step puts at the
top of its tree (recomputed, or the cached one patched with the last low-rank correction) is `V` contracted with the
current factor of its left mode, `left = N-1-sp` (even `k`) or `N-2-sp` (odd `k`), `sp = ⌊k/10⌋ mod (N-1)`. -/
theorem C08_dtlr_cache_coherent (h3 : 3 ≤ N) (hN : N ≤ 31) {dims : Fin N → ℕ} {R : ℕ} {V : Tensor K}
    {f : Fac K} (hS : Shaped dims R V f.W) (hG : f.G.length = N) (lam : K) (solve : Spec.Solver K)
    (q : ℕ) (lr : Spec.LowRank K) (k : ℕ) :
    ∃ o0 s f1 T s', dtlrInit N = .ok o0 ∧
      iterM (dtlrStep N R lam solve q lr V) k (o0, f) = .ok (s, f1) ∧
      dtlrTop N V f1.W s.base.left s = .ok (T, s') ∧
      ∃ left : Fin N, s.base.left = left ∧
        left.1 = (if k % 2 = 0 then N - 1 else N - 2) - (k / 10) % (N - 1) ∧
        HoldsContraction dims R (arr V N) left (mats f1.W left) T := by
  obtain ⟨o0, h0, h⟩ := dtlr_reach h3 hN hS hG lam solve q lr
  obtain ⟨s, f1, a1, a2, a3, a4, _⟩ := h k
  obtain ⟨T, s', t1, _, t3, _⟩ := dtlrTop_ok h3 hN a2 a4
  refine ⟨o0, s, f1, T, s', h0, a1, t1, ⟨_, a4.good.left_lt⟩, rfl, ?_, topIs_holds (by omega) t3⟩
  simp only [DTState.left, a4.first, a4.left1, a4.left2, a4.special, decide_eq_true_eq,
    show k / 2 / 5 = k / 10 by omega]
  split_ifs <;> rfl

/-- Reachable states of the low-rank MSDT optimizer, with the history of factors. -/
theorem msdtlr_reach (h3 : 3 ≤ N) (hN : N ≤ 31) {dims : Fin N → ℕ} {R : ℕ} {V : Tensor K} {f : Fac K}
    (hS : Shaped dims R V f.W) (hG : f.G.length = N) (lam : K) (solve : Spec.Solver K) (q : ℕ)
    (lr : Spec.LowRank K) :
    ∃ (o0 : MSDTLRState K) (S : ℕ → MSDTLRState K) (F : ℕ → Fac K), msdtlrInit N = .ok o0 ∧ ∀ k,
      iterM (msdtlrStep N R lam solve q lr V) k (o0, f) = .ok (S k, F k) ∧
      Shaped dims R V (F k).W ∧ (F k).G.length = N ∧
      MSDTLRInv dims R q (arr V N) k (fun s => mats (F s).W) (S k) (mats (F k).W) := by
  obtain ⟨o0, h0, _⟩ := msdtlrInit_ok h3 hN dims R q (arr V N) (fun _ => mats f.W) (mats f.W)
  let X : ℕ → MSDTLRState K × Fac K := fun k =>
    match iterM (msdtlrStep N R lam solve q lr V) k (o0, f) with
    | .ok x => x
    | .error _ => (o0, f)
  refine ⟨o0, fun k => (X k).1, fun k => (X k).2, h0, fun k => ?_⟩
  induction k with
  | zero =>
    obtain ⟨o0', h0', hI⟩ := msdtlrInit_ok h3 hN dims R q (arr V N) (fun s => mats (X s).2.W) (mats f.W)
    rw [h0] at h0'
    cases h0'
    exact ⟨rfl, hS, hG, hI⟩
  | succ k ih =>
    obtain ⟨a1, a2, a3, a4⟩ := ih
    obtain ⟨o', f2, b1, b2, ⟨b3, -⟩, b4, b5⟩ := msdtlrStep_ok h3 hN lam solve q lr a2 a3 rfl a4
    have hX : iterM (msdtlrStep N R lam solve q lr V) (k + 1) (o0, f) = .ok (o', f2) := by
      rw [iterM_succ_right, a1]; exact b1
    have hX' : X (k + 1) = (o', f2) := by simp only [X, hX]
    simp only [hX']
    exact ⟨hX, b2, b3, b4⟩

/-- **C09.** From a fresh `CPMSDTLROptimizer`, no step faults; writing `F k` for the factors before step `k`:
(1) the tensor that step `k` puts at the top of its tree (recomputed or cached and patched) is `V` contracted with the
current factor of the step's left mode `N-1-(k mod N)`;
(2) for each of the last `N` steps `s < k`, with left mode `m`, the stored `old_W[m]` is the factor of mode `m` that was
in force in step `s`, and the cached tensor is `V` contracted with it;
(3) step `k` performs exactly the updates `k(N-1), ..., (k+1)(N-1)-1` of the cyclic order; from `k = N-1` on the last
of them is a low-rank correction, of the factor in force when that mode was last left out. -/
theorem C09_msdtlr_cache_coherent (h3 : 3 ≤ N) (hN : N ≤ 31) {dims : Fin N → ℕ} {R : ℕ} {V : Tensor K}
    {f : Fac K} (hS : Shaped dims R V f.W) (hG : f.G.length = N) (lam : K) (solve : Spec.Solver K)
    (q : ℕ) (lr : Spec.LowRank K) :
    ∃ (o0 : MSDTLRState K) (S : ℕ → MSDTLRState K) (F : ℕ → Fac K), msdtlrInit N = .ok o0 ∧
      S 0 = o0 ∧ F 0 = f ∧
      (∀ k, msdtlrStep N R lam solve q lr V (S k, F k) = .ok (S (k + 1), F (k + 1))) ∧
      ∀ k,
        (∀ left : Fin N, left.1 = N - 1 - k % N → ((S k).base.left + N - 1) % N = left.1 ∧
          ∃ T s', msdtlrTop N q V (F k).W left.1 (S k) = .ok (T, s') ∧
          HoldsContraction dims R (arr V N) left (mats (F k).W left) T) ∧
        (∀ s < k, k ≤ s + N → ∀ m : Fin N, m.1 = N - 1 - s % N →
          ∃ T A, (S k).isCached[m.1]? = some true ∧ (S k).cached[m.1]? = some T ∧
            (S k).old[m.1]? = some A ∧ mat A = mats (F s).W m ∧
            HoldsContraction dims R (arr V N) m (mat A) T) ∧
        facs N (F (k + 1)) = Spec.lrRun dims R lam solve q lr (arr V N)
          (fun _ => mats (F (k + 1 - N)).W) (Spec.msdtlrOps N (by omega) k) (facs N (F k)) := by
  obtain ⟨o0, S, F, h0, h⟩ := msdtlr_reach h3 hN hS hG lam solve q lr
  have hstep : ∀ k, msdtlrStep N R lam solve q lr V (S k, F k) = .ok (S (k + 1), F (k + 1)) := by
    intro k
    have h1 := (h (k + 1)).1
    rw [iterM_succ_right, (h k).1] at h1
    exact h1
  refine ⟨o0, S, F, h0, ?_, ?_, hstep, fun k => ⟨?_, ?_, ?_⟩⟩
  · have := (h 0).1; simp [iterM] at this; exact this.1.symm
  · have := (h 0).1; simp [iterM] at this; exact this.2.symm
  · intro left hl
    obtain ⟨_, a2, a3, a4⟩ := h k
    refine ⟨(left_val h3 a4.left).trans hl.symm, ?_⟩
    obtain ⟨T, o', Wl, t1, _, t3, _⟩ := msdtlrTop_ok h3 hN a2 a4 left hl
    exact ⟨T, o', t1, topIs_holds (by omega) t3⟩
  · intro s hs hs' m hm
    obtain ⟨_, a2, a3, a4⟩ := h k
    obtain ⟨T, A, e1, e2, e3, e4, e5⟩ := a4.cached s hs hs' m hm
    refine ⟨T, A, ?_, e1, e2, e4, topIs_holds (by omega) e5⟩
    rw [a4.flags]
    have := Nat.mod_le s N
    have := Nat.mod_lt s (show 0 < N by omega)
    simp
    omega
  · obtain ⟨_, a2, a3, a4⟩ := h k
    obtain ⟨o', f2, b1, b2, ⟨b3, -⟩, b4, b5⟩ := msdtlrStep_ok h3 hN lam solve q lr a2 a3 rfl a4
    rw [hstep k] at b1
    cases b1
    exact b5

/-! Non-vacuity: the order-4 example with four different mode lengths, update rank 1 and a low-rank routine whose
correction is not zero. -/

/-- A low-rank routine for the examples. -/
def exLR : Spec.LowRank ℤ := fun _ _ M _ _ => (M, fun k => k + 2, fun k r => k + r + 1)

example := C07_dtlr_pair_is_sweep (by norm_num) (by norm_num) exShaped rfl 3 (fun _ _ M _ => M) 1 exLR 17
example := C08_dtlr_cache_coherent (by norm_num) (by norm_num) exShaped rfl 3 (fun _ _ M _ => M) 1 exLR 25
example := C09_msdtlr_cache_coherent (by norm_num) (by norm_num) exShaped rfl 3 (fun _ _ M _ => M) 1 exLR

end Properties
