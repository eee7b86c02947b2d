import Verif.Proofs.Monotone
import Verif.Proofs.RankR
import Verif.Properties.Trees
import Mathlib.Analysis.Calculus.Deriv.Pow
import Mathlib.Analysis.Calculus.Deriv.Add
import Mathlib.Analysis.Calculus.Deriv.Mul

/-! # C11, C13: the recorded gradient, monotonicity of the objective -/

namespace Properties

open Model

section C11

variable {K : Type} [CommRing K] {N : ℕ}

theorem alsRun_W_of_not_mem {dims : Fin N → ℕ} {R : ℕ} {lam : K} {solve : Spec.Solver K} {V : (Fin N → ℕ) → K}
    (modes : List (Fin N)) (st : Spec.AlsState N K) {j : Fin N} (h : j ∉ modes) :
    (Spec.alsRun dims R lam solve V modes st).W j = st.W j ∧
      (Spec.alsRun dims R lam solve V modes st).G j = st.G j := by
  induction modes generalizing st with
  | nil => exact ⟨rfl, rfl⟩
  | cons i l ih =>
    simp only [List.mem_cons, not_or] at h
    obtain ⟨h1, h2⟩ := ih (Spec.alsUpdate dims R lam solve V st i) h.2
    constructor
    · exact h1.trans (by simp [Spec.alsUpdate, Function.update_of_ne h.1])
    · exact h2.trans (by simp [Spec.alsUpdate, Function.update_of_ne h.1])

/-- Recorded gradient of a pass over distinct modes. -/
theorem alsRun_grad {dims : Fin N → ℕ} {R : ℕ} {lam : K} {solve : Spec.Solver K} {V : (Fin N → ℕ) → K}
    (l1 l2 : List (Fin N)) (i : Fin N) (hnd : (l1 ++ i :: l2).Nodup) (st : Spec.AlsState N K) :
    (Spec.alsRun dims R lam solve V (l1 ++ i :: l2) st).G i = Spec.alsGrad dims R lam V
      (fun j => if j ∈ l1 then (Spec.alsRun dims R lam solve V (l1 ++ i :: l2) st).W j else st.W j) i := by
  rw [List.nodup_append] at hnd
  obtain ⟨_, h2, h3⟩ := hnd
  rw [List.nodup_cons] at h2
  have e : Spec.alsRun dims R lam solve V (l1 ++ i :: l2) st =
      Spec.alsRun dims R lam solve V l2 (Spec.alsUpdate dims R lam solve V
        (Spec.alsRun dims R lam solve V l1 st) i) := by
    unfold Spec.alsRun; rw [List.foldl_append]; rfl
  rw [e, (alsRun_W_of_not_mem l2 _ h2.1).2]
  simp only [Spec.alsUpdate, Function.update_self]
  congr 1
  funext j
  split_ifs with hj
  · have hne : j ≠ i := h3 j hj i (by simp)
    have hn2 : j ∉ l2 := fun h => h3 j hj j (by simp [h]) rfl
    rw [(alsRun_W_of_not_mem l2 _ hn2).1]
    simp [Function.update_of_ne hne]
  · exact (alsRun_W_of_not_mem l1 st hj).1

/-- The property of being the gradient of `½‖V - [[W]]‖² + (lam/2)‖W_i‖²` with respect to `W_i`, in a form valid over
every ring: twice the objective at `W_i + D` is twice the objective at `W_i`, plus `2⟨G, D⟩`, plus a term that is
quadratic in `D` (it scales with `t²`). -/
def IsModeGradient (dims : Fin N → ℕ) (R : ℕ) (lam : K) (V : (Fin N → ℕ) → K) (W : Fin N → ℕ → ℕ → K)
    (i : Fin N) (G : ℕ → ℕ → K) : Prop :=
  ∀ D : ℕ → ℕ → K, ∃ c : K, ∀ t : K,
    Spec.modeObj2 dims R lam V (Function.update W i fun x r => W i x r + t * D x r) i =
      Spec.modeObj2 dims R lam V W i + 2 * t * Spec.frob (dims i) R G D + t ^ 2 * c

theorem alsGrad_isGradient (dims : Fin N → ℕ) (R : ℕ) (lam : K) (V : (Fin N → ℕ) → K)
    (W : Fin N → ℕ → ℕ → K) (i : Fin N) :
    IsModeGradient dims R lam V W i (Spec.alsGrad dims R lam V W i) := by
  intro D
  refine ⟨∑ idx ∈ Spec.Box dims, Spec.modelChange R W i D idx ^ 2 + lam * Spec.frob (dims i) R D D, fun t => ?_⟩
  rw [Spec.modeObj2_expand lam (fun x r => t * D x r)]
  have h1 : ∀ idx, Spec.modelChange R W i (fun x r => t * D x r) idx = t * Spec.modelChange R W i D idx := by
    intro idx
    unfold Spec.modelChange
    rw [Finset.mul_sum]
    exact Finset.sum_congr rfl fun r _ => by ring
  have h2 : Spec.frob (dims i) R (fun x r => t * D x r) (fun x r => t * D x r) =
      t ^ 2 * Spec.frob (dims i) R D D := by
    unfold Spec.frob
    rw [Finset.mul_sum]
    refine Finset.sum_congr rfl fun x _ => ?_
    rw [Finset.mul_sum]
    exact Finset.sum_congr rfl fun r _ => by ring
  have h3 : ∀ G : ℕ → ℕ → K, Spec.frob (dims i) R G (fun x r => t * D x r) = t * Spec.frob (dims i) R G D := by
    intro G
    unfold Spec.frob
    rw [Finset.mul_sum]
    refine Finset.sum_congr rfl fun x _ => ?_
    rw [Finset.mul_sum]
    exact Finset.sum_congr rfl fun r _ => by ring
  rw [h2, h3]
  simp_rw [h1, mul_pow]
  rw [← Finset.mul_sum]
  ring

/-- The factors in force when mode `i` is updated in a pass over modes `0, 1, ..., N-1`: new factors below `i`, old ones
from `i` on. -/
def midFactors (Wnew Wold : Fin N → ℕ → ℕ → K) (i : Fin N) : Fin N → ℕ → ℕ → K :=
  fun j => if j.1 < i.1 then Wnew j else Wold j

theorem sweep_gradients {dims : Fin N → ℕ} {R : ℕ} {lam : K} {solve : Spec.Solver K} {V : (Fin N → ℕ) → K}
    (st : Spec.AlsState N K) (i : Fin N) :
    (Spec.alsSweep dims R lam solve V st).G i =
      Spec.alsGrad dims R lam V (midFactors (Spec.alsSweep dims R lam solve V st).W st.W i) i := by
  have hsplit : List.finRange N = (List.finRange N).take i.1 ++ i :: (List.finRange N).drop (i.1 + 1) := by
    conv_lhs => rw [← List.take_append_drop i.1 (List.finRange N)]
    congr 1
    rw [List.drop_eq_getElem_cons (by simp)]
    simp
  have hnd := List.nodup_finRange N
  rw [hsplit] at hnd
  unfold Spec.alsSweep
  have := alsRun_grad (dims := dims) (R := R) (lam := lam) (solve := solve) (V := V) _ _ i hnd st
  rw [← hsplit] at this
  rw [this]
  congr 1
  funext j
  unfold midFactors
  have : j ∈ (List.finRange N).take i.1 ↔ j.1 < i.1 := by
    rw [List.mem_take_iff_getElem]
    constructor
    · rintro ⟨k, hk, rfl⟩
      simp at hk ⊢
      omega
    · intro h
      exact ⟨j.1, by simp [h], by simp⟩
  simp only [this]

/-- **C11 (plain).** After a step of `CPSimpleOptimizer`, `grad_W[i]` is the gradient of the objective of mode `i` at the
factors in force when mode `i` was updated. -/
theorem C11_simple_gradient (h3 : 2 ≤ N) (hN : N ≤ 10) {s R : ℕ} {V : Tensor K} {f : Fac K}
    (hS : Shaped (fun _ : Fin N => s) R V f.W) (hG : f.G.length = N) (lam : K) (solve : Spec.Solver K) :
    ∃ f', simpleStep N R lam solve V f = .ok f' ∧ ∀ i : Fin N,
      IsModeGradient (fun _ => s) R lam (arr V N) (midFactors (mats f'.W) (mats f.W) i) i (mats f'.G i) := by
  obtain ⟨f', h1, _, _, h4⟩ := simpleStep_ok (by omega) hN hS hG lam solve
  refine ⟨f', h1, fun i => ?_⟩
  have hg := sweep_gradients (dims := fun _ => s) (R := R) (lam := lam) (solve := solve) (V := arr V N) (absF N f) i
  rw [← h4] at hg
  change mats f'.G i = _ at hg
  rw [hg]
  exact alsGrad_isGradient _ _ _ _ _ _

/-- **C11 (DT).** After `2m + 2` steps of `CPDTOptimizer`, i.e. after every full sweep, `grad_W[i]` is the gradient of the
objective of mode `i` at the factors in force when mode `i` was updated in that sweep. -/
theorem C11_dt_gradient (h3 : 3 ≤ N) (hN : N ≤ 31) {dims : Fin N → ℕ} {R : ℕ} {V : Tensor K} {f : Fac K}
    (hS : Shaped dims R V f.W) (hG : f.G.length = N) (lam : K) (solve : Spec.Solver K) (m : ℕ) :
    ∃ o0 s f1 s' f2, dtInit N = .ok o0 ∧ iterM (dtStep N R lam solve V) (2 * m) (o0, f) = .ok (s, f1) ∧
      iterM (dtStep N R lam solve V) 2 (s, f1) = .ok (s', f2) ∧ ∀ i : Fin N,
        IsModeGradient dims R lam (arr V N) (midFactors (mats f2.W) (mats f1.W) i) i (mats f2.G i) := by
  obtain ⟨o0, o, f1, h0, a1, a2, a3, a4, a5, a6, a7, a8⟩ := dt_reach h3 hN hS hG lam solve (2 * m)
  obtain ⟨f2, b1, _, _, b4⟩ := dt_two_steps h3 hN a4 (by rw [a5]; simp) a6 a7 a8 a2 a3 lam solve
  refine ⟨o0, o, f1, o, f2, h0, a1, b1, fun i => ?_⟩
  have hg := sweep_gradients (dims := dims) (R := R) (lam := lam) (solve := solve) (V := arr V N) (absF N f1) i
  rw [← b4] at hg
  change mats f2.G i = _ at hg
  rw [hg]
  exact alsGrad_isGradient _ _ _ _ _ _

/-- **C11 (MSDT).** A step of `CPMSDTOptimizer` after any number `k` of steps updates the modes
`k(N-1), ..., k(N-1)+N-2` (mod `N`); for the `p`-th of them, `i`, the stored `grad_W[i]` is the gradient of the
objective of mode `i` at the factors in force then: those updated before it in the step are new, the others old. -/
theorem C11_msdt_gradient (h3 : 3 ≤ N) (hN : N ≤ 31) {dims : Fin N → ℕ} {R : ℕ} {V : Tensor K} {f : Fac K}
    (hS : Shaped dims R V f.W) (hG : f.G.length = N) (lam : K) (solve : Spec.Solver K) (k : ℕ) :
    ∃ o0 s f1 s' f2, msdtInit N = .ok o0 ∧ iterM (msdtStep N R lam solve V) k (o0, f) = .ok (s, f1) ∧
      msdtStep N R lam solve V (s, f1) = .ok (s', f2) ∧ ∀ p < N - 1, ∀ i : Fin N, i.1 = (k * (N - 1) + p) % N →
        IsModeGradient dims R lam (arr V N)
          (fun j => if ∃ p' < p, j.1 = (k * (N - 1) + p') % N then mats f2.W j else mats f1.W j) i
          (mats f2.G i) := by
  obtain ⟨o0, s, f1, s', f2, h0, h1, h2, h4⟩ := C04_msdt_step_exact h3 hN hS hG lam solve k
  refine ⟨o0, s, f1, s', f2, h0, h1, h2, fun p hp i hi => ?_⟩
  have hN0 : 0 < N := by omega
  set g : ℕ → Fin N := fun t => ⟨(k * (N - 1) + t) % N, Nat.mod_lt _ hN0⟩ with hgdef
  have hinj : ∀ a < N - 1, ∀ b < N - 1, g a = g b → a = b := by
    intro a ha b hb e
    have e' : (k * (N - 1) + a) % N = (k * (N - 1) + b) % N := congrArg Fin.val e
    have : a % N = b % N := Nat.ModEq.add_left_cancel' (k * (N - 1)) e'
    rwa [Nat.mod_eq_of_lt (by omega), Nat.mod_eq_of_lt (by omega)] at this
  have hsplit : (List.range (N - 1)).map g =
      (List.range p).map g ++ i :: (List.range' (p + 1) (N - 1 - (p + 1))).map g := by
    have hr : List.range (N - 1) = List.range p ++ p :: List.range' (p + 1) (N - 1 - (p + 1)) := by
      have : N - 1 = p + ((N - 1 - (p + 1)) + 1) := by omega
      conv_lhs => rw [this]
      rw [List.range_eq_range', List.range_eq_range', ← List.range'_append_1]
      congr 1
      rw [List.range'_succ]
      simp
    rw [hr, List.map_append, List.map_cons]
    congr 2
    exact Fin.ext hi.symm
  have hnd : ((List.range (N - 1)).map g).Nodup := by
    rw [List.nodup_map_iff_inj_on List.nodup_range]
    intro a ha b hb e
    exact hinj a (List.mem_range.1 ha) b (List.mem_range.1 hb) e
  rw [hsplit] at hnd
  have hg := alsRun_grad (dims := dims) (R := R) (lam := lam) (solve := solve) (V := arr V N) _ _ i hnd (facs N f1)
  rw [← hsplit, ← h4] at hg
  change mats f2.G i = _ at hg
  rw [hg]
  have hW : (fun j => if j ∈ (List.range p).map g then (facs N f2).W j else (facs N f1).W j) =
      (fun j => if ∃ p' < p, j.1 = (k * (N - 1) + p') % N then mats f2.W j else mats f1.W j) := by
    funext j
    have : j ∈ (List.range p).map g ↔ ∃ p' < p, j.1 = (k * (N - 1) + p') % N := by
      simp only [List.mem_map, List.mem_range, hgdef, Fin.ext_iff, eq_comm (a := j.1)]
    simp only [this]
  rw [hW]
  exact alsGrad_isGradient _ _ _ _ _ _

/-- Over `ℝ`, being the gradient in the sense above is being the derivative in every direction. -/
theorem C11_gradient_is_derivative {dims : Fin N → ℕ} {R : ℕ} {lam : ℝ} {V : (Fin N → ℕ) → ℝ}
    {W : Fin N → ℕ → ℕ → ℝ} {i : Fin N} {G : ℕ → ℕ → ℝ} (h : IsModeGradient dims R lam V W i G)
    (D : ℕ → ℕ → ℝ) :
    HasDerivAt (fun t : ℝ => (1 / 2) * Spec.resid2 dims R V (Function.update W i fun x r => W i x r + t * D x r) +
      (lam / 2) * ∑ x ∈ Finset.range (dims i), ∑ r ∈ Finset.range R, (W i x r + t * D x r) ^ 2)
      (∑ x ∈ Finset.range (dims i), ∑ r ∈ Finset.range R, G x r * D x r) 0 := by
  obtain ⟨c, hc⟩ := h D
  have e : (fun t : ℝ => (1 / 2) * Spec.resid2 dims R V (Function.update W i fun x r => W i x r + t * D x r) +
      (lam / 2) * ∑ x ∈ Finset.range (dims i), ∑ r ∈ Finset.range R, (W i x r + t * D x r) ^ 2) =
      fun t => (1 / 2) * Spec.modeObj2 dims R lam V W i + t * Spec.frob (dims i) R G D + t ^ 2 * (c / 2) := by
    funext t
    have := hc t
    unfold Spec.modeObj2 at this ⊢
    rw [Function.update_self] at this
    have hf : ∑ x ∈ Finset.range (dims i), ∑ r ∈ Finset.range R, (W i x r + t * D x r) ^ 2 =
        Spec.frob (dims i) R (fun x r => W i x r + t * D x r) (fun x r => W i x r + t * D x r) := by
      unfold Spec.frob
      exact Finset.sum_congr rfl fun x _ => Finset.sum_congr rfl fun r _ => by ring
    rw [hf]
    linear_combination (1 / 2) * this
  rw [e]
  have h1 := ((hasDerivAt_id (0 : ℝ)).mul_const (Spec.frob (dims i) R G D)).const_add
    ((1 / 2) * Spec.modeObj2 dims R lam V W i)
  have h2 := ((hasDerivAt_id (0 : ℝ)).pow 2).mul_const (c / 2)
  have h3 := h1.add h2
  have e1 : (1 : ℝ) * Spec.frob (dims i) R G D + (2 : ℕ) * id (0 : ℝ) ^ (2 - 1) * 1 * (c / 2) =
      ∑ x ∈ Finset.range (dims i), ∑ r ∈ Finset.range R, G x r * D x r := by simp [Spec.frob]
  rw [e1] at h3
  exact h3

end C11

section C13

variable {K : Type} [Field K] [LinearOrder K] [IsStrictOrderedRing K] {N : ℕ}

/-- **C13 (single update).** With a solver that solves consistent systems (or, if `lam > 0`, just positive definite
ones), the new factor of an ALS update minimises `‖V - [[W]]‖² + lam ‖W_i‖²` over all matrices `Y`. -/
theorem C13_update_is_global_minimiser {dims : Fin N → ℕ} {R : ℕ} {lam : K} {solve : Spec.Solver K}
    (h : (0 ≤ lam ∧ Spec.SolvesConsistent solve) ∨ (0 < lam ∧ Spec.SolvesPosDef solve))
    (V : (Fin N → ℕ) → K) (st : Spec.AlsState N K) (i : Fin N) (Y : ℕ → ℕ → K) :
    Spec.modeObj2 dims R lam V (Spec.alsUpdate dims R lam solve V st i).W i ≤
      Spec.modeObj2 dims R lam V (Function.update st.W i Y) i :=
  Spec.solves_minimises (h.elim (·.1) (·.1.le)) (Spec.alsFactor_solves h st.W i) Y

/-- **C13 (plain).** Any number of `CPSimpleOptimizer` steps does not increase `‖V - [[W]]‖² + lam ∑_j ‖W_j‖²`
(for `lam = 0`: the squared residual). -/
theorem C13_simple_monotone (h2 : 2 ≤ N) (hN : N ≤ 10) {s R : ℕ} {V : Tensor K} {f : Fac K}
    (hS : Shaped (fun _ : Fin N => s) R V f.W) (hG : f.G.length = N) {lam : K} {solve : Spec.Solver K}
    (h : (0 ≤ lam ∧ Spec.SolvesConsistent solve) ∨ (0 < lam ∧ Spec.SolvesPosDef solve)) (k : ℕ) :
    ∃ f', iterM (simpleStep N R lam solve V) k f = .ok f' ∧
      Spec.fullObj2 (fun _ => s) R lam (arr V N) (mats f'.W) ≤
        Spec.fullObj2 (fun _ => s) R lam (arr V N) (mats f.W) := by
  have hl := h.elim (·.1) (·.1.le)
  have key : ∃ f', iterM (simpleStep N R lam solve V) k f = .ok f' ∧
      Shaped (fun _ : Fin N => s) R V f'.W ∧ f'.G.length = N ∧
      Spec.fullObj2 (fun _ => s) R lam (arr V N) (mats f'.W) ≤
        Spec.fullObj2 (fun _ => s) R lam (arr V N) (mats f.W) := by
    induction k with
    | zero => exact ⟨f, rfl, hS, hG, le_refl _⟩
    | succ k ih =>
      obtain ⟨f1, a1, a2, a3, a4⟩ := ih
      obtain ⟨f2, b1, b2, b3, b4⟩ := simpleStep_ok (by omega) hN a2 a3 lam solve
      refine ⟨f2, ?_, b2, b3, le_trans ?_ a4⟩
      · rw [iterM_succ_right, a1]; exact b1
      · have := Spec.alsRun_mono hl (Spec.alsFactor_solves h) (List.finRange N) (absF N f1)
          (dims := fun _ => s) (R := R) (V := arr V N)
        have e : absF N f2 = Spec.alsRun (fun _ => s) R lam solve (arr V N) (List.finRange N) (absF N f1) := b4
        rw [← e] at this
        exact this
  obtain ⟨f', a, _, _, b⟩ := key
  exact ⟨f', a, b⟩

/-- **C13 (DT).** The same for any number of `CPDTOptimizer` steps from a fresh optimizer, any shape, order 3..31. -/
theorem C13_dt_monotone (h3 : 3 ≤ N) (hN : N ≤ 31) {dims : Fin N → ℕ} {R : ℕ} {V : Tensor K} {f : Fac K}
    (hS : Shaped dims R V f.W) (hG : f.G.length = N) {lam : K} {solve : Spec.Solver K}
    (h : (0 ≤ lam ∧ Spec.SolvesConsistent solve) ∨ (0 < lam ∧ Spec.SolvesPosDef solve)) (k : ℕ) :
    ∃ o0 s f', dtInit N = .ok o0 ∧ iterM (dtStep N R lam solve V) k (o0, f) = .ok (s, f') ∧
      Spec.fullObj2 dims R lam (arr V N) (mats f'.W) ≤ Spec.fullObj2 dims R lam (arr V N) (mats f.W) := by
  have hl := h.elim (·.1) (·.1.le)
  induction k with
  | zero =>
    obtain ⟨o0, h0, _⟩ := dtInit_ok h3 hN
    exact ⟨o0, o0, f, h0, rfl, le_refl _⟩
  | succ k ih =>
    obtain ⟨o0, s, f', h0, a1, a2⟩ := ih
    obtain ⟨o0', s1, f1, s2, f2, h0', b1, b2, b3⟩ := C04_dt_step_exact h3 hN hS hG lam solve k
    rw [h0] at h0'; cases h0'
    rw [a1] at b1; cases b1
    refine ⟨o0, s2, f2, h0, by rw [iterM_succ_right, a1]; exact b2, le_trans ?_ a2⟩
    have := fun modes => Spec.alsRun_mono hl (Spec.alsFactor_solves h) modes (facs N f')
      (dims := dims) (R := R) (V := arr V N)
    have e : Spec.fullObj2 dims R lam (arr V N) (facs N f2).W ≤ Spec.fullObj2 dims R lam (arr V N) (facs N f').W := by
      rw [b3]
      exact this _
    exact e

/-- **C13 (MSDT).** The same for any number of `CPMSDTOptimizer` steps. -/
theorem C13_msdt_monotone (h3 : 3 ≤ N) (hN : N ≤ 31) {dims : Fin N → ℕ} {R : ℕ} {V : Tensor K} {f : Fac K}
    (hS : Shaped dims R V f.W) (hG : f.G.length = N) {lam : K} {solve : Spec.Solver K}
    (h : (0 ≤ lam ∧ Spec.SolvesConsistent solve) ∨ (0 < lam ∧ Spec.SolvesPosDef solve)) (k : ℕ) :
    ∃ o0 s f', msdtInit N = .ok o0 ∧ iterM (msdtStep N R lam solve V) k (o0, f) = .ok (s, f') ∧
      Spec.fullObj2 dims R lam (arr V N) (mats f'.W) ≤ Spec.fullObj2 dims R lam (arr V N) (mats f.W) := by
  have hl := h.elim (·.1) (·.1.le)
  obtain ⟨o0, s, f', h0, a1, a2⟩ := C06_msdt_cyclic h3 hN hS hG lam solve k
  refine ⟨o0, s, f', h0, a1, ?_⟩
  have := Spec.alsRun_mono hl (Spec.alsFactor_solves h) (Spec.cyclicModes N (by omega) (k * (N - 1))) (facs N f)
    (dims := dims) (R := R) (V := arr V N)
  rw [← a2] at this
  exact this

/-- Such solvers exist (the hypothesis of C13 is satisfiable for every `lam ≥ 0`). -/
theorem exists_consistent_solver : ∃ solve : Spec.Solver K, Spec.SolvesConsistent solve := by
  classical
  refine ⟨fun n R M S => if h : ∃ X, Spec.Solves n R X S M then h.choose else 0, fun n R M S h => ?_⟩
  simp only [dif_pos h]
  exact h.choose_spec

end C13

/-! Non-vacuity: the order-4 example over `ℚ`. -/

/-- Example factors and gradients over `ℚ`. -/
def exFacQ : Fac ℚ :=
  ⟨[⟨[2, 2], fun idx => idx.getD 0 0 + 1⟩, ⟨[3, 2], fun idx => idx.getD 1 0⟩,
    ⟨[1, 2], fun idx => idx.getD 1 0 + 5⟩, ⟨[4, 2], fun idx => 3 - idx.getD 0 0⟩],
   [⟨[2, 2], fun _ => 0⟩, ⟨[3, 2], fun _ => 0⟩, ⟨[1, 2], fun _ => 0⟩, ⟨[4, 2], fun _ => 0⟩]⟩

/-- Example tensor over `ℚ`. -/
def exVQ : Tensor ℚ := ⟨[2, 3, 1, 4], fun idx => 1 + idx.getD 0 0 + 2 * idx.getD 1 0 + 7 * idx.getD 3 0⟩

theorem exShapedQ : Shaped (N := 4) ![2, 3, 1, 4] 2 exVQ exFacQ.W where
  lensV := rfl
  count := rfl
  lensW := by
    intro j M h
    fin_cases j <;> (simp [exFacQ] at h; subst h; rfl)

example : ∃ solve : Spec.Solver ℚ, ∃ o0 s f', dtInit 4 = .ok o0 ∧
    iterM (dtStep 4 2 0 solve exVQ) 7 (o0, exFacQ) = .ok (s, f') ∧
    Spec.fullObj2 ![2, 3, 1, 4] 2 0 (arr exVQ 4) (mats f'.W) ≤
      Spec.fullObj2 ![2, 3, 1, 4] 2 0 (arr exVQ 4) (mats exFacQ.W) := by
  obtain ⟨solve, h⟩ := exists_consistent_solver (K := ℚ)
  exact ⟨solve, C13_dt_monotone (by norm_num) (by norm_num) exShapedQ rfl (Or.inl ⟨le_refl _, h⟩) 7⟩

example := C11_dt_gradient (by norm_num) (by norm_num) exShaped rfl 3 (fun _ _ M _ => M) 2
example := C11_msdt_gradient (by norm_num) (by norm_num) exShaped rfl 3 (fun _ _ M _ => M) 2

end Properties
