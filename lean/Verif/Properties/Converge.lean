import Verif.Proofs.ConvergeLimit
import Verif.Proofs.GradShape
import Verif.Properties.AlsLoop
import Verif.Properties.Objective
import Verif.Properties.LegacyLoop
import Mathlib.Analysis.MeanInequalities

/-! # C65: regularised ALS converges -/

namespace Properties

open Model Finset Topology
open Filter (Tendsto atTop)

variable {N : ℕ}

/-- The constant of the descent estimate: with `f₀` the regularised objective `‖V - [[W]]‖² + lam ∑_j ‖W_j‖²` of the
starting factors, `(f₀/lam)^(N-1) + R lam` bounds the trace of every normal-equation matrix. -/
noncomputable def descentConst (dims : Fin N → ℕ) (R : ℕ) (lam : ℝ) (V : (Fin N → ℕ) → ℝ) (W : Fin N → ℕ → ℕ → ℝ) : ℝ :=
  ((Spec.resid2 dims R V W + lam * ∑ j, ∑ x ∈ range (dims j), ∑ r ∈ range R, W j x r * W j x r) / lam) ^ (N - 1) + R * lam

/-- Number of stop tests within which the gradient norm falls below `tol`. -/
noncomputable def testBound (dims : Fin N → ℕ) (R : ℕ) (lam : ℝ) (V : (Fin N → ℕ) → ℝ) (W : Fin N → ℕ → ℕ → ℝ)
    (tol : ℝ) : ℝ :=
  2 * descentConst dims R lam V W *
    (Spec.resid2 dims R V W + lam * ∑ j, ∑ x ∈ range (dims j), ∑ r ∈ range R, W j x r * W j x r) / tol ^ 2 + 2

/-- The modes that step `k` updates. -/
def optModes (kind : OptKind) (N : ℕ) (h : 0 < N) (k : ℕ) : List (Fin N) :=
  match kind with
  | .dt => if k % 2 = 0 then (List.finRange N).dropLast else [⟨N - 1, by omega⟩]
  | .msdt => (List.range (N - 1)).map fun t => ⟨(k * (N - 1) + t) % N, Nat.mod_lt _ h⟩
  | _ => List.finRange N

/-- Construction and stepping of the optimizers that solve the full normal equations: every step is a run of exact ALS
updates of known modes, and any two consecutive steps update every mode. -/
theorem opt_trace_modes {kind : OptKind} (hk : kind = .simple ∨ kind = .dt ∨ kind = .msdt) {dims : Fin N → ℕ}
    (hfit : OptFits kind dims) {R : ℕ} {V : Tensor ℝ} {f : Fac ℝ} (hS : Shaped dims R V f.W) (hG : Shaped dims R V f.G)
    (lam : ℝ) (solve : Spec.Solver ℝ) (q : ℕ) (lr : Spec.LowRank ℝ) :
    ∃ (o0 : OptState ℝ) (T : ℕ → OptState ℝ × Fac ℝ), optInit ℝ N kind = .ok o0 ∧
      (∀ k, iterM (optStep N R lam solve q lr V) k (o0, f) = .ok (T k)) ∧
      (∀ k, Shaped dims R V (T k).2.W ∧ Shaped dims R V (T k).2.G) ∧
      Spec.AlsTrace dims R lam solve (arr V N) (fun k => facs N (T k).2)
        (optModes kind N (by have := hfit.lo; omega)) := by
  have h3 := hfit.lo
  have hN : N ≤ 31 := by have := hfit.hi; omega
  rcases hk with rfl | rfl | rfl
  · obtain ⟨h10, s, rfl⟩ := hfit.plain rfl
    have key : ∀ k, ∃ g, iterM (simpleStep N R lam solve V) k f = .ok g ∧ Shaped (fun _ : Fin N => s) R V g.W ∧
        Shaped (fun _ : Fin N => s) R V g.G := by
      intro k
      induction k with
      | zero => exact ⟨f, rfl, hS, hG⟩
      | succ k ih =>
        obtain ⟨f1, a1, a2, a3⟩ := ih
        obtain ⟨f2, b1, b2, b3, _⟩ := simpleStep_ok (by omega) h10 a2 a3.count lam solve
        exact ⟨f2, by rw [iterM_succ_right, a1]; exact b1, b2, simpleStep_G (by omega) h10 a2 a3 lam solve b1⟩
    choose T t1 t2 t3 using key
    refine ⟨.simple, fun k => (.simple, T k), rfl, fun k => ?_, fun k => ⟨t2 k, t3 k⟩, ?_, ?_, ?_⟩
    · have := iterM_map (s1 := simpleStep N R lam solve V) (s2 := optStep N R lam solve q lr V)
        (fun g => ((.simple : OptState ℝ), g)) (fun x => by
          simp only [optStep, bind, Except.bind, Except.map]
          cases simpleStep N R lam solve V x <;> rfl) k f
      rw [this, t1 k]
      rfl
    · intro k
      obtain ⟨f2, b1, b2, b3, b4⟩ := simpleStep_ok (by omega) h10 (t2 k) (t3 k).count lam solve
      have := t1 (k + 1)
      rw [iterM_succ_right, t1 k] at this
      have e : f2 = T (k + 1) := Except.ok.inj (b1.symm.trans this)
      subst e
      exact b4
    · intro k i; simp [optModes]
    · intro k; simp [optModes]
  · obtain ⟨o0, _, _, h0, _⟩ := dt_reach h3 hN hS hG.count lam solve 0
    have key : ∀ k, ∃ of : DTState × Fac ℝ, iterM (dtStep N R lam solve V) k (o0, f) = .ok of ∧ Shaped dims R V of.2.W ∧
        Shaped dims R V of.2.G ∧ DTGood of.1 N := by
      intro k
      induction k with
      | zero =>
        obtain ⟨o0', o, f', h0', a1, a2, a3, a4, _⟩ := dt_reach h3 hN hS hG.count lam solve 0
        rw [h0] at h0'; cases h0'
        cases a1
        exact ⟨(o0, f), rfl, hS, hG, a4⟩
      | succ k ih =>
        obtain ⟨of, a1, a2, a3, a4⟩ := ih
        obtain ⟨f2, b1, b2, b3, _⟩ := dtStep_ok h3 hN a4 a2 a3.count lam solve
        exact ⟨({ of.1 with first := !of.1.first }, f2), by rw [iterM_succ_right, a1]; exact b1, b2, dtStep_G h3 hN a4 a2 a3 lam solve b1,
          ⟨a4.l1, a4.l2, a4.i1, a4.i2, a4.sp, a4.tree⟩⟩
    choose T t1 t2 t3 t4 using key
    refine ⟨.dt o0, fun k => (.dt (T k).1, (T k).2),
      by simp [optInit, h0, bind, Except.bind, pure, Except.pure], fun k => ?_, fun k => ⟨t2 k, t3 k⟩, ?_, ?_, ?_⟩
    · have := iterM_map (s1 := dtStep N R lam solve V) (s2 := optStep N R lam solve q lr V)
        (fun g => ((.dt g.1 : OptState ℝ), g.2)) (fun x => by
          obtain ⟨x1, x2⟩ := x
          simp only [optStep, bind, Except.bind, Except.map]
          cases dtStep N R lam solve V (x1, x2) <;> rfl) k (o0, f)
      rw [this, t1 k]
      rfl
    · intro k
      obtain ⟨o0', s1, f1, s2, f2, h0', b1, b2, b3⟩ := C04_dt_step_exact h3 hN hS hG.count lam solve k
      rw [h0] at h0'; cases h0'
      have e1 : T k = (s1, f1) := Except.ok.inj ((t1 k).symm.trans b1)
      have := t1 (k + 1)
      rw [iterM_succ_right, t1 k, e1] at this
      have e2 : T (k + 1) = (s2, f2) := Except.ok.inj (this.symm.trans b2)
      simp only [e1, e2]
      exact b3
    · intro k i
      unfold optModes
      have hmem : i ∈ (List.finRange N).dropLast ∨ i = ⟨N - 1, by omega⟩ := by
        by_cases hi : i.1 = N - 1
        · exact .inr (Fin.ext hi)
        · left
          rw [List.dropLast_eq_take, List.mem_take_iff_getElem]
          refine ⟨i.1, ?_, by simp⟩
          have := i.2
          simp only [List.length_finRange]
          omega
      rcases Nat.mod_two_eq_zero_or_one k with hm | hm
      · have hm' : (k + 1) % 2 = 1 := by omega
        simp only [hm, hm', if_true, List.mem_append]
        rcases hmem with h | h
        · exact .inl h
        · exact .inr (by simp [h])
      · have hm' : (k + 1) % 2 = 0 := by omega
        simp only [hm, hm', if_true, List.mem_append]
        rcases hmem with h | h
        · exact .inr h
        · exact .inl (by simp [h])
    · intro k
      unfold optModes
      simp only
      split_ifs
      · simp
      · simp only [List.length_singleton]; omega
  · obtain ⟨o0, h0, hl, ht⟩ := msdtInit_ok h3 hN
    have key : ∀ k, ∃ of : MSDTState × Fac ℝ, iterM (msdtStep N R lam solve V) k (o0, f) = .ok of ∧ Shaped dims R V of.2.W ∧
        Shaped dims R V of.2.G ∧ GoodTree (N - 1) of.1.tree := by
      intro k
      induction k with
      | zero => exact ⟨(o0, f), rfl, hS, hG, ht⟩
      | succ k ih =>
        obtain ⟨of, a1, a2, a3, a4⟩ := ih
        obtain ⟨o2, f2, b1, _, b2, b3, b4, _⟩ := msdtStep_ok h3 hN a4 a2 a3.count lam solve
        exact ⟨(o2, f2), by rw [iterM_succ_right, a1]; exact b1, b3, msdtStep_G h3 hN a4 a2 a3 lam solve b1,
          by simp only; rw [b2]; exact a4⟩
    choose T t1 t2 t3 t4 using key
    refine ⟨.msdt o0, fun k => (.msdt (T k).1, (T k).2),
      by simp [optInit, h0, bind, Except.bind, pure, Except.pure], fun k => ?_, fun k => ⟨t2 k, t3 k⟩, ?_, ?_, ?_⟩
    · have := iterM_map (s1 := msdtStep N R lam solve V) (s2 := optStep N R lam solve q lr V)
        (fun g => ((.msdt g.1 : OptState ℝ), g.2)) (fun x => by
          obtain ⟨x1, x2⟩ := x
          simp only [optStep, bind, Except.bind, Except.map]
          cases msdtStep N R lam solve V (x1, x2) <;> rfl) k (o0, f)
      rw [this, t1 k]
      rfl
    · intro k
      obtain ⟨o0', s1, f1, s2, f2, h0', b1, b2, b3⟩ := C04_msdt_step_exact h3 hN hS hG.count lam solve k
      rw [h0] at h0'; cases h0'
      have e1 : T k = (s1, f1) := Except.ok.inj ((t1 k).symm.trans b1)
      have := t1 (k + 1)
      rw [iterM_succ_right, t1 k, e1] at this
      have e2 : T (k + 1) = (s2, f2) := Except.ok.inj (this.symm.trans b2)
      simp only [e1, e2]
      exact b3
    · intro k i
      -- the position `p` of mode `i` in the cyclic order, counted from the start of step `k`
      obtain ⟨p, hp, hpi⟩ : ∃ p < N, (k * (N - 1) + p) % N = i.1 := by
        refine ⟨(i.1 + (N - k * (N - 1) % N)) % N, Nat.mod_lt _ (by omega), ?_⟩
        rw [Nat.add_mod, Nat.mod_mod, ← Nat.add_mod]
        have h1 := Nat.mod_add_div (k * (N - 1)) N
        have h2 : k * (N - 1) % N < N := Nat.mod_lt _ (by omega)
        have : k * (N - 1) + (i.1 + (N - k * (N - 1) % N)) = i.1 + N * (1 + k * (N - 1) / N) := by
          rw [Nat.mul_add]; omega
        rw [this, Nat.add_mul_mod_self_left, Nat.mod_eq_of_lt i.2]
      unfold optModes
      rw [List.mem_append]
      by_cases hlt : p < N - 1
      · left
        exact List.mem_map.2 ⟨p, List.mem_range.2 hlt, Fin.ext hpi⟩
      · right
        refine List.mem_map.2 ⟨0, List.mem_range.2 (by omega), Fin.ext ?_⟩
        simp only
        rw [← hpi, Nat.add_mul, one_mul, Nat.add_zero]
        congr 2
        omega
    · intro k
      simp [optModes]

theorem opt_trace {kind : OptKind} (hk : kind = .simple ∨ kind = .dt ∨ kind = .msdt) {dims : Fin N → ℕ}
    (hfit : OptFits kind dims) {R : ℕ} {V : Tensor ℝ} {f : Fac ℝ} (hS : Shaped dims R V f.W) (hG : Shaped dims R V f.G)
    (lam : ℝ) (solve : Spec.Solver ℝ) (q : ℕ) (lr : Spec.LowRank ℝ) :
    ∃ (o0 : OptState ℝ) (T : ℕ → OptState ℝ × Fac ℝ) (modes : ℕ → List (Fin N)), optInit ℝ N kind = .ok o0 ∧
      (∀ k, iterM (optStep N R lam solve q lr V) k (o0, f) = .ok (T k)) ∧
      (∀ k, Shaped dims R V (T k).2.W ∧ Shaped dims R V (T k).2.G) ∧
      Spec.AlsTrace dims R lam solve (arr V N) (fun k => facs N (T k).2) modes := by
  obtain ⟨o0, T, h⟩ := opt_trace_modes hk hfit hS hG lam solve q lr
  exact ⟨o0, T, _, h⟩

theorem fullObj2_spec {dims : Fin N → ℕ} {R : ℕ} {lam : ℝ} {V : (Fin N → ℕ) → ℝ} {W : Fin N → ℕ → ℕ → ℝ} :
    Spec.resid2 dims R V W + lam * ∑ j, ∑ x ∈ range (dims j), ∑ r ∈ range R, W j x r * W j x r =
      Spec.fullObj2 dims R lam V W := rfl

/-- **C65 (descent).** For the optimizers with exact updates (plain, DT, MSDT), `lam > 0` and a solver that is exact for
positive definite systems: along any number of steps the regularised objective does not increase, every factor stays bounded
by `f₀/lam` (squared norm), and the square of the gradient norm tested after step `k + 2` is at most `descentConst` times the
decrease of the objective over the last two steps. -/
theorem C65_descent {kind : OptKind} (hk : kind = .simple ∨ kind = .dt ∨ kind = .msdt) {dims : Fin N → ℕ}
    (hfit : OptFits kind dims) {R : ℕ} {V : Tensor ℝ} {f : Fac ℝ} (hS : Shaped dims R V f.W) (hG : Shaped dims R V f.G)
    {lam : ℝ} (hl : 0 < lam) {solve : Spec.Solver ℝ} (hsv : Spec.SolvesPosDef solve) (q : ℕ) (lr : Spec.LowRank ℝ) :
    ∃ (o0 : OptState ℝ) (T : ℕ → OptState ℝ × Fac ℝ) (g : ℕ → ℝ), optInit ℝ N kind = .ok o0 ∧
      (∀ k, iterM (optStep N R lam solve q lr V) k (o0, f) = .ok (T k)) ∧
      (∀ k, gradnorm (T k).2.G N = .ok (g k)) ∧
      (∀ k, Spec.fullObj2 dims R lam (arr V N) (mats (T (k + 1)).2.W) ≤
        Spec.fullObj2 dims R lam (arr V N) (mats (T k).2.W)) ∧
      (∀ k (j : Fin N), ∑ x ∈ range (dims j), ∑ r ∈ range R, mats (T k).2.W j x r ^ 2 ≤
        Spec.fullObj2 dims R lam (arr V N) (mats f.W) / lam) ∧
      ∀ k, g (k + 2) ^ 2 ≤ descentConst dims R lam (arr V N) (mats f.W) *
        (Spec.fullObj2 dims R lam (arr V N) (mats (T k).2.W) -
          Spec.fullObj2 dims R lam (arr V N) (mats (T (k + 2)).2.W)) := by
  obtain ⟨o0, T, modes, h0, t1, t2, tr⟩ := opt_trace hk hfit hS hG lam solve q lr
  have hsol := Spec.alsFactor_solves (dims := dims) (R := R) (V := arr V N) (Or.inr ⟨hl, hsv⟩)
  have hT0 : (T 0).2 = f := by
    have := t1 0
    simp only [iterM] at this
    rw [← Except.ok.inj this]
  have hg : ∀ k, gradnorm (T k).2.G N = .ok (Real.sqrt (∑ j : Fin N, ∑ x ∈ range (dims j), ∑ r ∈ range R,
      mats (T k).2.G j x r ^ 2)) := fun k => C16_gradnorm (fun j => (t2 k).2.get j)
  refine ⟨o0, T, _, h0, t1, hg, tr.anti hl hsol, ?_, ?_⟩
  · intro k j
    have h1 := tr.le_start hl hsol k
    simp only [hT0] at h1
    have h2 := Spec.frob_le_obj (dims := dims) (R := R) (V := arr V N) (W := mats (T k).2.W) hl j
    refine le_trans (le_of_eq ?_) (h2.trans (div_le_div_of_nonneg_right h1 hl.le))
    unfold Spec.frob
    exact sum_congr rfl fun x _ => sum_congr rfl fun r _ => sq _
  · intro k
    have h1 := tr.grads hl hsol (by have := hfit.lo; omega) k
    rw [Real.sq_sqrt (sum_nonneg fun _ _ => sum_nonneg fun _ _ => sum_nonneg fun _ _ => sq_nonneg _)]
    simp only [hT0] at h1
    refine le_trans (le_of_eq ?_) h1
    unfold Spec.frob
    exact sum_congr rfl fun j _ => sum_congr rfl fun x _ => sum_congr rfl fun r _ => sq _

theorem stepLimit_ge (h3 : 3 ≤ N) {m : ℤ} (hm : -1 ≤ m) {kind : OptKind} : (m : ℝ) + 1 ≤ stepLimit N m kind := by
  have hz : ∀ z : ℤ, (z : ℝ) ≤ ((z.toNat : ℕ) : ℝ) := fun z => by
    have := Int.self_le_toNat z
    exact_mod_cast this
  have hq : (m : ℝ) + 1 ≤ ((⌈((m : ℚ) + 1) * N / (N - 1)⌉₊ : ℕ) : ℝ) := by
    have h1 := Nat.le_ceil (((m : ℚ) + 1) * N / (N - 1))
    have hN : (3 : ℚ) ≤ N := by exact_mod_cast h3
    have hm' : (0 : ℚ) ≤ (m : ℚ) + 1 := by exact_mod_cast (by omega : (0 : ℤ) ≤ m + 1)
    have h2 : (m : ℚ) + 1 ≤ ((m : ℚ) + 1) * N / (N - 1) := by
      rw [le_div_iff₀ (by linarith)]
      nlinarith
    have h3 := h2.trans h1
    have : (((m : ℚ) + 1 : ℚ) : ℝ) ≤ ((⌈((m : ℚ) + 1) * N / (N - 1)⌉₊ : ℚ) : ℝ) := by exact_mod_cast h3
    push_cast at this
    exact this
  have hm' : (0 : ℝ) ≤ (m : ℝ) + 1 := by exact_mod_cast (by omega : (0 : ℤ) ≤ m + 1)
  cases kind <;> simp only [stepLimit]
  · have := hz (m + 1); push_cast at this; exact this
  · have := hz (2 * (m + 1)); push_cast at this; linarith
  · have := hz (2 * (m + 1)); push_cast at this; linarith
  · exact hq
  · exact hq

/-- **C65.** With `lam > 0`, `tol > 0`, enough sweeps allowed (an explicit number), no time-out and exact solves of positive
definite systems, `als` with the plain, DT or MSDT optimizer always stops by its tolerance: it returns `true`, the norm of
the stored gradients is below `tol`, and the number of steps is at most `|resprint| · testBound`.  Nothing is assumed about
the tensor or the starting factors. -/
theorem C65_als_converges {kind : OptKind} (hk : kind = .simple ∨ kind = .dt ∨ kind = .msdt) {dims : Fin N → ℕ}
    (hfit : OptFits kind dims) {R : ℕ} {V : Tensor ℝ} {f : Fac ℝ} (hS : Shaped dims R V f.W) (hG : Shaped dims R V f.G)
    {lam : ℝ} (hl : 0 < lam) {solve : Spec.Solver ℝ} (hsv : Spec.SolvesPosDef solve) (q : ℕ) (lr : Spec.LowRank ℝ)
    {a : AlsArgs} (hres : a.resprint ≠ 0) (ht : 0 < a.tol) {clock : ℕ → ℝ} (hcl : ∀ k, clock k ≤ a.timelimit)
    (hmax : |(a.resprint : ℝ)| * testBound dims R lam (arr V N) (mats f.W) a.tol ≤ a.maxsweep) {fuel : ℕ}
    (hf : stepLimit N a.maxsweep kind < fuel) :
    ∃ o0 r g, optInit ℝ N kind = .ok o0 ∧ cpdAls kind N R lam solve q lr V a clock fuel (o0, f) = .ok r ∧
      r.ret = true ∧ gradnorm r.st.2.G N = .ok g ∧ g < a.tol ∧
      (r.iters : ℝ) ≤ |(a.resprint : ℝ)| * testBound dims R lam (arr V N) (mats f.W) a.tol := by
  obtain ⟨o0, T, g, h0, t1, t2, t3, _, t5⟩ := C65_descent hk hfit hS hG hl hsv q lr
  obtain ⟨o0', s, h0', hs, tr, c, r, htr, hc, hr, H⟩ :=
    cpdAls_hist hfit hS hG.count lam solve q lr hres clock 0 hf
  rw [h0] at h0'; cases h0'
  cases hs
  have etr : ∀ k, tr k = T k := fun k => Except.ok.inj ((htr k).symm.trans (t1 k))
  have ec : ∀ k, (c k).1 = g k := fun k => by
    have := (hc k).1
    rw [etr] at this
    exact Except.ok.inj (this.symm.trans (t2 k))
  have hT0 : (T 0).2 = f := by
    have := t1 0
    simp only [iterM] at this
    rw [← Except.ok.inj this]
  have hobj0 := Spec.fullObj2_nonneg (dims := dims) (R := R) (V := arr V N) (W := mats f.W) hl.le
  have hL : 0 ≤ descentConst dims R lam (arr V N) (mats f.W) := by
    unfold descentConst
    rw [fullObj2_spec]
    have := div_nonneg hobj0 hl.le
    positivity
  have hs1 : 1 ≤ a.resprint.natAbs := Int.natAbs_pos.2 hres
  obtain ⟨m, hm1, hm2⟩ := Spec.stop_within (F := fun k => Spec.fullObj2 dims R lam (arr V N) (mats (T k).2.W)) hL t3
    (fun _ => Spec.fullObj2_nonneg hl.le)
    (fun k => by
      have := t2 k
      unfold gradnorm at this
      simp only [bind, Except.bind] at this
      split at this
      · cases this
      · rw [← Except.ok.inj this]; exact Real.sqrt_nonneg _) t5 ht hs1
  have habs : |(a.resprint : ℝ)| = (a.resprint.natAbs : ℝ) := by rw [Nat.cast_natAbs]; simp
  have hms : ((m * a.resprint.natAbs : ℕ) : ℝ) ≤ |(a.resprint : ℝ)| * testBound dims R lam (arr V N) (mats f.W) a.tol := by
    rw [habs]
    push_cast
    rw [mul_comm]
    refine mul_le_mul_of_nonneg_left ?_ (Nat.cast_nonneg _)
    simp only [hT0] at hm1
    exact hm1
  have hm0 : -1 ≤ a.maxsweep := by
    have : (0 : ℝ) ≤ a.maxsweep := (Nat.cast_nonneg _).trans (hms.trans hmax)
    have : (0 : ℤ) ≤ a.maxsweep := by exact_mod_cast this
    omega
  have hlt : m * a.resprint.natAbs < alsBound a.maxsweep (stepSweeps N kind) := by
    rw [alsBound_kind hfit.lo]
    have h1 := stepLimit_ge hfit.lo hm0 (kind := kind)
    have : ((m * a.resprint.natAbs : ℕ) : ℝ) < stepLimit N a.maxsweep kind := by linarith
    exact_mod_cast this
  have hstop : Stops a (stepSweeps N kind) clock (m * a.resprint.natAbs) (c (m * a.resprint.natAbs)).1 := by
    refine ⟨.inl ?_, .inl (by rw [ec]; exact hm2)⟩
    rw [← Int.dvd_iff_tmod_eq_zero]
    push_cast
    exact Dvd.dvd.mul_left (by simp) _
  have hle : r.iters ≤ m * a.resprint.natAbs := by
    by_contra hcon
    exact H.before _ (not_le.1 hcon) hstop
  have hbr : r.broke = true := by
    by_contra hne
    have := H.atEnd (by simpa using hne)
    omega
  obtain ⟨hb1, _, hb2⟩ := H.atBreak hbr
  refine ⟨o0, r, g r.iters, h0, hr, ?_, by rw [H.state, etr]; exact t2 _, ?_, ?_⟩
  · rw [H.ret, decide_eq_true_iff]
    have hpos := stepSweeps_pos hfit.lo kind
    have := (floor_le_iff (m := a.maxsweep) hpos r.iters).2 hb1
    rw [← H.sweeps] at this
    intro he
    rw [he] at this
    have h2 : ((a.maxsweep : ℚ) + 1) = ((a.maxsweep + 1 : ℤ) : ℚ) := by push_cast; ring
    rw [h2, Int.floor_intCast] at this
    omega
  · rw [ec] at hb2
    rcases hb2 with h | h
    · exact h
    · exact absurd h (not_lt.2 (hcl _))
  · exact le_trans (by exact_mod_cast hle) hms

/-- **C65 (limits).** Under the same conditions, without any stop test: the gradient of the regularised objective with respect
to every factor, taken at the current factors, tends to zero; the factors have convergent subsequences; and every limit of a
subsequence is a stationary point of `½‖V - [[W]]‖² + (lam/2)∑_j‖W_j‖²`. -/
theorem C65_limit_points {kind : OptKind} (hk : kind = .simple ∨ kind = .dt ∨ kind = .msdt) {dims : Fin N → ℕ}
    (hfit : OptFits kind dims) {R : ℕ} {V : Tensor ℝ} {f : Fac ℝ} (hS : Shaped dims R V f.W) (hG : Shaped dims R V f.G)
    {lam : ℝ} (hl : 0 < lam) {solve : Spec.Solver ℝ} (hsv : Spec.SolvesPosDef solve) (q : ℕ) (lr : Spec.LowRank ℝ) :
    ∃ (o0 : OptState ℝ) (T : ℕ → OptState ℝ × Fac ℝ), optInit ℝ N kind = .ok o0 ∧
      (∀ k, iterM (optStep N R lam solve q lr V) k (o0, f) = .ok (T k)) ∧
      (∀ G : ℕ → Fin N → ℕ → ℕ → ℝ, (∀ k i, IsModeGradient dims R lam (arr V N) (mats (T k).2.W) i (G k i)) →
        ∀ i, ∀ x < dims i, ∀ r < R, Tendsto (fun k => G k i x r) atTop (𝓝 0)) ∧
      (∃ (W : Fin N → ℕ → ℕ → ℝ) (φ : ℕ → ℕ), StrictMono φ ∧ ∀ j, ∀ x < dims j, ∀ r < R,
        Tendsto (fun n => mats (T (φ n)).2.W j x r) atTop (𝓝 (W j x r))) ∧
      ∀ (W : Fin N → ℕ → ℕ → ℝ) (φ : ℕ → ℕ), Tendsto φ atTop atTop →
        (∀ j, ∀ x < dims j, ∀ r < R, Tendsto (fun n => mats (T (φ n)).2.W j x r) atTop (𝓝 (W j x r))) →
        ∀ i, IsModeGradient dims R lam (arr V N) W i fun _ _ => 0 := by
  obtain ⟨o0, T, modes, h0, t1, t2, tr⟩ := opt_trace hk hfit hS hG lam solve q lr
  have hsol := Spec.alsFactor_solves (dims := dims) (R := R) (V := arr V N) (Or.inr ⟨hl, hsv⟩)
  have h2 : 2 ≤ N := by have := hfit.lo; omega
  refine ⟨o0, T, h0, t1, ?_, ?_, ?_⟩
  · intro G hGr i x hx r hr
    refine (tr.grad_tendsto hl hsol h2 i x r).congr fun k => ?_
    -- gradients are unique: test with the direction that is 1 at `(x, r)` only
    obtain ⟨c1, e1⟩ := hGr k i (fun y s => if y = x ∧ s = r then 1 else 0)
    obtain ⟨c2, e2⟩ := alsGrad_isGradient dims R lam (arr V N) (mats (T k).2.W) i (fun y s => if y = x ∧ s = r then 1 else 0)
    have hfr : ∀ A : ℕ → ℕ → ℝ, Spec.frob (dims i) R A (fun y s => if y = x ∧ s = r then 1 else 0) = A x r := by
      intro A
      unfold Spec.frob
      rw [sum_eq_single_of_mem x (mem_range.2 hx) (fun y _ hy => sum_eq_zero fun s _ => by simp [hy]),
        sum_eq_single_of_mem r (mem_range.2 hr) (fun s _ hs => by simp [hs])]
      simp
    simp only [hfr] at e1 e2
    have a1 := (e1 1).symm.trans (e2 1)
    have a2 := (e1 (-1)).symm.trans (e2 (-1))
    have : (facs N (T k).2).W = mats (T k).2.W := rfl
    simp only [this]
    linarith
  · obtain ⟨W, φ, hφ, hW⟩ := Spec.exists_facTendsto (dims := dims) (R := R) (u := fun k => mats (T k).2.W)
      (fun k j x hx r hr => tr.bounded hl hsol k j hx hr)
    exact ⟨W, φ, hφ, hW⟩
  · intro W φ hφ hW i
    have h := tr.stationary hl hsol h2 hφ hW i
    have : Spec.alsGrad dims R lam (arr V N) W i = fun _ _ => 0 := by funext x r; exact h x r
    have hg := alsGrad_isGradient dims R lam (arr V N) W i
    rwa [this] at hg

/-! ## The legacy driver `alsCP_DT`: `Normalize` after every sweep -/

section legacy

variable {dims : Fin N → ℕ} {R : ℕ} {V : Tensor ℝ}

theorem facNorm_sq (W : List (Tensor ℝ)) (j : Fin N) :
    facNorm dims R W j ^ 2 = Spec.frob (dims j) R (mats W j) (mats W j) := by
  unfold facNorm Spec.frob
  rw [Real.sq_sqrt (sum_nonneg fun _ _ => sum_nonneg fun _ _ => sq_nonneg _)]
  exact sum_congr rfl fun x _ => sum_congr rfl fun r _ => sq _

/-- **C65 (`Normalize`).** `Normalize` does not increase the regularised objective: it keeps the reconstruction, and the sum of
the squared factor norms becomes `N` times their geometric mean. -/
theorem C65_normalize_objective (h1 : 1 ≤ N) {W : List (Tensor ℝ)} (hS : Shaped dims R V W)
    (hne : ∀ j, facNorm dims R W j ≠ 0) {lam : ℝ} (hl : 0 ≤ lam) :
    ∃ W', normalize W N = .ok W' ∧ Shaped dims R V W' ∧
      Spec.fullObj2 dims R lam (arr V N) (mats W') ≤ Spec.fullObj2 dims R lam (arr V N) (mats W) := by
  obtain ⟨W', w1, w2, w3, _, w5⟩ := C17_normalize h1 hS hne
  refine ⟨W', w1, w2, ?_⟩
  unfold Spec.fullObj2
  have hres : Spec.resid2 dims R (arr V N) (mats W') = Spec.resid2 dims R (arr V N) (mats W) := by
    unfold Spec.resid2
    exact sum_congr rfl fun idx hidx => by rw [w3 idx hidx]
  rw [hres]
  refine add_le_add (le_refl _) (mul_le_mul_of_nonneg_left ?_ hl)
  simp_rw [← facNorm_sq, w5]
  rw [sum_const, card_univ, Fintype.card_fin, nsmul_eq_mul]
  have hN : (0 : ℝ) < N := by exact_mod_cast h1
  have hnn : ∀ j, 0 ≤ facNorm dims R W j := fun j => Real.sqrt_nonneg _
  have ag := Real.geom_mean_le_arith_mean_weighted univ (fun _ : Fin N => (1 : ℝ) / N) (fun j => facNorm dims R W j ^ 2)
    (fun _ _ => by positivity) (by simp [hN.ne']) (fun j _ => sq_nonneg _)
  have e1 : ((∏ k, facNorm dims R W k) ^ ((1 : ℝ) / N)) ^ 2 = ∏ j, (facNorm dims R W j ^ 2) ^ ((1 : ℝ) / N) := by
    rw [Real.finsetProd_rpow _ _ (fun j _ => sq_nonneg _), prod_pow, ← Real.rpow_natCast, ← Real.rpow_natCast,
      ← Real.rpow_mul (prod_nonneg fun j _ => hnn j), ← Real.rpow_mul (prod_nonneg fun j _ => hnn j), mul_comm]
  rw [e1]
  rw [← mul_sum] at ag
  have := mul_le_mul_of_nonneg_left ag hN.le
  refine this.trans (le_of_eq ?_)
  field_simp

/-- If the objective is below `‖V‖²`, no factor is zero. -/
theorem facNorm_ne_zero {W : Fin N → ℕ → ℕ → ℝ} {lam : ℝ} (hl : 0 ≤ lam)
    (h : Spec.fullObj2 dims R lam (arr V N) W < ∑ idx ∈ Spec.Box dims, arr V N idx ^ 2) (j : Fin N) :
    ∃ x < dims j, ∃ r < R, W j x r ≠ 0 := by
  by_contra hcon
  push_neg at hcon
  have hr : ∀ idx ∈ Spec.Box dims, Spec.recon R W idx = 0 := by
    intro idx hidx
    unfold Spec.recon
    exact sum_eq_zero fun r hr => prod_eq_zero (mem_univ j) (hcon _ (Spec.mem_Box.1 hidx j) r (mem_range.1 hr))
  have h1 : Spec.resid2 dims R (arr V N) W = ∑ idx ∈ Spec.Box dims, arr V N idx ^ 2 := by
    unfold Spec.resid2
    exact sum_congr rfl fun idx hidx => by rw [hr idx hidx, sub_zero]
  have h2 : 0 ≤ lam * ∑ j, Spec.frob (dims j) R (W j) (W j) :=
    mul_nonneg hl (sum_nonneg fun j _ => Spec.frob_self_nonneg _ _ _)
  unfold Spec.fullObj2 at h
  linarith

/-- One sweep of `alsCP_DT` with `F = 0`, from factors whose regularised objective is below `‖V‖²`. -/
theorem legacySweep_descent (h4 : 4 ≤ N) (h5 : N ≠ 5) (hN : N ≤ 31) {F : List (Tensor ℝ)} (hF : Shaped dims R V F)
    (hF0 : ∀ i x r, mats (N := N) F i x r = 0) {f : Fac ℝ} (hS : Shaped dims R V f.W) (hG : Shaped dims R V f.G)
    {lam : ℝ} (hl : 0 < lam) {solve : Spec.Solver ℝ} (hsv : Spec.SolvesPosDef solve) {f0 : ℝ}
    (hf0 : Spec.fullObj2 dims R lam (arr V N) (mats f.W) ≤ f0) (hV : f0 < ∑ idx ∈ Spec.Box dims, arr V N idx ^ 2) :
    ∃ f', legacySweep N R lam solve V F f = .ok f' ∧ Shaped dims R V f'.W ∧ Shaped dims R V f'.G ∧
      Spec.fullObj2 dims R lam (arr V N) (mats f'.W) ≤ Spec.fullObj2 dims R lam (arr V N) (mats f.W) ∧
      ∑ j, Spec.frob (dims j) R (mats f'.G j) (mats f'.G j) ≤ ((f0 / lam) ^ (N - 1) + R * lam) *
        (Spec.fullObj2 dims R lam (arr V N) (mats f.W) - Spec.fullObj2 dims R lam (arr V N) (mats f'.W)) := by
  have hsol := Spec.alsFactor_solves (dims := dims) (R := R) (V := arr V N) (Or.inr ⟨hl, hsv⟩)
  obtain ⟨f1, a1, a2, a3, a4⟩ := C25_sweep_is_als h4 h5 hN hF hF0 hS hG.count lam solve
  have a5 := legacyUpdates_G h4 h5 hN lam solve hF hS hG a1
  have m1 := Spec.alsRun_mono hl.le hsol (List.finRange N) (facs N f) (dims := dims) (R := R) (V := arr V N)
  have e : facs N f1 = Spec.alsRun dims R lam solve (arr V N) (List.finRange N) (facs N f) := a4
  have g1 := Spec.alsRun_grads (by omega) hl hsol (List.finRange N) (facs N f) (dims := dims) (R := R) (V := arr V N) hf0
  rw [← e] at m1 g1
  have m1' : Spec.fullObj2 dims R lam (arr V N) (mats f1.W) ≤ Spec.fullObj2 dims R lam (arr V N) (mats f.W) := m1
  have hne : ∀ j, facNorm dims R f1.W j ≠ 0 := by
    intro j hj
    obtain ⟨x, hx, r, hr, hxr⟩ := facNorm_ne_zero hl.le (lt_of_le_of_lt (m1'.trans hf0) hV) j
    have h0 := facNorm_sq (dims := dims) (R := R) f1.W j
    rw [hj] at h0
    unfold Spec.frob at h0
    have h1 := (sum_eq_zero_iff_of_nonneg (fun x _ => sum_nonneg fun r _ => mul_self_nonneg _)).1
      (h0.symm.trans (by norm_num)) x (mem_range.2 hx)
    have h2 := (sum_eq_zero_iff_of_nonneg (fun r _ => mul_self_nonneg _)).1 h1 r (mem_range.2 hr)
    exact hxr (mul_self_eq_zero.1 h2)
  obtain ⟨W', w1, w2, w3⟩ := C65_normalize_objective (by omega) a2 hne hl.le
  refine ⟨⟨W', f1.G⟩, ?_, w2, a5, w3.trans m1', ?_⟩
  · unfold legacySweep
    simp only [bind, Except.bind]
    rw [a1]
    simp only
    rw [w1]
    rfl
  · have hset : (List.finRange N).toFinset = (univ : Finset (Fin N)) := by ext j; simp
    rw [hset] at g1
    refine le_trans g1 (mul_le_mul_of_nonneg_left ?_ ?_)
    · have : (facs N f1).W = mats f1.W := rfl
      rw [this]
      have : (facs N f).W = mats f.W := rfl
      rw [this]
      simp only
      linarith
    · have := div_nonneg ((Spec.fullObj2_nonneg (dims := dims) (R := R) (V := arr V N) (W := mats f.W) hl.le).trans hf0) hl.le
      positivity

/-- **C65 (`alsCP_DT`).** Orders 4, 6..18, `F = 0`, `lam > 0`, `tol > 0`, starting factors whose regularised objective is below
`‖V‖²` (so that `Normalize` never divides by zero), no time-out, exact solves: given enough iterations the driver returns `true`
with stored gradients of norm below `tol`. -/
theorem C65_legacy_converges (h4 : 4 ≤ N) (h5 : N ≠ 5) (hN : N ≤ 18) {F : List (Tensor ℝ)} (hF : Shaped dims R V F)
    (hF0 : ∀ i x r, mats (N := N) F i x r = 0) {f : Fac ℝ} (hS : Shaped dims R V f.W) (hG : Shaped dims R V f.G)
    {lam : ℝ} (hl : 0 < lam) {solve : Spec.Solver ℝ} (hsv : Spec.SolvesPosDef solve)
    (hV : Spec.resid2 dims R (arr V N) (mats f.W) +
      lam * ∑ j, ∑ x ∈ range (dims j), ∑ r ∈ range R, mats f.W j x r * mats f.W j x r <
        ∑ idx ∈ Spec.Box dims, arr V N idx ^ 2)
    {a : LLArgs} (hres : a.resprint ≠ 0) (ht : 0 < a.tol) {clock : ℕ → ℝ} (hcl : ∀ k, clock k ≤ a.timelimit)
    (hmax : |(a.resprint : ℝ)| * testBound dims R lam (arr V N) (mats f.W) a.tol ≤ a.maxiter) {fuel : ℕ}
    (hf : (a.maxiter + 1).toNat < fuel) :
    ∃ r g, alsCPDT N R lam solve V F a clock fuel f = .ok r ∧ r.ret = true ∧ gradnorm r.st.G N = .ok g ∧ g < a.tol ∧
      (r.iter : ℝ) ≤ |(a.resprint : ℝ)| * testBound dims R lam (arr V N) (mats f.W) a.tol := by
  rw [fullObj2_spec] at hV
  have hobj0 := Spec.fullObj2_nonneg (dims := dims) (R := R) (V := arr V N) (W := mats f.W) hl.le
  set f0 := Spec.fullObj2 dims R lam (arr V N) (mats f.W) with hf0
  have hL : 0 ≤ descentConst dims R lam (arr V N) (mats f.W) := by
    unfold descentConst
    rw [fullObj2_spec]
    have := div_nonneg hobj0 hl.le
    positivity
  have hm0 : 0 ≤ a.maxiter := by
    have h1 : 0 ≤ testBound dims R lam (arr V N) (mats f.W) a.tol := by
      unfold testBound
      rw [fullObj2_spec]
      positivity
    have : (0 : ℝ) ≤ a.maxiter := (mul_nonneg (abs_nonneg _) h1).trans hmax
    exact_mod_cast this
  obtain ⟨r, T, g, r1, t1, hst, hg, hfs, _⟩ := C48_cp_dt h4 h5 hN hF hS hG.count lam solve hm0 hres clock hf
  have inv : ∀ k, Shaped dims R V (T k).W ∧ Shaped dims R V (T k).G ∧
      Spec.fullObj2 dims R lam (arr V N) (mats (T k).W) ≤ f0 := by
    intro k
    induction k with
    | zero =>
      have := t1 0
      simp only [iterM] at this
      rw [← Except.ok.inj this]
      exact ⟨hS, hG, le_refl _⟩
    | succ k ih =>
      obtain ⟨i1, i2, i3⟩ := ih
      obtain ⟨f', b1, b2, b3, b4, _⟩ := legacySweep_descent h4 h5 (by omega) hF hF0 i1 i2 hl hsv i3 hV
      have := t1 (k + 1)
      rw [iterM_succ_right', t1 k] at this
      have e : f' = T (k + 1) := Except.ok.inj (b1.symm.trans this)
      rw [← e]
      exact ⟨b2, b3, b4.trans i3⟩
  have hT0 : T 0 = f := by
    have := t1 0
    simp only [iterM] at this
    rw [← Except.ok.inj this]
  have hstep : ∀ k, Spec.fullObj2 dims R lam (arr V N) (mats (T (k + 1)).W) ≤
      Spec.fullObj2 dims R lam (arr V N) (mats (T k).W) ∧
      g (k + 1) ^ 2 ≤ descentConst dims R lam (arr V N) (mats f.W) *
        (Spec.fullObj2 dims R lam (arr V N) (mats (T k).W) - Spec.fullObj2 dims R lam (arr V N) (mats (T (k + 1)).W)) := by
    intro k
    obtain ⟨i1, i2, i3⟩ := inv k
    obtain ⟨f', b1, b2, b3, b4, b5⟩ := legacySweep_descent h4 h5 (by omega) hF hF0 i1 i2 hl hsv i3 hV
    have := t1 (k + 1)
    rw [iterM_succ_right', t1 k] at this
    have e : f' = T (k + 1) := Except.ok.inj (b1.symm.trans this)
    subst e
    refine ⟨b4, ?_⟩
    have h1 := hg (k + 1)
    rw [C16_gradnorm (dims := dims) (R := R) (fun j => b3.get j)] at h1
    rw [← Except.ok.inj h1, Real.sq_sqrt (sum_nonneg fun _ _ => sum_nonneg fun _ _ => sum_nonneg fun _ _ => sq_nonneg _)]
    refine le_trans (le_of_eq ?_) b5
    unfold Spec.frob
    exact sum_congr rfl fun j _ => sum_congr rfl fun x _ => sum_congr rfl fun r _ => sq _
  have hs1 : 1 ≤ a.resprint.natAbs := Int.natAbs_pos.2 hres
  obtain ⟨m, hm1, hm2⟩ := Spec.stop_within (F := fun k => Spec.fullObj2 dims R lam (arr V N) (mats (T k).W)) hL
    (fun k => (hstep k).1) (fun _ => Spec.fullObj2_nonneg hl.le)
    (fun k => by
      have := hg k
      unfold gradnorm at this
      simp only [bind, Except.bind] at this
      split at this
      · cases this
      · rw [← Except.ok.inj this]; exact Real.sqrt_nonneg _)
    (fun k => (hstep (k + 1)).2.trans (mul_le_mul_of_nonneg_left (by linarith [(hstep k).1]) hL)) ht hs1
  have habs : |(a.resprint : ℝ)| = (a.resprint.natAbs : ℝ) := by rw [Nat.cast_natAbs]; simp
  have hms : ((m * a.resprint.natAbs : ℕ) : ℝ) ≤ |(a.resprint : ℝ)| * testBound dims R lam (arr V N) (mats f.W) a.tol := by
    rw [habs]
    push_cast
    rw [mul_comm]
    refine mul_le_mul_of_nonneg_left ?_ (Nat.cast_nonneg _)
    simp only [hT0] at hm1
    exact hm1
  have hle : r.iter ≤ m * a.resprint.natAbs := by
    by_contra hcon
    refine hfs.before _ (not_le.1 hcon) ⟨.inl ?_, .inl hm2⟩
    rw [← Int.dvd_iff_tmod_eq_zero]
    push_cast
    exact Dvd.dvd.mul_left (by simp) _
  have hret : r.ret = true := by
    by_contra hne
    have h1 := hfs.no.1 (by simpa using hne)
    have h2 : ((r.iter : ℤ) : ℝ) ≤ a.maxiter := by
      have : (r.iter : ℝ) ≤ ((m * a.resprint.natAbs : ℕ) : ℝ) := by exact_mod_cast hle
      push_cast at this hms ⊢
      linarith
    have : (r.iter : ℤ) ≤ a.maxiter := by exact_mod_cast h2
    omega
  obtain ⟨_, _, hstop⟩ := hfs.yes.1 hret
  refine ⟨r, g r.iter, r1, hret, by rw [hst]; exact hg _, ?_, le_trans (by exact_mod_cast hle) hms⟩
  rcases hstop with h | h
  · exact h
  · exact absurd h (not_lt.2 (hcl _))

end legacy

/-! Non-vacuity. -/

theorem exFacR_G : Shaped (N := 4) ![2, 3, 1, 4] 2 exVR exFacR.G where
  lensV := rfl
  count := rfl
  lensW := by
    intro j M h
    fin_cases j <;> (simp [exFacR] at h; subst h; rfl)

/-- The MSDT optimizer with a Cholesky solver on the example of order 4. -/
example : ∃ (k : Kern ℝ) (a : AlsArgs) (o0 : OptState ℝ) (r : AlsEnd (OptState ℝ × Fac ℝ)) (g : ℝ), KernOk k ∧
    optInit ℝ 4 .msdt = .ok o0 ∧
    cpdAls .msdt 4 2 (1 / 2) (cholSolver k) 1 exLRR exVR a (fun _ => 0) (stepLimit 4 a.maxsweep .msdt + 1) (o0, exFacR) =
      .ok r ∧ r.ret = true ∧ gradnorm r.st.2.G 4 = .ok g ∧ g < 1 / 1000 := by
  obtain ⟨k, hk⟩ := exists_kernOk
  obtain ⟨o0, r, g, h1, h2, h3, h4, h5, _⟩ := C65_als_converges (.inr (.inr rfl)) exFits exShapedR exFacR_G
    (lam := 1 / 2) (by norm_num) (C12_cholesky_solver hk) 1 exLRR
    (a := ⟨1 / 1000, 60, ⌈|((10 : ℤ) : ℝ)| * testBound ![2, 3, 1, 4] 2 (1 / 2) (arr exVR 4) (mats exFacR.W) (1 / 1000)⌉, 10⟩)
    (by norm_num) (by norm_num) (clock := fun _ => 0) (fun _ => by norm_num) (Int.le_ceil _) (Nat.lt_succ_self _)
  exact ⟨k, _, o0, r, g, hk, h1, h2, h3, h4, h5⟩

example : ∃ k : Kern ℝ, KernOk k ∧ Spec.SolvesPosDef (cholSolver k) := by
  obtain ⟨k, hk⟩ := exists_kernOk
  exact ⟨k, hk, C12_cholesky_solver hk⟩

/-- The tensor of ones. -/
noncomputable def exOnesV : Tensor ℝ := ⟨[2, 3, 1, 4], fun _ => 1⟩

/-- Factors with a column of ones and a column of zeros. -/
noncomputable def exOnesW : List (Tensor ℝ) :=
  [⟨[2, 2], fun idx => if idx.getD 1 0 = 0 then 1 else 0⟩, ⟨[3, 2], fun idx => if idx.getD 1 0 = 0 then 1 else 0⟩,
   ⟨[1, 2], fun idx => if idx.getD 1 0 = 0 then 1 else 0⟩, ⟨[4, 2], fun idx => if idx.getD 1 0 = 0 then 1 else 0⟩]

theorem exOnesShaped : Shaped (N := 4) ![2, 3, 1, 4] 2 exOnesV exOnesW where
  lensV := rfl
  count := rfl
  lensW := by
    intro j M h
    fin_cases j <;> (simp [exOnesW] at h; subst h; rfl)

/-- The hypothesis on the starting objective is met: residual 0, regularisation 5, `‖V‖² = 24`. -/
theorem exOnes_below : Spec.resid2 ![2, 3, 1, 4] 2 (arr exOnesV 4) (mats exOnesW) +
    (1 / 2) * ∑ j, ∑ x ∈ range ((![2, 3, 1, 4] : Fin 4 → ℕ) j), ∑ r ∈ range 2, mats (N := 4) exOnesW j x r * mats exOnesW j x r <
      ∑ idx ∈ Spec.Box (N := 4) ![2, 3, 1, 4], arr exOnesV 4 idx ^ 2 := by
  have hm : ∀ (j : Fin 4) (x r : ℕ), mats (N := 4) exOnesW j x r = if r = 0 then 1 else 0 := by
    intro j x r
    fin_cases j <;> simp [mats, mat, exOnesW]
  have hv : ∀ idx, arr exOnesV 4 idx = 1 := fun idx => rfl
  have e2 : (![2, 3, 1, 4] : Fin 4 → ℕ) 2 = 1 := rfl
  have e3 : (![2, 3, 1, 4] : Fin 4 → ℕ) 3 = 4 := rfl
  have h1 : Spec.resid2 ![2, 3, 1, 4] 2 (arr exOnesV 4) (mats exOnesW) = 0 := by
    unfold Spec.resid2
    refine sum_eq_zero fun idx _ => ?_
    simp only [Spec.recon, hm, hv, sum_range_succ, sum_range_zero]
    norm_num [Fin.prod_univ_four]
  have h2 : ∑ idx ∈ Spec.Box (N := 4) ![2, 3, 1, 4], arr exOnesV 4 idx ^ 2 = 24 := by
    simp only [hv, one_pow, sum_const, nsmul_eq_mul, mul_one, Spec.Box, Fintype.card_piFinset, Fin.prod_univ_four, card_range]
    rw [e2, e3]
    norm_num
  rw [h1, h2]
  simp only [hm, Fin.sum_univ_four, e2, e3]
  norm_num [sum_range_succ]

example : ∃ (k : Kern ℝ) (a : LLArgs) (r : LLEnd (Fac ℝ)), KernOk k ∧
    alsCPDT 4 2 (1 / 2) (cholSolver k) exOnesV exF0 a (fun _ => 0) ((a.maxiter + 1).toNat + 1) ⟨exOnesW, exOnesW⟩ = .ok r ∧
    r.ret = true := by
  obtain ⟨k, hk⟩ := exists_kernOk
  obtain ⟨r, g, h1, h2, _⟩ := C65_legacy_converges (N := 4) (R := 2) (by norm_num) (by norm_num) (by norm_num) (F := exF0)
    ⟨rfl, rfl, by intro j M h; fin_cases j <;> (simp [exF0] at h; subst h; rfl)⟩
    (by intro j x r; fin_cases j <;> rfl) (f := ⟨exOnesW, exOnesW⟩) exOnesShaped exOnesShaped
    (lam := 1 / 2) (by norm_num) (C12_cholesky_solver hk) exOnes_below
    (a := ⟨1 / 1000, 60, ⌈|((10 : ℤ) : ℝ)| * testBound ![2, 3, 1, 4] 2 (1 / 2) (arr exOnesV 4) (mats exOnesW) (1 / 1000)⌉, 10⟩)
    (by norm_num) (by norm_num) (clock := fun _ => 0) (fun _ => by norm_num) (Int.le_ceil _) (Nat.lt_succ_self _)
  exact ⟨k, _, r, hk, h1, h2⟩

end Properties
