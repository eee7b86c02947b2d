import Verif.Proofs.RoundObjective
import Verif.Properties.Round
import Mathlib.Topology.Algebra.Polynomial
import Mathlib.Topology.Algebra.Monoid
import Mathlib.Topology.Instances.Real.Lemmas

/-! # C81: regularised ALS in floating-point arithmetic

C13 and C65 (the objective never increases, the gradients tend to zero) assume exact arithmetic.  Here the contractions round (`FlEval eps`) and
the solver is backward stable (`SolvesBack eta`).  Everything is about the computed factors, with the exact objective at these factors. -/

namespace Properties

open Model Finset Function

variable {N : ℕ} {dims : Fin N → ℕ} {R B : ℕ} {lam eps eta : ℝ}

/-- The regularised objective `‖V - [[W]]‖² + lam ∑_j ‖W_j‖²` at the factors of `f`. -/
noncomputable def objAt (dims : Fin N → ℕ) (R : ℕ) (lam : ℝ) (V : Tensor ℝ) (f : Fac ℝ) : ℝ :=
  Spec.resid2 dims R (arr V N) (mats f.W) +
    lam * ∑ j : Fin N, ∑ x ∈ range (dims j), ∑ r ∈ range R, mats f.W j x r * mats f.W j x r

/-- Squared norm of the recorded gradients, what the stop test of `CPD::als` looks at. -/
noncomputable def recordedSq (dims : Fin N → ℕ) (R : ℕ) (f : Fac ℝ) : ℝ :=
  ∑ j : Fin N, ∑ x ∈ range (dims j), ∑ r ∈ range R, mats f.G j x r * mats f.G j x r

/-- Relative error of the normal equations that are solved: contractions and solver. -/
noncomputable def eqErr (eps eta : ℝ) (B N : ℕ) : ℝ := (1 + errBound eps B N) * (1 + eta) - 1

/-- What an update can lose while the objective is at most `F`. -/
noncomputable def lossPerUpdate (eps eta : ℝ) (B : ℕ) (dims : Fin N → ℕ) (lam : ℝ) (V : Tensor ℝ) (F : ℝ) : ℝ :=
  Spec.updateLoss dims lam (arr V N) (eqErr eps eta B N) F

/-- The precision suffices for `m` units of `n` updates from `f`, `F` being an upper bound of the objective all the way. -/
def Precise (eps eta : ℝ) (B : ℕ) (dims : Fin N → ℕ) (R : ℕ) (lam : ℝ) (V : Tensor ℝ) (f : Fac ℝ) (n m : ℕ) (F : ℝ) : Prop :=
  0 ≤ F ∧ eqErr eps eta B N * (Spec.gramSize N lam F + lam) ≤ lam / 2 ∧
    objAt dims R lam V f + (m * n : ℕ) * lossPerUpdate eps eta B dims lam V F ≤ F

/-- What holds of the states `fs 0, …, fs m`, consecutive ones being `n` updates apart: the objective never increases by more than the
loss of the updates, hence stays below `F`, and one of the states has recorded gradients of at most the stated norm, in which the first
term falls with `m` and the others are the rounding errors. -/
def FloatDescent (eps eta : ℝ) (B : ℕ) (dims : Fin N → ℕ) (R : ℕ) (lam : ℝ) (V : Tensor ℝ) (n m : ℕ) (F : ℝ) (fs : ℕ → Fac ℝ) : Prop :=
  (∀ k < m, objAt dims R lam V (fs (k + 1)) ≤ objAt dims R lam V (fs k) + n * lossPerUpdate eps eta B dims lam V F) ∧
  (∀ k ≤ m, objAt dims R lam V (fs k) ≤ F) ∧
  (1 ≤ m → ∃ k, 1 ≤ k ∧ k ≤ m ∧ recordedSq dims R (fs k) ≤
    2 * (Spec.gramSize N lam F + R * lam) * (objAt dims R lam V (fs 0) / m + n * lossPerUpdate eps eta B dims lam V F) +
      n * (2 * Spec.gradNoise dims lam (arr V N) (errBound eps B (N + 2)) F))

theorem objAt_eq (V : Tensor ℝ) (f : Fac ℝ) : objAt dims R lam V f = Spec.fullObj2 dims R lam (arr V N) (mats f.W) := rfl

theorem RoundedRun.mono {solve : Spec.Solver ℝ} {V : (Fin N → ℕ) → ℝ} {a b c a' : ℝ} (ha : a ≤ a') {l : List (Fin N)} {st st' : Spec.AlsState N ℝ}
    (h : Spec.RoundedRun dims R lam solve V a b c l st st') : Spec.RoundedRun dims R lam solve V a' b c l st st' := by
  induction h with
  | nil => exact .nil _
  | cons h1 _ ih =>
    refine .cons ?_ ih
    obtain ⟨M, S, g, hM, h2⟩ := h1
    exact ⟨M, S, g, fun x hx r hr => (hM x hx r hr).trans (mul_le_mul_of_nonneg_right ha (Spec.mttkrp_abs_nonneg x r)), h2⟩

theorem errBound_nonneg (he : 0 ≤ eps) (B k : ℕ) : 0 ≤ errBound eps B k := sub_nonneg.2 (one_le_pow₀ (by linarith))

theorem errBound_mono (he : 0 ≤ eps) (B : ℕ) {k k' : ℕ} (h : k ≤ k') : errBound eps B k ≤ errBound eps B k' :=
  sub_le_sub_right (pow_le_pow_right₀ (by linarith) (Nat.mul_le_mul_left _ h)) 1

theorem float_units (h2 : 2 ≤ N) (he : 0 ≤ eps) (het : 0 ≤ eta) (hl : 0 < lam) {solve : Spec.Solver ℝ} (hs : Spec.SolvesBack eta solve) {V : Tensor ℝ}
    {fs : ℕ → Fac ℝ} {ls : ℕ → List (Fin N)} {n : ℕ} (hn : ∀ k, (ls k).length = n) (hall : ∀ k j, j ∈ ls k)
    (hrun : ∀ k, Spec.RoundedRun dims R lam solve (arr V N) (errBound eps B N) (errBound eps B N) (errBound eps B (N + 2)) (ls k)
      (facs N (fs k)) (facs N (fs (k + 1)))) {m : ℕ} {F : ℝ} (hF : Precise eps eta B dims R lam V (fs 0) n m F) :
    FloatDescent eps eta B dims R lam V n m F fs := by
  obtain ⟨hF0, hsm, hF⟩ := hF
  have hc := errBound_nonneg he B N
  have hL0 : 0 ≤ lossPerUpdate eps eta B dims lam V F := Spec.updateLoss_nonneg hl hF0 _
  have hT0 : 0 ≤ Spec.gramSize N lam F + R * lam :=
    add_nonneg (pow_nonneg (div_nonneg hF0 hl.le) _) (mul_nonneg (Nat.cast_nonneg _) hl.le)
  have step : ∀ k, objAt dims R lam V (fs k) + n * lossPerUpdate eps eta B dims lam V F ≤ F →
      objAt dims R lam V (fs (k + 1)) ≤ objAt dims R lam V (fs k) + n * lossPerUpdate eps eta B dims lam V F ∧
      recordedSq dims R (fs (k + 1)) ≤ 2 * (Spec.gramSize N lam F + R * lam) *
        (objAt dims R lam V (fs k) - objAt dims R lam V (fs (k + 1)) + n * lossPerUpdate eps eta B dims lam V F) +
          n * (2 * Spec.gradNoise dims lam (arr V N) (errBound eps B (N + 2)) F) := by
    intro k hk
    obtain ⟨a1, _, a3⟩ := Spec.rounded_run h2 hs het hc (errBound_nonneg he B (N + 2)) hl (hrun k) (F := F) (by rw [hn]; exact hk) hF0 hsm
    rw [hn] at a1 a3
    have huniv : (ls k).toFinset = univ := by
      ext j
      simp [hall k j]
    rw [huniv] at a3
    exact ⟨a1, a3⟩
  set L := lossPerUpdate eps eta B dims lam V F with hL
  set E := 2 * Spec.gradNoise dims lam (arr V N) (errBound eps B (N + 2)) F with hE
  set T := Spec.gramSize N lam F + R * lam with hT
  have hn0 : (0 : ℝ) ≤ n := Nat.cast_nonneg n
  have hnL : 0 ≤ (n : ℝ) * L := mul_nonneg hn0 hL0
  have up : ∀ k ≤ m, objAt dims R lam V (fs k) ≤ objAt dims R lam V (fs 0) + k * (n * L) ∧
      2 * T * (objAt dims R lam V (fs k)) + ∑ q ∈ range k, recordedSq dims R (fs (q + 1)) ≤
        2 * T * (objAt dims R lam V (fs 0) + k * (n * L)) + k * (n * E) := by
    intro k
    induction k with
    | zero => intro _; simp
    | succ k ih =>
      intro hk
      obtain ⟨i1, i2⟩ := ih (by omega)
      have hkm : ((k + 1 : ℕ) : ℝ) * (n * L) ≤ m * (n * L) := mul_le_mul_of_nonneg_right (by exact_mod_cast hk) hnL
      push_cast at hkm hF ⊢
      obtain ⟨s1, s2⟩ := step k (by nlinarith)
      rw [sum_range_succ]
      refine ⟨by nlinarith, ?_⟩
      linarith
  have hbelow : ∀ k ≤ m, objAt dims R lam V (fs k) ≤ F := by
    intro k hk
    have := (up k hk).1
    have hkm : (k : ℝ) * (n * L) ≤ m * (n * L) := mul_le_mul_of_nonneg_right (by exact_mod_cast hk) hnL
    push_cast at hF
    nlinarith
  refine ⟨fun k hk => (step k ?_).1, hbelow, fun hm => ?_⟩
  · have := (up k hk.le).1
    have hkm : ((k + 1 : ℕ) : ℝ) * (n * L) ≤ m * (n * L) := mul_le_mul_of_nonneg_right (by exact_mod_cast hk) hnL
    push_cast at hF hkm
    nlinarith
  · by_contra hcon
    push Not at hcon
    have hm0 : (0 : ℝ) < m := by exact_mod_cast hm
    set b := 2 * T * (objAt dims R lam V (fs 0) / m + n * L) + n * E with hb
    have hsum : (m : ℝ) * b < ∑ q ∈ range m, recordedSq dims R (fs (q + 1)) := by
      have : ∑ q ∈ range m, b < ∑ q ∈ range m, recordedSq dims R (fs (q + 1)) :=
        sum_lt_sum_of_nonempty (by rw [nonempty_range_iff]; omega) fun q hq => hcon (q + 1) (by omega) (by have := mem_range.1 hq; omega)
      simpa using this
    have h1 := (up m le_rfl).2
    have h3 : 0 ≤ 2 * T * objAt dims R lam V (fs m) := mul_nonneg (mul_nonneg (by norm_num) hT0) (Spec.fullObj2_nonneg hl.le)
    have h4 : (m : ℝ) * b = 2 * T * (objAt dims R lam V (fs 0) + m * (n * L)) + m * (n * E) := by
      rw [hb]
      field_simp
    linarith

/-- **C81 (DT).** Orders 3 to 31, any lengths and rank up to `B`, `lam > 0`, any evaluation order of the contractions, any backward stable
solver: `fs k` are the states of a fresh `CPDTOptimizer` after `2k` steps (`k` sweeps).  As long as the precision suffices, no sweep increases
the objective by more than `N` times the loss of an update, which is of second order in `eps` and `eta`; and within `m` sweeps the recorded
gradients fall to the level of the rounding errors plus a term of order `1/m`. -/
theorem C81_dt (he : 0 ≤ eps) (het : 0 ≤ eta) {P : Arith} (hP : FlEval eps P) (h3 : 3 ≤ N) (hN : N ≤ 31) (hB : 1 ≤ B) (hd : ∀ j, dims j ≤ B)
    (hR : R ≤ B) {V : Tensor ℝ} {f : Fac ℝ} (hS : Shaped dims R V f.W) (hG : f.G.length = N) (hl : 0 < lam) {solve : Spec.Solver ℝ}
    (hs : Spec.SolvesBack eta solve) :
    ∃ (o0 : DTState) (fs : ℕ → Fac ℝ), dtInit N = .ok o0 ∧ fs 0 = f ∧
      (∀ k, iterM (dtStepR P N R lam solve V) (2 * k) (o0, f) = .ok (o0, fs k)) ∧
      ∀ m F, Precise eps eta B dims R lam V f N m F → FloatDescent eps eta B dims R lam V N m F fs := by
  obtain ⟨o0, h0, hg, hf, hs0, h1, h2⟩ := dtInit_ok h3 hN
  obtain ⟨fs, w1, w2, w3⟩ := iterM_seq (s := f) (P := fun f : Fac ℝ => Shaped dims R V f.W ∧ f.G.length = N)
    (step := fun f => (iterM (dtStepR P N R lam solve V) 2 (o0, f)).map Prod.snd)
    (R := fun f f' => iterM (dtStepR P N R lam solve V) 2 (o0, f) = .ok (o0, f') ∧
      Spec.RoundedRun dims R lam solve (arr V N) (errBound eps B N) (errBound eps B N) (errBound eps B (N + 2)) (List.finRange N)
        (facs N f) (facs N f')) (by
      rintro f ⟨hS, hG⟩
      obtain ⟨f', a1, a2, a3, a4⟩ := dt_two_stepsR (hP.roundOk he B) (errU_nonneg he B) hB h3 hN hd hR hg hf hs0 h1 h2 hS hG lam solve
      simp only [errBound_eq] at a4
      refine ⟨f', by rw [a1]; rfl, ⟨a2, a3⟩, a1, ?_⟩
      exact RoundedRun.mono (errBound_mono he B (by omega)) a4) ⟨hS, hG⟩
  refine ⟨o0, fs, h0, w1, fun k => ?_, fun m F hF => ?_⟩
  · induction k with
    | zero => rw [w1]; rfl
    | succ k ih =>
      rw [show 2 * (k + 1) = 2 * k + 2 by ring, iterM_add, ih]
      exact (w3 k).2.1
  · rw [← w1] at hF
    exact float_units (by omega) he het hl hs (ls := fun _ => List.finRange N) (fun _ => by simp) (fun _ j => by simp)
      (fun k => (w3 k).2.2) hF

/-- **C81 (direct method).** The same for `CPSimpleOptimizer` (orders 2 to 10, equal lengths), one step being one sweep. -/
theorem C81_simple (he : 0 ≤ eps) (het : 0 ≤ eta) {P : Arith} (hP : FlEval eps P) (h2 : 2 ≤ N) (hN : N ≤ 10) {s : ℕ} (hB : 1 ≤ B) (hd : s ≤ B)
    (hR : R ≤ B) {V : Tensor ℝ} {f : Fac ℝ} (hS : Shaped (fun _ : Fin N => s) R V f.W) (hG : f.G.length = N) (hl : 0 < lam)
    {solve : Spec.Solver ℝ} (hs : Spec.SolvesBack eta solve) :
    ∃ fs : ℕ → Fac ℝ, fs 0 = f ∧ (∀ k, iterM (simpleStepR P N R lam solve V) k f = .ok (fs k)) ∧
      ∀ m F, Precise eps eta B (fun _ : Fin N => s) R lam V f N m F → FloatDescent eps eta B (fun _ : Fin N => s) R lam V N m F fs := by
  obtain ⟨fs, w1, w2, w3⟩ := iterM_seq (s := f) (P := fun f : Fac ℝ => Shaped (fun _ : Fin N => s) R V f.W ∧ f.G.length = N)
    (step := simpleStepR P N R lam solve V)
    (R := fun f f' => Spec.RoundedRun (fun _ : Fin N => s) R lam solve (arr V N) (errBound eps B N) (errBound eps B N) (errBound eps B (N + 2))
      (List.finRange N) (facs N f) (facs N f')) (by
      rintro f ⟨hS, hG⟩
      obtain ⟨f', a1, a2, a3, a4⟩ := simpleStepR_ok (hP.roundOk he B) (errU_nonneg he B) hB h2 hN hd hR hS hG lam solve
      simp only [errBound_eq] at a4
      exact ⟨f', a1, ⟨a2, a3⟩, a4⟩) ⟨hS, hG⟩
  refine ⟨fs, w1, w2, fun m F hF => ?_⟩
  rw [← w1] at hF
  exact float_units h2 he het hl hs (ls := fun _ => List.finRange N) (fun _ => by simp) (fun _ j => by simp) (fun k => (w3 k).2) hF

/-- Two steps of the rounded MSDT optimizer touch every mode. -/
theorem msdt_unit (he : 0 ≤ eps) {P : Arith} (hP : FlEval eps P) (h3 : 3 ≤ N) (hN : N ≤ 31) (hB : 1 ≤ B) (hd : ∀ j, dims j ≤ B)
    (hR : R ≤ B) {V : Tensor ℝ} {o : MSDTState} {f : Fac ℝ} (hS : Shaped dims R V f.W) (hG : f.G.length = N) (ht : GoodTree (N - 1) o.tree)
    (lam : ℝ) (solve : Spec.Solver ℝ) :
    ∃ s', iterM (msdtStepR P N R lam solve V) 2 (o, f) = .ok s' ∧
      (Shaped dims R V s'.2.W ∧ s'.2.G.length = N ∧ GoodTree (N - 1) s'.1.tree) ∧
      ∃ l : List (Fin N), l.length = 2 * (N - 1) ∧ (∀ j, j ∈ l) ∧
        Spec.RoundedRun dims R lam solve (arr V N) (errBound eps B N) (errBound eps B N) (errBound eps B (N + 2)) l
          (facs N f) (facs N s'.2) := by
  have hpos : 0 < N := by omega
  obtain ⟨o1, f1, a1, a2, a3, a4, a5, a6⟩ := msdtStepR_ok (hP.roundOk he B) (errU_nonneg he B) hB h3 hN hd hR ht hS hG lam solve
  obtain ⟨o2, f2, b1, b2, b3, b4, b5, b6⟩ := msdtStepR_ok (hP.roundOk he B) (errU_nonneg he B) hB h3 hN hd hR (by rw [a3]; exact ht) a4 a5 lam solve
  have hr := RoundedRun.append a6 b6
  simp only [errBound_eq] at hr
  refine ⟨(o2, f2), by simp only [iterM, bind, Except.bind, a1, b1], ⟨b4, b5, by rw [b3, a3]; exact ht⟩, _, by simp; omega, ?_,
    RoundedRun.mono (errBound_mono he B (by omega)) hr⟩
  intro j
  rw [List.mem_append, List.mem_map, List.mem_map]
  set left : Fin N := ⟨(o.left + N - 1) % N, Nat.mod_lt _ (by omega)⟩ with hleft
  have cover : ∀ (l : Fin N) (j : Fin N), j ≠ l → ∃ p ∈ List.range (N - 1), modeAt l p = j := by
    intro l j hj
    refine ⟨(j.1 + N - (l.1 + 1)) % N, ?_, ?_⟩
    · rw [List.mem_range]
      have h1 := Nat.mod_lt (j.1 + N - (l.1 + 1)) (show 0 < N by omega)
      rcases Nat.lt_or_ge ((j.1 + N - (l.1 + 1)) % N) (N - 1) with h | h
      · exact h
      · exfalso
        apply hj
        apply Fin.ext
        have hjl := j.2
        have hll := l.2
        rcases Nat.lt_or_ge (j.1 + N - (l.1 + 1)) N with h5 | h5
        · rw [Nat.mod_eq_of_lt h5] at h
          omega
        · rw [Nat.mod_eq_sub_mod h5, Nat.mod_eq_of_lt (by omega)] at h
          omega
    · apply Fin.ext
      simp only [modeAt]
      rw [Nat.add_mod_mod, show l.1 + 1 + (j.1 + N - (l.1 + 1)) = j.1 + N by have := l.2; omega, Nat.add_mod_right, Nat.mod_eq_of_lt j.2]
  by_cases hj : j = left
  · right
    refine cover _ j fun h => ?_
    have h5 := congrArg Fin.val (hj.symm.trans h)
    simp only [hleft] at h5
    rw [a2] at h5
    have hq := Nat.mod_lt (o.left + N - 1) (show 0 < N by omega)
    generalize (o.left + N - 1) % N = q at h5 hq
    rcases Nat.eq_zero_or_pos q with h0 | h0
    · subst h0
      rw [Nat.mod_eq_of_lt (by omega)] at h5
      omega
    · rw [show q + N - 1 = (q - 1) + N by omega, Nat.add_mod_right, Nat.mod_eq_of_lt (by omega)] at h5
      omega
  · exact .inl (cover _ j hj)

/-- **C81 (MSDT).** The same for `CPMSDTOptimizer` (orders 3 to 31): `fs k` are the states after `2k` steps, i.e. `2(N-1)` updates each,
which touch every mode. -/
theorem C81_msdt (he : 0 ≤ eps) (het : 0 ≤ eta) {P : Arith} (hP : FlEval eps P) (h3 : 3 ≤ N) (hN : N ≤ 31) (hB : 1 ≤ B) (hd : ∀ j, dims j ≤ B)
    (hR : R ≤ B) {V : Tensor ℝ} {f : Fac ℝ} (hS : Shaped dims R V f.W) (hG : f.G.length = N) (hl : 0 < lam) {solve : Spec.Solver ℝ}
    (hs : Spec.SolvesBack eta solve) :
    ∃ (o0 : MSDTState) (os : ℕ → MSDTState) (fs : ℕ → Fac ℝ), msdtInit N = .ok o0 ∧ fs 0 = f ∧
      (∀ k, iterM (msdtStepR P N R lam solve V) (2 * k) (o0, f) = .ok (os k, fs k)) ∧
      ∀ m F, Precise eps eta B dims R lam V f (2 * (N - 1)) m F → FloatDescent eps eta B dims R lam V (2 * (N - 1)) m F fs := by
  obtain ⟨o0, h0, hl0, ht⟩ := msdtInit_ok h3 hN
  have hpos : 0 < N := by omega
  obtain ⟨ss, w1, w2, w3⟩ := iterM_seq (s := (o0, f))
    (P := fun s : MSDTState × Fac ℝ => Shaped dims R V s.2.W ∧ s.2.G.length = N ∧ GoodTree (N - 1) s.1.tree)
    (step := fun s => iterM (msdtStepR P N R lam solve V) 2 s)
    (R := fun s s' => ∃ l : List (Fin N), l.length = 2 * (N - 1) ∧ (∀ j, j ∈ l) ∧
      Spec.RoundedRun dims R lam solve (arr V N) (errBound eps B N) (errBound eps B N) (errBound eps B (N + 2)) l
        (facs N s.2) (facs N s'.2)) (by
      rintro ⟨o, f⟩ ⟨hS, hG, ht⟩
      exact msdt_unit he hP h3 hN hB hd hR hS hG ht lam solve) ⟨hS, hG, ht⟩
  refine ⟨o0, fun k => (ss k).1, fun k => (ss k).2, h0, by simp [w1], fun k => ?_, fun m F hF => ?_⟩
  · induction k with
    | zero => simp only [w1]; rfl
    | succ k ih =>
      rw [show 2 * (k + 1) = 2 * k + 2 by ring, iterM_add, ih]
      have := w2 (k + 1)
      rw [iterM_succ_right, w2 k] at this
      exact this
  · choose ls c1 c2 c3 using fun k => (w3 k).2
    exact float_units (by omega) he het hl hs c1 c2 c3 (fs := fun k => (ss k).2) (by rw [w1]; exact hF)

theorem eqErr_mono {eps' eta' : ℝ} (he : 0 ≤ eps) (het : 0 ≤ eta) (h1 : eps ≤ eps') (h2 : eta ≤ eta') (B N : ℕ) :
    eqErr eps eta B N ≤ eqErr eps' eta' B N := by
  unfold eqErr errBound
  have a : (1 + eps) ^ ((B + 1) * N) ≤ (1 + eps') ^ ((B + 1) * N) := pow_le_pow_left₀ (by linarith) (by linarith) _
  have b : (0 : ℝ) ≤ (1 + eps) ^ ((B + 1) * N) := pow_nonneg (by linarith) _
  have := mul_le_mul a (show 1 + eta ≤ 1 + eta' by linarith) (by linarith) (b.trans a)
  linarith

theorem eqErr_nonneg (he : 0 ≤ eps) (het : 0 ≤ eta) (B N : ℕ) : 0 ≤ eqErr eps eta B N := by
  have := errBound_nonneg he B N
  unfold eqErr
  nlinarith

theorem eqErr_small (B N : ℕ) {d : ℝ} (hd : 0 < d) : ∃ p : ℝ, 0 < p ∧ eqErr p p B N ≤ d := by
  have hc : Continuous fun p : ℝ => eqErr p p B N := by
    unfold eqErr errBound
    fun_prop
  have h0 : eqErr 0 0 B N = 0 := by simp [eqErr, errBound]
  have h := hc.continuousAt (x := 0)
  rw [Metric.continuousAt_iff] at h
  obtain ⟨q, hq, hh⟩ := h d hd
  refine ⟨q / 2, by linarith, ?_⟩
  have := hh (x := q / 2) (by rw [Real.dist_eq, sub_zero, abs_of_pos (by linarith)]; linarith)
  rw [h0, Real.dist_eq, sub_zero] at this
  exact (le_abs_self _).trans this.le

/-- **C81 (precision).** For every problem, start, number of units and `δ > 0` there is a precision that suffices: the objective stays
below its start plus 1 and no unit loses more than `δ`. -/
theorem C81_precision (hl : 0 < lam) (V : Tensor ℝ) (f : Fac ℝ) (n m : ℕ) {δ : ℝ} (hδ : 0 < δ) :
    ∃ p : ℝ, 0 < p ∧ ∀ eps eta, 0 ≤ eps → eps ≤ p → 0 ≤ eta → eta ≤ p →
      Precise eps eta B dims R lam V f n m (objAt dims R lam V f + 1) ∧
        n * lossPerUpdate eps eta B dims lam V (objAt dims R lam V f + 1) ≤ δ := by
  have hf0 : 0 ≤ objAt dims R lam V f := Spec.fullObj2_nonneg hl.le
  set F := objAt dims R lam V f + 1 with hF
  have hF0 : 0 ≤ F := by linarith
  have hgs : 0 ≤ Spec.gramSize N lam F := pow_nonneg (div_nonneg hF0 hl.le) _
  have hK : 0 ≤ Spec.updateLoss dims lam (arr V N) 1 F := Spec.updateLoss_nonneg hl hF0 _
  have hloss : ∀ eps eta, lossPerUpdate eps eta B dims lam V F = eqErr eps eta B N ^ 2 * Spec.updateLoss dims lam (arr V N) 1 F := by
    intro eps eta
    unfold lossPerUpdate Spec.updateLoss
    ring
  set gs := Spec.gramSize N lam F
  set K := Spec.updateLoss dims lam (arr V N) 1 F
  have hn : (0 : ℝ) ≤ n := Nat.cast_nonneg n
  have hmn : (0 : ℝ) ≤ (m * n : ℕ) := Nat.cast_nonneg _
  have p1 : 0 < lam / (2 * (gs + lam)) := by positivity
  have p2 : 0 < 1 / (1 + (m * n : ℕ) * K) := by positivity
  have p3 : 0 < δ / (1 + n * K) := by positivity
  obtain ⟨p, hp, hle⟩ := eqErr_small B N (d := min (min 1 (lam / (2 * (gs + lam)))) (min (1 / (1 + (m * n : ℕ) * K)) (δ / (1 + n * K))))
    (lt_min (lt_min one_pos p1) (lt_min p2 p3))
  refine ⟨p, hp, fun eps eta h1 h2 h3 h4 => ?_⟩
  have hd := (eqErr_mono h1 h3 h2 h4 B N).trans hle
  have hd0 := eqErr_nonneg h1 h3 B N
  set d := eqErr eps eta B N with hddef
  have d1 : d ≤ 1 := hd.trans ((min_le_left _ _).trans (min_le_left _ _))
  have d2 : d ≤ lam / (2 * (gs + lam)) := hd.trans ((min_le_left _ _).trans (min_le_right _ _))
  have d3 : d ≤ 1 / (1 + (m * n : ℕ) * K) := hd.trans ((min_le_right _ _).trans (min_le_left _ _))
  have d4 : d ≤ δ / (1 + n * K) := hd.trans ((min_le_right _ _).trans (min_le_right _ _))
  rw [le_div_iff₀ (by positivity)] at d2 d3 d4
  have hsq : d ^ 2 ≤ d := by nlinarith
  refine ⟨⟨hF0, by linarith, ?_⟩, ?_⟩
  · rw [hloss]
    have := mul_le_mul_of_nonneg_right hsq (mul_nonneg hmn hK)
    nlinarith
  · rw [hloss]
    have := mul_le_mul_of_nonneg_right hsq (mul_nonneg hn hK)
    nlinarith

/-- **C81 (meaning of the loss).** Without rounding errors nothing is lost, and the gradients are recorded exactly. -/
theorem C81_loss_zero (B : ℕ) (V : Tensor ℝ) (F : ℝ) : lossPerUpdate 0 0 B dims lam V F = 0 ∧
    Spec.gradNoise dims lam (arr V N) (errBound 0 B (N + 2)) F = 0 := by
  simp [lossPerUpdate, Spec.updateLoss, eqErr, errBound, Spec.gradNoise]

/-- **C81 (scope).** An exact solver for positive definite systems that reads one triangle is backward stable with `eta = 0`. -/
theorem C81_solver {solve : Spec.Solver ℝ} (h : Spec.SolvesPosDef solve) :
    Spec.SolvesBack 0 fun n R M S => solve n R M fun a b => if a ≤ b then S a b else S b a := by
  intro n R M S hT
  have ht : Spec.OneTriangle S fun a b => if a ≤ b then S a b else S b a := by
    refine ⟨fun a b => ?_, fun a b => ?_⟩
    · rcases lt_trichotomy a b with h | h | h
      · simp [h.le, not_le.2 h]
      · simp [h]
      · simp [h.le, not_le.2 h]
    · by_cases hab : a ≤ b <;> simp [hab]
  refine ⟨_, ht, fun x hx r hr => ?_⟩
  have := h n R M _ (hT _ ht) x hx r hr
  simp only at this ⊢
  rw [this, sub_self, abs_zero, zero_mul]

/-! Non-vacuity: the order-4 problem of C68 with rounding; a solver; a precision, whose rounding function is a multiple of the identity. -/

theorem exists_solvesBack : ∃ solve : Spec.Solver ℝ, Spec.SolvesBack 0 solve := by
  obtain ⟨solve, h⟩ := exists_consistent_solver (K := ℝ)
  exact ⟨_, C81_solver fun n R M S hS => h n R M S (Spec.posDef_solvable hS)⟩

theorem exFlEps {p : ℝ} (hp : 0 ≤ p) : FlEval p (seqArith fun x => x * (1 - p)) := flEval_seq fun x => by
  rw [show x * (1 - p) - x = -(p * x) by ring, abs_neg, abs_mul, abs_of_nonneg hp]

example : ∃ p : ℝ, 0 < p ∧ ∃ (solve : Spec.Solver ℝ) (fs : ℕ → Fac ℝ), fs 0 = exFacR ∧ FloatDescent p 0 4 ![2, 3, 1, 4] 2 3 exVR 4 100 (objAt ![2, 3, 1, 4] 2 3 exVR exFacR + 1) fs := by
  obtain ⟨p, hp, h⟩ := C81_precision (B := 4) (dims := ![2, 3, 1, 4]) (R := 2) (lam := 3) (by norm_num) exVR exFacR 4 100 one_pos
  obtain ⟨solve, hs⟩ := exists_solvesBack
  obtain ⟨o0, fs, _, h1, _, h3⟩ := C81_dt hp.le le_rfl (exFlEps hp.le) (by norm_num) (by norm_num) (B := 4) (by norm_num) exDims4 (by norm_num) exShapedR rfl
    (lam := 3) (by norm_num) hs
  exact ⟨p, hp, solve, fs, h1, h3 100 _ (h p 0 hp.le le_rfl le_rfl hp.le).1⟩
example : ∃ p : ℝ, 0 < p ∧ ∃ (solve : Spec.Solver ℝ) (fs : ℕ → Fac ℝ), fs 0 = exFacR ∧ FloatDescent p 0 4 ![2, 3, 1, 4] 2 3 exVR 6 100 (objAt ![2, 3, 1, 4] 2 3 exVR exFacR + 1) fs := by
  obtain ⟨p, hp, h⟩ := C81_precision (B := 4) (dims := ![2, 3, 1, 4]) (R := 2) (lam := 3) (by norm_num) exVR exFacR 6 100 one_pos
  obtain ⟨solve, hs⟩ := exists_solvesBack
  obtain ⟨o0, _, fs, _, h1, _, h3⟩ := C81_msdt hp.le le_rfl (exFlEps hp.le) (by norm_num) (by norm_num) (B := 4) (by norm_num) exDims4 (by norm_num) exShapedR rfl
    (lam := 3) (by norm_num) hs
  exact ⟨p, hp, solve, fs, h1, h3 100 _ (h p 0 hp.le le_rfl le_rfl hp.le).1⟩
example (solve : Spec.Solver ℝ) (hs : Spec.SolvesBack 0 solve) := C81_simple (eps := 1 / 2 ^ 53) (by positivity) le_rfl exFl (by norm_num) (by norm_num) (B := 3) (by norm_num) (by norm_num)
  (by norm_num) (f := ⟨exCubeW, exCubeW⟩) exCubeShaped rfl (lam := 3) (by norm_num) hs

end Properties
