import Verif.Model.RoundAls
import Verif.Proofs.RoundGrad
import Verif.Properties.RoundObjective
import Verif.Properties.Converge
import Verif.Properties.TuckTol

/-! # C85: `CPD::als` in floating-point arithmetic

The driver loop around the rounded steps of C81, with a stop test that is computed in floating-point arithmetic too. -/

namespace Properties

open Model Finset Function

variable {N : ℕ} {dims : Fin N → ℕ} {R B : ℕ} {lam eps eta nu : ℝ}

/-! ### the computed gradient norm -/

theorem gradnormR_bounds {rnd : ℝ → ℝ} {nrm : Tensor ℝ → ℝ} (he : 0 ≤ eps) (hr : ∀ x, |rnd x - x| ≤ eps * |x|)
    (hnu : 0 ≤ nu) (hn : ∀ T, |nrm T - norm2 T| ≤ nu * norm2 T) {G : List (Tensor ℝ)} {T : ℕ → Tensor ℝ} (hG : ∀ j < N, G[j]? = some (T j)) :
    ∃ g, gradnormR rnd nrm G N = .ok g ∧ g ≤ (1 + eps) ^ (N + 2) * (1 + nu) * Real.sqrt (∑ j ∈ range N, sqNorm (T j)) ∧
      (eps ≤ 1 → nu ≤ 1 → (1 - eps) ^ (N + 2) * (1 - nu) * Real.sqrt (∑ j ∈ range N, sqNorm (T j)) ≤ g) := by
  have hsq : ∀ T : Tensor ℝ, norm2 T * norm2 T = sqNorm T := fun T => by
    unfold norm2
    exact Real.mul_self_sqrt (sqNorm_nonneg T)
  have hn0 : ∀ T : Tensor ℝ, 0 ≤ norm2 T := fun T => Real.sqrt_nonneg _
  have up : ∀ x, |rnd x| ≤ (1 + eps) * |x| := fun x => by
    have h1 := hr x
    have h2 := abs_sub_abs_le_abs_sub (rnd x) x
    linarith
  have down : ∀ x, 0 ≤ x → (1 - eps) * x ≤ rnd x := fun x hx => by
    have h1 := (abs_le.1 (hr x)).1
    rw [abs_of_nonneg hx] at h1
    linarith
  have up2 : ∀ T, |nrm T * nrm T| ≤ (1 + nu) ^ 2 * sqNorm T := fun T => by
    have h1 : |nrm T| ≤ (1 + nu) * norm2 T := by
      have h1 := hn T
      have h2 := abs_sub_abs_le_abs_sub (nrm T) (norm2 T)
      rw [abs_of_nonneg (hn0 T)] at h2
      linarith
    rw [abs_mul, ← hsq]
    have := mul_le_mul h1 h1 (abs_nonneg _) (mul_nonneg (by linarith) (hn0 T))
    nlinarith
  have down2 : nu ≤ 1 → ∀ T, (1 - nu) ^ 2 * sqNorm T ≤ nrm T * nrm T := fun h T => by
    have h1 := (abs_le.1 (hn T)).1
    have h2 : (1 - nu) * norm2 T ≤ nrm T := by linarith
    have h3 : 0 ≤ (1 - nu) * norm2 T := mul_nonneg (by linarith) (hn0 T)
    have := mul_le_mul h2 h2 h3 (h3.trans h2)
    rw [← hsq]
    nlinarith
  have h1e : (1 : ℝ) ≤ 1 + eps := by linarith
  obtain ⟨b, hb, b1, b2⟩ := foldlM_range'_inv
    (P := fun i (a : ℝ) => |a| ≤ (1 + eps) ^ (i + 1) * (1 + nu) ^ 2 * ∑ j ∈ range i, sqNorm (T j) ∧
      (eps ≤ 1 → nu ≤ 1 → (1 - eps) ^ (i + 1) * (1 - nu) ^ 2 * ∑ j ∈ range i, sqNorm (T j) ≤ a)) (s := 0) (n := N) (a := 0)
    (f := fun s (i : ℕ) => do
      let g ← rd G i
      pure (rnd (s + rnd (nrm g * nrm g)))) (by simp)
    (by
      rintro j a _ hj ⟨a1, a2⟩
      refine ⟨_, by rw [rd_of (hG j (by omega))]; rfl, ?_, fun e1 n1 => ?_⟩
      · rw [sum_range_succ]
        have h1 := up (a + rnd (nrm (T j) * nrm (T j)))
        have h2 := abs_add_le a (rnd (nrm (T j) * nrm (T j)))
        have h3 := (up (nrm (T j) * nrm (T j))).trans (mul_le_mul_of_nonneg_left (up2 (T j)) (by linarith))
        have h4 : (1 + eps) * ((1 + nu) ^ 2 * sqNorm (T j)) ≤ (1 + eps) ^ (j + 1) * ((1 + nu) ^ 2 * sqNorm (T j)) :=
          mul_le_mul_of_nonneg_right (by simpa using pow_le_pow_right₀ h1e (show 1 ≤ j + 1 by omega))
            (mul_nonneg (sq_nonneg _) (sqNorm_nonneg _))
        refine h1.trans ((mul_le_mul_of_nonneg_left (h2.trans (add_le_add a1 (h3.trans h4))) (by linarith)).trans (le_of_eq ?_))
        ring
      · rw [sum_range_succ]
        have hs0 : 0 ≤ ∑ i ∈ range j, sqNorm (T i) := sum_nonneg fun i _ => sqNorm_nonneg _
        have a3 := a2 e1 n1
        have h0 : 0 ≤ a := (mul_nonneg (mul_nonneg (pow_nonneg (by linarith) _) (sq_nonneg _)) hs0).trans a3
        have h5 : 0 ≤ (1 - nu) ^ 2 * sqNorm (T j) := mul_nonneg (sq_nonneg _) (sqNorm_nonneg _)
        have h3 := down (nrm (T j) * nrm (T j)) (mul_self_nonneg _)
        have h3' := (mul_le_mul_of_nonneg_left (down2 n1 (T j)) (show 0 ≤ 1 - eps by linarith)).trans h3
        have h4 : (1 - eps) ^ (j + 1) * ((1 - nu) ^ 2 * sqNorm (T j)) ≤ (1 - eps) * ((1 - nu) ^ 2 * sqNorm (T j)) :=
          mul_le_mul_of_nonneg_right (by
            simpa using pow_le_pow_of_le_one (show 0 ≤ 1 - eps by linarith) (by linarith) (show 1 ≤ j + 1 by omega)) h5
        have h6 : 0 ≤ rnd (nrm (T j) * nrm (T j)) := (mul_nonneg (by linarith) h5).trans h3'
        have h1 := down (a + rnd (nrm (T j) * nrm (T j))) (add_nonneg h0 h6)
        refine le_trans (le_of_eq ?_) ((mul_le_mul_of_nonneg_left (add_le_add a3 (h4.trans h3')) (show 0 ≤ 1 - eps by linarith)).trans h1)
        ring)
  rw [Nat.zero_add] at b1 b2
  set S := ∑ j ∈ range N, sqNorm (T j) with hSdef
  refine ⟨rnd (Real.sqrt b), ?_, ?_, fun e1 n1 => ?_⟩
  · unfold gradnormR
    simp only [List.range_eq_range', bind, Except.bind] at hb ⊢
    rw [hb]
    rfl
  · have h1 := (le_abs_self _).trans (up (Real.sqrt b))
    rw [abs_of_nonneg (Real.sqrt_nonneg _)] at h1
    have h2 : Real.sqrt b ≤ (1 + eps) ^ (N + 1) * (1 + nu) * Real.sqrt S := by
      rw [← Real.sqrt_sq (show 0 ≤ (1 + eps) ^ (N + 1) * (1 + nu) by positivity), ← Real.sqrt_mul (sq_nonneg _)]
      refine Real.sqrt_le_sqrt (((le_abs_self _).trans b1).trans ?_)
      refine mul_le_mul_of_nonneg_right ?_ (sum_nonneg fun i _ => sqNorm_nonneg _)
      rw [mul_pow]
      refine mul_le_mul_of_nonneg_right ?_ (sq_nonneg _)
      rw [← pow_mul]
      exact pow_le_pow_right₀ h1e (by omega)
    refine h1.trans ((mul_le_mul_of_nonneg_left h2 (by linarith)).trans (le_of_eq ?_))
    ring
  · have h1 := down (Real.sqrt b) (Real.sqrt_nonneg _)
    have h0 : 0 ≤ (1 - eps) ^ (N + 1) := pow_nonneg (by linarith) _
    have h2 : (1 - eps) ^ (N + 1) * (1 - nu) * Real.sqrt S ≤ Real.sqrt b := by
      rw [← Real.sqrt_sq (mul_nonneg h0 (show 0 ≤ 1 - nu by linarith)), ← Real.sqrt_mul (sq_nonneg _)]
      refine Real.sqrt_le_sqrt (le_trans ?_ (b2 e1 n1))
      refine mul_le_mul_of_nonneg_right ?_ (sum_nonneg fun i _ => sqNorm_nonneg _)
      rw [mul_pow]
      refine mul_le_mul_of_nonneg_right ?_ (sq_nonneg _)
      rw [← pow_mul]
      exact pow_le_pow_of_le_one (by linarith) (by linarith) (by omega)
    refine le_trans (le_of_eq ?_) ((mul_le_mul_of_nonneg_left h2 (show 0 ≤ 1 - eps by linarith)).trans h1)
    ring

/-- **C85 (gradient norm).** The gradient norm computed by `update_gradnorm` has a small relative error: every scalar operation is rounded with
relative error `eps`, every call of `norm2()` has relative error `nu`. -/
theorem C85_gradnorm {rnd : ℝ → ℝ} {nrm : Tensor ℝ → ℝ} (he : 0 ≤ eps) (hr : ∀ x, |rnd x - x| ≤ eps * |x|)
    (hnu : 0 ≤ nu) (hn : ∀ T, |nrm T - norm2 T| ≤ nu * norm2 T) {V : Tensor ℝ} {f : Fac ℝ} (hG : Shaped dims R V f.G) :
    ∃ g, gradnormR rnd nrm f.G N = .ok g ∧ g ≤ (1 + eps) ^ (N + 2) * (1 + nu) * Real.sqrt (recordedSq dims R f) ∧
      (eps ≤ 1 → nu ≤ 1 → (1 - eps) ^ (N + 2) * (1 - nu) * Real.sqrt (recordedSq dims R f) ≤ g) := by
  have hg : ∀ j < N, f.G[j]? = some (f.G.getD j ⟨[], fun _ => 0⟩) := by
    intro j hj
    have : j < f.G.length := by rw [hG.count]; exact hj
    simp [this]
  obtain ⟨g, h1, h2, h3⟩ := gradnormR_bounds he hr hnu hn hg
  have e : Real.sqrt (∑ j ∈ range N, sqNorm (f.G.getD j ⟨[], fun _ => 0⟩)) = Real.sqrt (recordedSq dims R f) := by
    have h4 := gradnorm_eq hg
    have h5 := C16_gradnorm (N := N) (dims := dims) (R := R) (G := f.G) (fun j => by
      obtain ⟨M, a, b⟩ := hG.get j
      exact ⟨M, by simpa using a, b⟩)
    rw [h4] at h5
    have := Except.ok.inj h5
    rw [this]
    unfold recordedSq
    simp only [pow_two]
  rw [e] at h2 h3
  exact ⟨g, h1, h2, h3⟩

/-! ### the loop -/

/-- Number of steps after which every mode has been updated. -/
def unitSteps : OptKind → ℕ
  | .simple => 1
  | _ => 2

/-- Number of updates in these steps. -/
def unitUpdates (N : ℕ) : OptKind → ℕ
  | .simple => N
  | .dt => N
  | _ => 2 * (N - 1)

/-- The rounded optimizers can be constructed and stepped any number of times; `unitSteps` steps touch every mode. -/
theorem optR_run (he : 0 ≤ eps) {P : Arith} (hP : FlEval eps P) {kind : OptKind} (hk : kind = .simple ∨ kind = .dt ∨ kind = .msdt)
    (hfit : OptFits kind dims) (hB : 1 ≤ B) (hd : ∀ j, dims j ≤ B) (hR : R ≤ B) {V : Tensor ℝ} {f : Fac ℝ} (hS : Shaped dims R V f.W)
    (hG : Shaped dims R V f.G) (lam : ℝ) (solve : Spec.Solver ℝ) :
    ∃ (o0 : OptState ℝ) (tr : ℕ → OptState ℝ × Fac ℝ), optInit ℝ N kind = .ok o0 ∧ tr 0 = (o0, f) ∧ (∀ k, iterM (optStepR P N R lam solve V) k (o0, f) = .ok (tr k)) ∧
      (∀ k, Shaped dims R V (tr k).2.W ∧ Shaped dims R V (tr k).2.G) ∧
      ∀ k, ∃ l : List (Fin N), l.length = unitUpdates N kind ∧ (∀ j, j ∈ l) ∧
        Spec.RoundedRun dims R lam solve (arr V N) (errBound eps B N) (errBound eps B N) (errBound eps B (N + 2)) l
          (facs N (tr (unitSteps kind * k)).2) (facs N (tr (unitSteps kind * (k + 1))).2) := by
  have h3 := hfit.lo
  have hN : N ≤ 31 := by have := hfit.hi; omega
  have hu := errU_nonneg he B
  have hPr := hP.roundOk he B
  rcases hk with rfl | rfl | rfl
  · obtain ⟨h10, s, rfl⟩ := hfit.plain rfl
    have hs : s ≤ B := hd ⟨0, by omega⟩
    obtain ⟨tr, t0, t1, t2⟩ := iterM_seq (step := optStepR P N R lam solve V)
      (P := fun q : OptState ℝ × Fac ℝ => q.1 = .simple ∧ Shaped (fun _ : Fin N => s) R V q.2.W ∧ Shaped (fun _ : Fin N => s) R V q.2.G)
      (R := fun q q' => ∃ l : List (Fin N), l.length = N ∧ (∀ j, j ∈ l) ∧
        Spec.RoundedRun (fun _ => s) R lam solve (arr V N) (errBound eps B N) (errBound eps B N) (errBound eps B (N + 2)) l
          (facs N q.2) (facs N q'.2)) (s := (.simple, f)) (by
      rintro ⟨o, g⟩ ⟨rfl, gS, gG⟩
      obtain ⟨g', a1, a2, a3, a4⟩ := simpleStepR_ok hPr hu hB (by omega) h10 hs hR gS gG.count lam solve
      simp only [errBound_eq] at a4
      exact ⟨(.simple, g'), by simp [optStepR, a1, bind, Except.bind, pure, Except.pure],
        ⟨rfl, a2, simpleStepR_G hPr hu hB (by omega) h10 hs hR gS gG a1⟩, _, by simp, fun j => by simp, a4⟩) ⟨rfl, hS, hG⟩
    refine ⟨.simple, tr, rfl, t0, t1, fun k => (t2 k).1.2, fun k => ?_⟩
    simpa [unitSteps, unitUpdates] using (t2 k).2
  · obtain ⟨o0, h0, hg, hf, hs0, h1, h2⟩ := dtInit_ok h3 hN
    obtain ⟨tr, t0, t1, t2⟩ := iterM_seq (step := optStepR P N R lam solve V)
      (P := fun q : OptState ℝ × Fac ℝ => (∃ o, q.1 = .dt o ∧ DTGood o N) ∧ Shaped dims R V q.2.W ∧ Shaped dims R V q.2.G)
      (R := fun _ _ => True) (s := (.dt o0, f)) (by
      rintro ⟨o', g⟩ ⟨⟨o, rfl, go⟩, gS, gG⟩
      obtain ⟨g', a1, a2, a3, a4⟩ := dtStepR_ok hPr hu hB h3 hN hd hR go gS gG.count lam solve
      exact ⟨(.dt { o with first := !o.first }, g'), by simp [optStepR, a1, bind, Except.bind, pure, Except.pure],
        ⟨⟨_, rfl, go.l1, go.l2, go.i1, go.i2, go.sp, go.tree⟩, a2, dtStepR_G hPr hu hB h3 hN hd hR go gS gG a1⟩, trivial⟩)
      ⟨⟨o0, rfl, hg⟩, hS, hG⟩
    have hmap : ∀ k x, iterM (optStepR P N R lam solve V) k (.dt x.1, x.2) =
        (iterM (dtStepR P N R lam solve V) k x).map fun g => ((.dt g.1 : OptState ℝ), g.2) := fun k x =>
      iterM_map (s1 := dtStepR P N R lam solve V) (s2 := optStepR P N R lam solve V) (fun g => ((.dt g.1 : OptState ℝ), g.2)) (fun x => by
        obtain ⟨x1, x2⟩ := x
        simp only [optStepR, bind, Except.bind, Except.map]
        cases dtStepR P N R lam solve V (x1, x2) <;> rfl) k x
    have step : ∀ k, (tr (2 * k)).1 = .dt o0 → (tr (2 * (k + 1))).1 = .dt o0 ∧
        Spec.RoundedRun dims R lam solve (arr V N) (errBound eps B N) (errBound eps B N) (errBound eps B (N + 2)) (List.finRange N)
          (facs N (tr (2 * k)).2) (facs N (tr (2 * (k + 1))).2) := by
      intro k hk
      obtain ⟨f', a1, a2, a3, a4⟩ := dt_two_stepsR hPr hu hB h3 hN hd hR hg hf hs0 h1 h2 (t2 (2 * k)).1.2.1 (t2 (2 * k)).1.2.2.count lam solve
      have e := t1 (2 * (k + 1))
      rw [show 2 * (k + 1) = 2 * k + 2 by ring, iterM_add, t1] at e
      have e2 := hmap 2 (o0, (tr (2 * k)).2)
      rw [a1] at e2
      simp only at e2
      rw [← hk] at e2
      have e3 : tr (2 * k + 2) = (.dt o0, f') := Except.ok.inj (e.symm.trans e2)
      rw [show 2 * (k + 1) = 2 * k + 2 by ring, e3]
      simp only [errBound_eq] at a4
      exact ⟨rfl, RoundedRun.mono (errBound_mono he B (by omega)) a4⟩
    have hev : ∀ k, (tr (2 * k)).1 = .dt o0 := by
      intro k
      induction k with
      | zero => rw [Nat.mul_zero, t0]
      | succ k ih => exact (step k ih).1
    refine ⟨.dt o0, tr, by simp [optInit, h0, bind, Except.bind, pure, Except.pure], t0, t1, fun k => (t2 k).1.2, fun k => ?_⟩
    exact ⟨List.finRange N, by simp [unitUpdates], fun j => by simp, (step k (hev k)).2⟩
  · obtain ⟨o0, h0, hl0, ht⟩ := msdtInit_ok h3 hN
    obtain ⟨tr, t0, t1, t2⟩ := iterM_seq (step := optStepR P N R lam solve V)
      (P := fun q : OptState ℝ × Fac ℝ => (∃ o, q.1 = .msdt o ∧ GoodTree (N - 1) o.tree) ∧ Shaped dims R V q.2.W ∧ Shaped dims R V q.2.G)
      (R := fun _ _ => True) (s := (.msdt o0, f)) (by
      rintro ⟨o', g⟩ ⟨⟨o, rfl, go⟩, gS, gG⟩
      obtain ⟨o1, g', a1, _, a3, a4, a5, _⟩ := msdtStepR_ok hPr hu hB h3 hN hd hR go gS gG.count lam solve
      exact ⟨(.msdt o1, g'), by simp [optStepR, a1, bind, Except.bind, pure, Except.pure],
        ⟨⟨_, rfl, by rw [a3]; exact go⟩, a4, msdtStepR_G hPr hu hB h3 hN hd hR go gS gG a1⟩, trivial⟩)
      ⟨⟨o0, rfl, ht⟩, hS, hG⟩
    have hmap : ∀ k x, iterM (optStepR P N R lam solve V) k (.msdt x.1, x.2) =
        (iterM (msdtStepR P N R lam solve V) k x).map fun g => ((.msdt g.1 : OptState ℝ), g.2) := fun k x =>
      iterM_map (s1 := msdtStepR P N R lam solve V) (s2 := optStepR P N R lam solve V) (fun g => ((.msdt g.1 : OptState ℝ), g.2)) (fun x => by
        obtain ⟨x1, x2⟩ := x
        simp only [optStepR, bind, Except.bind, Except.map]
        cases msdtStepR P N R lam solve V (x1, x2) <;> rfl) k x
    refine ⟨.msdt o0, tr, by simp [optInit, h0, bind, Except.bind, pure, Except.pure], t0, t1, fun k => (t2 k).1.2, fun k => ?_⟩
    obtain ⟨⟨o, ho, hot⟩, gS, gG⟩ := (t2 (2 * k)).1
    obtain ⟨s', a1, _, l, b1, b2, b3⟩ := msdt_unit he hP h3 hN hB hd hR gS gG.count hot lam solve
    have e := t1 (2 * (k + 1))
    rw [show 2 * (k + 1) = 2 * k + 2 by ring, iterM_add, t1] at e
    have e2 := hmap 2 (o, (tr (2 * k)).2)
    rw [a1] at e2
    simp only at e2
    rw [← ho] at e2
    have e3 := Except.ok.inj (e.symm.trans e2)
    refine ⟨l, b1, b2, ?_⟩
    simp only [unitSteps]
    rw [show 2 * (k + 1) = 2 * k + 2 by ring, e3]
    exact b3

theorem RoundedRun_stride {solve : Spec.Solver ℝ} {A : (Fin N → ℕ) → ℝ} {a b c : ℝ} {st : ℕ → Spec.AlsState N ℝ} {n : ℕ}
    (h : ∀ k, ∃ l : List (Fin N), l.length = n ∧ (∀ j, j ∈ l) ∧ Spec.RoundedRun dims R lam solve A a b c l (st k) (st (k + 1))) (s k : ℕ) :
    ∃ l : List (Fin N), l.length = s * n ∧ (1 ≤ s → ∀ j, j ∈ l) ∧ Spec.RoundedRun dims R lam solve A a b c l (st k) (st (k + s)) := by
  induction s with
  | zero => exact ⟨[], by simp, by omega, .nil _⟩
  | succ s ih =>
    obtain ⟨l, l1, _, l2⟩ := ih
    obtain ⟨l', m1, m2, m3⟩ := h (k + s)
    exact ⟨l ++ l', by rw [List.length_append, l1, m1]; ring, fun _ j => List.mem_append.2 (.inr (m2 j)), RoundedRun.append l2 m3⟩

/-- The level to which the squared norm of the recorded gradients falls within `m` tests, `n` updates apart. -/
noncomputable def testLevel (eps eta : ℝ) (B : ℕ) (dims : Fin N → ℕ) (R : ℕ) (lam : ℝ) (V : Tensor ℝ) (f : Fac ℝ) (n m : ℕ) (F : ℝ) : ℝ :=
  2 * (Spec.gramSize N lam F + R * lam) * (objAt dims R lam V f / m + n * lossPerUpdate eps eta B dims lam V F) +
    n * (2 * Spec.gradNoise dims lam (arr V N) (errBound eps B (N + 2)) F)

/-- **C85.** `als` in floating-point arithmetic with the plain, DT or MSDT optimizer, `lam > 0`, any evaluation order of the contractions with unit
roundoff `eps`, any backward stable solver, rounded scalar operations and norms.  Suppose the precision suffices for `m` groups of
`|resprint| · unitUpdates` updates, the tolerance exceeds the level of `testLevel` (a term of order `1/m` plus the rounding errors) and the sweep limit
allows for these steps.  Then `als` stops by its tolerance: it returns `true` after at most `|resprint| · unitSteps · m` steps, the computed gradient
norm of the final state is below `tol`, and so is the exact one up to the relative error of its computation. -/
theorem C85_als (he : 0 ≤ eps) (het : 0 ≤ eta) {P : Arith} (hP : FlEval eps P) {kind : OptKind} (hk : kind = .simple ∨ kind = .dt ∨ kind = .msdt)
    (hfit : OptFits kind dims) (hB : 1 ≤ B) (hd : ∀ j, dims j ≤ B) (hR : R ≤ B) {V : Tensor ℝ} {f : Fac ℝ} (hS : Shaped dims R V f.W)
    (hG : Shaped dims R V f.G) (hl : 0 < lam) {solve : Spec.Solver ℝ} (hs : Spec.SolvesBack eta solve)
    {rnd : ℝ → ℝ} (hr : ∀ x, |rnd x - x| ≤ eps * |x|) {nrm : Tensor ℝ → ℝ} (hnu : 0 ≤ nu) (hn : ∀ T, |nrm T - norm2 T| ≤ nu * norm2 T)
    {a : AlsArgs} (hres : a.resprint ≠ 0) {clock : ℕ → ℝ} (hcl : ∀ k, clock k ≤ a.timelimit) {m : ℕ} (hm : 1 ≤ m) {F : ℝ}
    (hF : Precise eps eta B dims R lam V f (a.resprint.natAbs * unitUpdates N kind) m F) (ht : 0 < a.tol)
    (htol : ((1 + eps) ^ (N + 2) * (1 + nu)) ^ 2 * testLevel eps eta B dims R lam V f (a.resprint.natAbs * unitUpdates N kind) m F < a.tol ^ 2)
    (hmax : ((a.resprint.natAbs * unitSteps kind * m : ℕ) : ℤ) ≤ a.maxsweep) {fuel : ℕ} (hfu : stepLimit N a.maxsweep kind < fuel) :
    ∃ o0 r g, optInit ℝ N kind = .ok o0 ∧ cpdAlsR kind P rnd nrm N R lam solve V a clock fuel (o0, f) = .ok r ∧ r.ret = true ∧
      r.iters ≤ a.resprint.natAbs * unitSteps kind * m ∧ iterM (optStepR P N R lam solve V) r.iters (o0, f) = .ok r.st ∧
      gradnormR rnd nrm r.st.2.G N = .ok g ∧ g < a.tol ∧
      (eps ≤ 1 → nu ≤ 1 → (1 - eps) ^ (N + 2) * (1 - nu) * Real.sqrt (recordedSq dims R r.st.2) < a.tol) := by
  obtain ⟨o0, tr, h0, t0, t1, t2, t3⟩ := optR_run he hP hk hfit hB hd hR hS hG lam solve
  have hg : ∀ k, ∃ g, gradnormR rnd nrm (tr k).2.G N = .ok g ∧ g ≤ (1 + eps) ^ (N + 2) * (1 + nu) * Real.sqrt (recordedSq dims R (tr k).2) ∧
      (eps ≤ 1 → nu ≤ 1 → (1 - eps) ^ (N + 2) * (1 - nu) * Real.sqrt (recordedSq dims R (tr k).2) ≤ g) :=
    fun k => C85_gradnorm he hr hnu hn (t2 k).2
  choose g g1 g2 g3 using hg
  have hD : ∀ k, ∃ D, diffVR P V (tr k).2.W N = .ok D := by
    intro k
    obtain ⟨r, h, _⟩ := C68_residual he hP (by have := hfit.lo; omega) hfit.hi hB hd hR (t2 k).1
    unfold residualR at h
    obtain ⟨D, hD, _⟩ := bind_ok h
    exact ⟨D, hD⟩
  choose D hD using hD
  have hc : ∀ k, cpdCheckR P rnd nrm N V (tr k) = .ok (g k, nrm (D k)) := by
    intro k
    simp [cpdCheckR, g1, hD, bind, Except.bind, pure, Except.pure]
  obtain ⟨r, r1, H⟩ := als_ok (a := a) (clock := clock) (stepSweeps_pos hfit.lo kind) hres t1 hc
    (fuel := fuel) (by rw [alsBound_kind hfit.lo]; exact hfu)
  have hs1 : 1 ≤ a.resprint.natAbs := Int.natAbs_pos.2 hres
  set s := a.resprint.natAbs with hsdef
  have hrun : ∀ k, ∃ l : List (Fin N), l.length = s * unitUpdates N kind ∧ (∀ j, j ∈ l) ∧
      Spec.RoundedRun dims R lam solve (arr V N) (errBound eps B N) (errBound eps B N) (errBound eps B (N + 2)) l
        (facs N (tr (unitSteps kind * (s * k))).2) (facs N (tr (unitSteps kind * (s * (k + 1)))).2) := by
    intro k
    obtain ⟨l, l1, l2, l3⟩ := RoundedRun_stride (st := fun k => facs N (tr (unitSteps kind * k)).2) t3 s (s * k)
    exact ⟨l, l1, l2 hs1, by rw [Nat.mul_add s k 1, Nat.mul_one]; exact l3⟩
  choose ls l1 l2 l3 using hrun
  obtain ⟨_, _, hfl⟩ := float_units (fs := fun k => (tr (unitSteps kind * (s * k))).2) (by have := hfit.lo; omega) he het hl hs l1 l2 l3
    (m := m) (F := F) (by simp only [Nat.mul_zero, t0]; exact hF)
  obtain ⟨k, k1, k2, k3⟩ := hfl hm
  simp only [Nat.mul_zero, t0] at k3
  set q := unitSteps kind * (s * k) with hq
  have hq2 : q ≤ s * unitSteps kind * m := by
    rw [hq, ← Nat.mul_assoc, Nat.mul_comm (unitSteps kind) s]
    exact Nat.mul_le_mul_left _ k2
  have hlow : g q < a.tol := by
    have hc0 : 0 ≤ (1 + eps) ^ (N + 2) * (1 + nu) := by positivity
    have h1 : Real.sqrt (recordedSq dims R (tr q).2) ^ 2 ≤ testLevel eps eta B dims R lam V f (s * unitUpdates N kind) m F := by
      rw [Real.sq_sqrt (show 0 ≤ recordedSq dims R (tr q).2 from sum_nonneg fun j _ => sum_nonneg fun x _ => sum_nonneg fun r _ => mul_self_nonneg _)]
      exact k3
    have h2 := mul_le_mul_of_nonneg_left h1 (sq_nonneg ((1 + eps) ^ (N + 2) * (1 + nu)))
    rw [← mul_pow] at h2
    exact lt_of_le_of_lt (g2 q) (lt_of_pow_lt_pow_left₀ 2 ht.le (h2.trans_lt htol))
  have hm0 : -1 ≤ a.maxsweep := by omega
  have hlt : s * unitSteps kind * m < alsBound a.maxsweep (stepSweeps N kind) := by
    rw [alsBound_kind hfit.lo]
    have h1 := stepLimit_ge hfit.lo hm0 (kind := kind)
    have h2 : ((s * unitSteps kind * m : ℕ) : ℝ) ≤ a.maxsweep := by exact_mod_cast hmax
    have : ((s * unitSteps kind * m : ℕ) : ℝ) < stepLimit N a.maxsweep kind := by linarith
    exact_mod_cast this
  have hstop : Stops a (stepSweeps N kind) clock q (g q, nrm (D q)).1 := by
    refine ⟨.inl ?_, .inl hlow⟩
    rw [← Int.dvd_iff_tmod_eq_zero, hq, ← Nat.mul_assoc, Nat.mul_comm (unitSteps kind) s, Nat.mul_assoc]
    push_cast
    exact Dvd.dvd.mul_right (by simp [hsdef]) _
  have hle : r.iters ≤ q := by
    by_contra hcon
    exact H.before _ (not_le.1 hcon) hstop
  have hbr : r.broke = true := by
    by_contra hne
    have := H.atEnd (by simpa using hne)
    omega
  obtain ⟨hb1, _, hb2⟩ := H.atBreak hbr
  have hb3 : g r.iters < a.tol := by
    rcases hb2 with h | h
    · exact h
    · exact absurd h (not_lt.2 (hcl _))
  refine ⟨o0, r, g r.iters, h0, r1, ?_, hle.trans hq2, by rw [H.state]; exact t1 _, by rw [H.state]; exact g1 _, hb3, fun e1 e2 => ?_⟩
  · rw [H.ret, decide_eq_true_iff]
    have hpos := stepSweeps_pos hfit.lo kind
    have := (floor_le_iff (m := a.maxsweep) hpos r.iters).2 hb1
    rw [← H.sweeps] at this
    intro he
    rw [he] at this
    have h2 : ((a.maxsweep : ℚ) + 1) = ((a.maxsweep + 1 : ℤ) : ℚ) := by push_cast; ring
    rw [h2, Int.floor_intCast] at this
    omega
  · rw [H.state]
    exact (g3 _ e1 e2).trans_lt hb3

theorem level_m {T X t m : ℝ} (ht : 0 < t) (hm : 0 < m) (h : 32 * T * X / t < m) : 2 * T * (X / m) ≤ t / 16 := by
  rw [div_lt_iff₀ ht] at h
  rw [← mul_div_assoc, div_le_iff₀ hm]
  nlinarith

theorem level_loss {T L t : ℝ} (hT : 0 ≤ T) (hL : 0 ≤ L) (h : L ≤ t / (32 * (1 + T))) : 2 * T * L ≤ t / 16 := by
  rw [le_div_iff₀ (by positivity)] at h
  nlinarith

theorem level_sq {c X t : ℝ} (hc : 0 ≤ c) (hc1 : c ≤ 1) (hX : 0 ≤ X) (h : c ≤ t / (64 * (1 + X))) : c ^ 2 * (1 + X) ≤ t / 64 := by
  rw [le_div_iff₀ (by positivity)] at h
  have h3 : c ^ 2 ≤ c := by nlinarith
  nlinarith

/-- **C85 (precision).** For every problem, start and tolerance there are a number of tests and a precision with which the hypotheses of `C85_als` on
precision and tolerance hold. -/
theorem C85_precision (hB : 1 ≤ B) (hl : 0 < lam) (V : Tensor ℝ) (f : Fac ℝ) (n : ℕ) {tol : ℝ} (ht : 0 < tol) :
    ∃ m, 1 ≤ m ∧ ∃ p : ℝ, 0 < p ∧ p ≤ 1 ∧ ∀ eps eta nu, 0 ≤ eps → eps ≤ p → 0 ≤ eta → eta ≤ p → 0 ≤ nu → nu ≤ p →
      Precise eps eta B dims R lam V f n m (objAt dims R lam V f + 1) ∧
      ((1 + eps) ^ (N + 2) * (1 + nu)) ^ 2 * testLevel eps eta B dims R lam V f n m (objAt dims R lam V f + 1) < tol ^ 2 := by
  have hf0 : 0 ≤ objAt dims R lam V f := Spec.fullObj2_nonneg hl.le
  set F := objAt dims R lam V f + 1 with hF
  have hF0 : 0 ≤ F := by linarith
  have hT : 0 ≤ Spec.gramSize N lam F + R * lam :=
    add_nonneg (pow_nonneg (div_nonneg hF0 hl.le) _) (mul_nonneg (Nat.cast_nonneg _) hl.le)
  have hQ : 0 ≤ (∑ idx ∈ Spec.Box dims, arr V N idx ^ 2) * Spec.gramSize N lam F + (Spec.gramSize N lam F + lam) ^ 2 * (F / lam) :=
    add_nonneg (mul_nonneg (sum_nonneg fun _ _ => sq_nonneg _) (pow_nonneg (div_nonneg hF0 hl.le) _))
      (mul_nonneg (sq_nonneg _) (div_nonneg hF0 hl.le))
  set Q := (∑ idx ∈ Spec.Box dims, arr V N idx ^ 2) * Spec.gramSize N lam F + (Spec.gramSize N lam F + lam) ^ 2 * (F / lam) with hQdef
  have ht2 : 0 < tol ^ 2 := by positivity
  obtain ⟨m, hm⟩ := exists_nat_gt (32 * (Spec.gramSize N lam F + R * lam) * objAt dims R lam V f / tol ^ 2)
  have hm0 : (0 : ℝ) < m := lt_of_le_of_lt (div_nonneg (by positivity) ht2.le) hm
  have hm1 : 1 ≤ m := by
    have : (0 : ℕ) < m := by exact_mod_cast hm0
    omega
  obtain ⟨p1, hp1, H1⟩ := C81_precision (B := B) (dims := dims) (R := R) hl V f n m
    (δ := tol ^ 2 / (32 * (1 + (Spec.gramSize N lam F + R * lam)))) (by positivity)
  obtain ⟨p2, hp2, H2⟩ := eqErr_small B (N + 2) (d := min 1 (tol ^ 2 / (64 * (1 + n * Q)))) (lt_min one_pos (by positivity))
  refine ⟨m, hm1, min 1 (min p1 p2), lt_min one_pos (lt_min hp1 hp2), min_le_left _ _, fun eps eta nu e0 e1 t0 t1 n0 n1 => ?_⟩
  obtain ⟨a1, a2⟩ := H1 eps eta e0 (e1.trans ((min_le_right _ _).trans (min_le_left _ _))) t0 (t1.trans ((min_le_right _ _).trans (min_le_left _ _)))
  refine ⟨a1, ?_⟩
  have hc := (eqErr_mono e0 n0 (e1.trans ((min_le_right _ _).trans (min_le_right _ _))) (n1.trans ((min_le_right _ _).trans (min_le_right _ _))) B (N + 2)).trans H2
  have hb0 := errBound_nonneg e0 B (N + 2)
  have hcb : errBound eps B (N + 2) ≤ eqErr eps nu B (N + 2) := by
    unfold eqErr
    nlinarith
  have c1 : (1 + eps) ^ (N + 2) * (1 + nu) ≤ 2 := by
    have h1 : (1 + eps) ^ (N + 2) ≤ 1 + errBound eps B (N + 2) := by
      unfold errBound
      have : (1 + eps) ^ (N + 2) ≤ (1 + eps) ^ ((B + 1) * (N + 2)) := pow_le_pow_right₀ (by linarith) (Nat.le_mul_of_pos_left _ (by omega))
      linarith
    have h2 := mul_le_mul_of_nonneg_right h1 (show 0 ≤ 1 + nu by linarith)
    have h3 := hc.trans (min_le_left _ _)
    unfold eqErr at h3
    linarith
  have c2 : errBound eps B (N + 2) ^ 2 * (1 + n * Q) ≤ tol ^ 2 / 64 := by
    have h1 := hcb.trans (hc.trans (min_le_right _ _))
    have h2 := hcb.trans (hc.trans (min_le_left _ _))
    have hnQ : 0 ≤ (n : ℝ) * Q := mul_nonneg (Nat.cast_nonneg _) hQ
    exact level_sq hb0 h2 hnQ h1
  have hnoise : (n : ℝ) * (2 * Spec.gradNoise dims lam (arr V N) (errBound eps B (N + 2)) F) ≤ tol ^ 2 / 16 := by
    have : (n : ℝ) * (2 * Spec.gradNoise dims lam (arr V N) (errBound eps B (N + 2)) F) = 4 * (errBound eps B (N + 2) ^ 2 * (n * Q)) := by
      unfold Spec.gradNoise
      rw [← hQdef]
      ring
    rw [this]
    nlinarith [sq_nonneg (errBound eps B (N + 2))]
  have hlevel : testLevel eps eta B dims R lam V f n m F ≤ 3 * tol ^ 2 / 16 := by
    unfold testLevel
    have h1 := level_m ht2 hm0 hm
    have h2 : 2 * (Spec.gramSize N lam F + R * lam) * (n * lossPerUpdate eps eta B dims lam V F) ≤ tol ^ 2 / 16 :=
      level_loss hT (mul_nonneg (Nat.cast_nonneg n) (Spec.updateLoss_nonneg hl hF0 _)) a2
    rw [mul_add]
    linarith
  have hlev0 : 0 ≤ testLevel eps eta B dims R lam V f n m F := by
    unfold testLevel
    have hL : 0 ≤ (n : ℝ) * lossPerUpdate eps eta B dims lam V F := mul_nonneg (Nat.cast_nonneg _) (Spec.updateLoss_nonneg hl hF0 _)
    have h1 : 0 ≤ objAt dims R lam V f / m := div_nonneg hf0 hm0.le
    have h2 : 0 ≤ Spec.gradNoise dims lam (arr V N) (errBound eps B (N + 2)) F := mul_nonneg (by positivity) hQ
    positivity
  have hc0 : 0 ≤ (1 + eps) ^ (N + 2) * (1 + nu) := by positivity
  have h4 : ((1 + eps) ^ (N + 2) * (1 + nu)) ^ 2 ≤ 4 := by nlinarith
  have := mul_le_mul h4 hlevel hlev0 (by norm_num)
  linarith

/-- **C85 (any tolerance).** For every regularised problem, every start, every `tol > 0` and every `resprint ≠ 0` there are a number of steps `k` and a
precision `p > 0` such that `als`, in any arithmetic at least that precise and with any sweep limit from `k` on, stops by its tolerance within `k`
steps and returns `true`, unless the time limit interferes. -/
theorem C85_any_tolerance {kind : OptKind} (hk : kind = .simple ∨ kind = .dt ∨ kind = .msdt)
    (hfit : OptFits kind dims) (hB : 1 ≤ B) (hd : ∀ j, dims j ≤ B) (hR : R ≤ B) {V : Tensor ℝ} {f : Fac ℝ} (hS : Shaped dims R V f.W)
    (hG : Shaped dims R V f.G) (hl : 0 < lam) {tol : ℝ} (ht : 0 < tol) {resprint : ℤ} (hres : resprint ≠ 0) :
    ∃ (k : ℕ) (p : ℝ), 0 < p ∧ ∀ (eps eta nu : ℝ), 0 ≤ eps → eps ≤ p → 0 ≤ eta → eta ≤ p → 0 ≤ nu → nu ≤ p →
      ∀ (P : Arith) (solve : Spec.Solver ℝ) (rnd : ℝ → ℝ) (nrm : Tensor ℝ → ℝ), FlEval eps P → Spec.SolvesBack eta solve →
      (∀ x, |rnd x - x| ≤ eps * |x|) → (∀ T, |nrm T - norm2 T| ≤ nu * norm2 T) →
      ∀ (maxsweep : ℤ) (timelimit : ℝ) (clock : ℕ → ℝ) (fuel : ℕ), (k : ℤ) ≤ maxsweep → (∀ i, clock i ≤ timelimit) →
      stepLimit N maxsweep kind < fuel →
      ∃ o0 r g, optInit ℝ N kind = .ok o0 ∧
        cpdAlsR kind P rnd nrm N R lam solve V ⟨tol, timelimit, maxsweep, resprint⟩ clock fuel (o0, f) = .ok r ∧ r.ret = true ∧ r.iters ≤ k ∧
        gradnormR rnd nrm r.st.2.G N = .ok g ∧ g < tol := by
  obtain ⟨m, hm, p, hp, _, H⟩ := C85_precision (dims := dims) (R := R) hB hl V f (resprint.natAbs * unitUpdates N kind) ht
  refine ⟨resprint.natAbs * unitSteps kind * m, p, hp, fun eps eta nu e0 e1 t0 t1 n0 n1 P solve rnd nrm hP hs hr hn maxsweep timelimit clock fuel
    hmax hcl hfu => ?_⟩
  obtain ⟨h1, h2⟩ := H eps eta nu e0 e1 t0 t1 n0 n1
  obtain ⟨o0, r, g, a1, a2, a3, a4, _, a6, a7, _⟩ := C85_als e0 t0 hP hk hfit hB hd hR hS hG hl hs hr n0 hn
    (a := ⟨tol, timelimit, maxsweep, resprint⟩) hres hcl hm h1 ht h2 hmax hfu
  exact ⟨o0, r, g, a1, a2, a3, a4, a6, a7⟩

/-! Non-vacuity: the order-4 problem of C68, MSDT, a test every 10 steps; a rounding arithmetic, rounded norms, a solver. -/

example : ∃ (k : ℕ) (p : ℝ) (solve : Spec.Solver ℝ), 0 < p ∧ ∃ o0 r g, optInit ℝ 4 .msdt = .ok o0 ∧
    cpdAlsR .msdt (seqArith fun x => x * (1 - p)) (fun x => x * (1 - p)) (fun T => norm2 T * (1 - p)) 4 2 3 solve exVR ⟨1 / 1000, 60, k, 10⟩ (fun _ => 0)
      (stepLimit 4 k .msdt + 1) (o0, exFacR) = .ok r ∧ r.ret = true ∧
    gradnormR (fun x => x * (1 - p)) (fun T => norm2 T * (1 - p)) r.st.2.G 4 = .ok g ∧ g < 1 / 1000 := by
  obtain ⟨solve, hs⟩ := exists_solvesBack
  obtain ⟨k, p, hp, H⟩ := C85_any_tolerance (.inr (.inr rfl)) exFits (B := 4) (by norm_num) exDims4 (by norm_num) exShapedR exFacR_G
    (lam := 3) (by norm_num) (tol := 1 / 1000) (by norm_num) (resprint := 10) (by norm_num)
  obtain ⟨o0, r, g, h1, h2, h3, _, h4, h5⟩ := H p 0 p hp.le le_rfl le_rfl hp.le hp.le le_rfl _ solve (fun x => x * (1 - p)) (fun T => norm2 T * (1 - p))
    (exFlEps hp.le) hs
    (fun x => by rw [show x * (1 - p) - x = -(p * x) by ring, abs_neg, abs_mul, abs_of_nonneg hp.le])
    (fun T => by
      rw [show norm2 T * (1 - p) - norm2 T = -(p * norm2 T) by ring, abs_neg, abs_mul, abs_of_nonneg hp.le, abs_of_nonneg (show 0 ≤ norm2 T from Real.sqrt_nonneg _)])
    k 60 (fun _ => 0) (stepLimit 4 k .msdt + 1) le_rfl (fun _ => by norm_num) (Nat.lt_succ_self _)
  exact ⟨k, p, solve, hp, o0, r, g, h1, h2, h3, h4, h5⟩

end Properties
