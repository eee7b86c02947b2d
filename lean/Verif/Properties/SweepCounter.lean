import Verif.Properties.AlsLoop
import Verif.Model.SweepCounter
import Verif.Proofs.Double
import Mathlib.Tactic.IntervalCases

/-! # C88: the sweep counter of `CPD::als` is a `double` -/

namespace Properties

open Model

variable {N : ℕ} {fl : ℚ → ℚ}

/-! ## exact counters -/

/-- If every sum the counter passes through is exact, the two loops are the same. -/
theorem alsLoopD_eq {σ : Type} {a : AlsArgs} {step : σ → Except Fault σ} {inc : ℚ} {check : σ → Except Fault (ℝ × ℝ)}
    {clock : ℕ → ℝ} (h : ∀ k : ℕ, ⌊(k : ℚ) * inc⌋ ≤ a.maxsweep → fl ((k : ℚ) * inc + inc) = ((k + 1 : ℕ) : ℚ) * inc) :
    ∀ (fuel k : ℕ) (st : σ) (rows : List AlsRow),
      alsLoopD fl a step inc check clock fuel k (k * inc) st rows = alsLoop a step inc check clock fuel k (k * inc) st rows := by
  intro fuel
  induction fuel with
  | zero => intro k st rows; rfl
  | succ fuel ih =>
    intro k st rows
    unfold alsLoopD alsLoop
    by_cases h1 : ⌊(k : ℚ) * inc⌋ ≤ a.maxsweep
    · have e : fl ((k : ℚ) * inc + inc) = ((k + 1 : ℕ) : ℚ) * inc := h k h1
      have e' : (k : ℚ) * inc + inc = ((k + 1 : ℕ) : ℚ) * inc := by push_cast; ring
      simp only [if_pos h1, e]
      simp only [e', ih]
    · simp only [if_neg h1]

/-- **C88 (where the counter is exact).** For the plain, DT and low-rank DT optimizers, and for the multi-sweep optimizers if the order
is a power of two, `als` with its `double` counter does exactly what it does with an exact counter: same steps, log and answer, in every
state and for every sweep limit an `int` can hold.  So the theorems about `als` (C18 - C20, C49) apply to it literally. -/
theorem C88_exact (hfl : Spec.Nearest fl) {kind : OptKind}
    (hk : kind = .simple ∨ kind = .dt ∨ kind = .dtlr ∨ ((kind = .msdt ∨ kind = .msdtlr) ∧ ∃ p, N = 2 ^ p ∧ p ≤ 20))
    (R : ℕ) (lam : ℝ) (solve : Spec.Solver ℝ) (q : ℕ) (lr : Spec.LowRank ℝ) (V : Tensor ℝ) {a : AlsArgs} (hm : a.maxsweep < 2 ^ 31)
    (clock : ℕ → ℝ) (fuel : ℕ) (s : OptState ℝ × Fac ℝ) :
    cpdAlsD fl kind N R lam solve q lr V a clock fuel s = cpdAls kind N R lam solve q lr V a clock fuel s := by
  -- multiples of `2 ^ (-p)` below `2 ^ 32` are `double`s
  have dbl : ∀ (m : ℤ) (p : ℕ), p ≤ 20 → 0 ≤ m → (m : ℚ) / 2 ^ p < 2 ^ 32 → fl ((m : ℚ) / 2 ^ p) = (m : ℚ) / 2 ^ p := by
    intro m p hp h0 hlt
    have hpp : (0 : ℚ) < 2 ^ p := by positivity
    have hm0 : (0 : ℚ) ≤ m := by exact_mod_cast h0
    refine hfl.exact ⟨m, -(p : ℤ), ?_, by omega, by omega, ?_⟩ ?_
    · rw [abs_of_nonneg h0]
      have h1 : (m : ℚ) < 2 ^ 32 * 2 ^ p := by rwa [div_lt_iff₀ hpp] at hlt
      have h2 : (2 : ℚ) ^ p ≤ 2 ^ 20 := pow_le_pow_right₀ (by norm_num) hp
      have h3 : (m : ℚ) < 2 ^ 53 := by nlinarith
      exact_mod_cast h3
    · rw [zpow_neg, zpow_natCast, div_eq_mul_inv]
    · rw [abs_of_nonneg (div_nonneg hm0 hpp.le)]
      have h4 : (2 : ℚ) ^ 32 ≤ (2 : ℚ) ^ (1023 : ℤ) := by
        rw [← zpow_natCast (2 : ℚ) 32]
        exact zpow_le_zpow_right₀ (by norm_num) (by norm_num)
      exact hlt.le.trans h4
  -- the increment is `c / 2 ^ p`
  obtain ⟨c, p, hp, hc0, hc1, hinc, hincD⟩ : ∃ (c : ℤ) (p : ℕ), p ≤ 20 ∧ 0 ≤ c ∧ c ≤ 2 ^ p ∧ stepSweeps N kind = (c : ℚ) / 2 ^ p ∧
      stepSweepsD fl N kind = stepSweeps N kind := by
    rcases hk with rfl | rfl | rfl | ⟨hk, p, rfl, hp⟩
    · exact ⟨1, 0, by omega, by omega, by norm_num, by norm_num [stepSweeps], rfl⟩
    · exact ⟨1, 1, by omega, by omega, by norm_num, by norm_num [stepSweeps], rfl⟩
    · exact ⟨1, 1, by omega, by omega, by norm_num, by norm_num [stepSweeps], rfl⟩
    · have e : (((2 ^ p : ℕ) : ℚ) - 1) / ((2 ^ p : ℕ) : ℚ) = ((2 ^ p - 1 : ℤ) : ℚ) / 2 ^ p := by push_cast; ring
      have h1 : (1 : ℤ) ≤ 2 ^ p := one_le_pow₀ (by norm_num)
      have hD : fl (((2 ^ p - 1 : ℤ) : ℚ) / 2 ^ p) = ((2 ^ p - 1 : ℤ) : ℚ) / 2 ^ p := by
        refine dbl _ p hp (by omega) ?_
        have hpp : (0 : ℚ) < 2 ^ p := by positivity
        rw [div_lt_iff₀ hpp]
        push_cast
        nlinarith
      refine ⟨2 ^ p - 1, p, hp, by omega, by omega, ?_, ?_⟩
      · rcases hk with rfl | rfl <;> exact e
      · rcases hk with rfl | rfl <;> simp only [stepSweepsD, stepSweeps] <;> rw [e, hD]
  have key := alsLoopD_eq (fl := fl) (a := a) (step := optStep N R lam solve q lr V) (inc := stepSweeps N kind)
    (check := cpdCheck N V) (clock := clock) (fun k hkm => by
      have hpp : (0 : ℚ) < 2 ^ p := by positivity
      have e : (k : ℚ) * stepSweeps N kind + stepSweeps N kind = (((k + 1 : ℕ) * c : ℤ) : ℚ) / 2 ^ p := by
        rw [hinc]; push_cast; ring
      have e2 : ((k + 1 : ℕ) : ℚ) * stepSweeps N kind = (((k + 1 : ℕ) * c : ℤ) : ℚ) / 2 ^ p := by
        rw [hinc]; push_cast; ring
      rw [e, e2]
      refine dbl _ p hp (by positivity) ?_
      rw [← e]
      have h1 : (k : ℚ) * stepSweeps N kind < a.maxsweep + 1 := by
        have := Int.lt_floor_add_one ((k : ℚ) * stepSweeps N kind)
        have h' : ((⌊(k : ℚ) * stepSweeps N kind⌋ : ℤ) : ℚ) ≤ a.maxsweep := by exact_mod_cast hkm
        linarith
      have h2 : ((a.maxsweep : ℤ) : ℚ) + 1 ≤ 2 ^ 31 := by exact_mod_cast hm
      have h3 : stepSweeps N kind ≤ 1 := by
        rw [hinc, div_le_one hpp]
        exact_mod_cast hc1
      norm_num at h2 ⊢
      linarith) fuel 0 s []
  unfold cpdAlsD cpdAls als
  rw [hincD]
  simpa using key

/-! ## inexact counters -/

/-- The values of the counter. -/
def cntD (fl : ℚ → ℚ) (inc : ℚ) : ℕ → ℚ
  | 0 => 0
  | k + 1 => fl (cntD fl inc k + inc)

/-- The history of an execution of `als` with the counter values `cnt`, see `AlsHist`. -/
structure AlsHistD {σ : Type} (a : AlsArgs) (cnt : ℕ → ℚ) (clock : ℕ → ℝ) (tr : ℕ → σ) (c : ℕ → ℝ × ℝ) (r : AlsEnd σ) : Prop where
  state : r.st = tr r.iters
  sweeps : r.sweeps = cnt r.iters
  ret : r.ret = decide (¬ r.sweeps = (a.maxsweep : ℚ) + 1)
  inside : ∀ j < r.iters, ⌊cnt j⌋ ≤ a.maxsweep
  before : ∀ j < r.iters, ¬ (alsChecked a j (cnt j) ∧ ((c j).1 < a.tol ∨ a.timelimit < clock j))
  atBreak : r.broke = true → ⌊cnt r.iters⌋ ≤ a.maxsweep ∧ alsChecked a r.iters (cnt r.iters) ∧
    ((c r.iters).1 < a.tol ∨ a.timelimit < clock r.iters)
  atEnd : r.broke = false → a.maxsweep < ⌊cnt r.iters⌋

theorem alsLoopD_ok {σ : Type} {a : AlsArgs} {step : σ → Except Fault σ} {inc : ℚ} {check : σ → Except Fault (ℝ × ℝ)}
    {clock : ℕ → ℝ} {st : σ} {tr : ℕ → σ} {c : ℕ → ℝ × ℝ} {B : ℕ} (hB : a.maxsweep < ⌊cntD fl inc B⌋) (hres : a.resprint ≠ 0)
    (hstep : ∀ k, iterM step k st = .ok (tr k)) (hc : ∀ k, check (tr k) = .ok (c k)) :
    ∀ (fuel k : ℕ) (rows : List AlsRow), k ≤ B → B < k + fuel → (∀ j < k, ⌊cntD fl inc j⌋ ≤ a.maxsweep) →
      (∀ j < k, ¬ (alsChecked a j (cntD fl inc j) ∧ ((c j).1 < a.tol ∨ a.timelimit < clock j))) →
      ∃ r, alsLoopD fl a step inc check clock fuel k (cntD fl inc k) (tr k) rows = .ok r ∧
        AlsHistD a (cntD fl inc) clock tr c r := by
  intro fuel
  induction fuel with
  | zero => intro k rows h1 h2; omega
  | succ fuel ih =>
    intro k rows hk hf hin hb
    unfold alsLoopD
    by_cases hlt : ⌊cntD fl inc k⌋ ≤ a.maxsweep
    · rw [if_pos hlt, if_neg hres]
      have hkB : k ≠ B := fun h => by rw [h] at hlt; omega
      have hcont : ∀ rows, ¬ (alsChecked a k (cntD fl inc k) ∧ ((c k).1 < a.tol ∨ a.timelimit < clock k)) → ∃ r, (do
          let st' ← step (tr k)
          alsLoopD fl a step inc check clock fuel (k + 1) (fl (cntD fl inc k + inc)) st' rows) = .ok r ∧
            AlsHistD a (cntD fl inc) clock tr c r := by
        intro rows hns
        have ht' := hstep (k + 1)
        rw [iterM_succ_right', hstep k] at ht'
        simp only [bind, Except.bind] at ht' ⊢
        rw [ht']
        exact ih (k + 1) rows (by omega) (by omega)
          (fun j hj => by
            rcases Nat.lt_succ_iff_lt_or_eq.1 hj with h | h
            · exact hin j h
            · subst h; exact hlt)
          (fun j hj => by
            rcases Nat.lt_succ_iff_lt_or_eq.1 hj with h | h
            · exact hb j h
            · subst h; exact hns)
      by_cases hck : alsChecked a k (cntD fl inc k)
      · rw [if_pos hck, hc k]
        simp only [bind, Except.bind, pure, Except.pure]
        by_cases hst : (c k).1 < a.tol ∨ a.timelimit < clock k
        · rw [if_pos hst]
          exact ⟨_, rfl, rfl, rfl, by simp, hin, hb, fun _ => ⟨hlt, hck, hst⟩, fun h => by simp at h⟩
        · rw [if_neg hst]
          exact hcont _ (fun h => hst h.2)
      · rw [if_neg hck]
        exact hcont _ (fun h => hck h.1)
    · rw [if_neg hlt]
      exact ⟨_, rfl, rfl, rfl, by simp, hin, hb, fun h => by simp at h, fun _ => not_le.1 hlt⟩

/-- Everything about a call of `als` with a `double` counter, after `k0` earlier steps of a fresh optimizer. -/
theorem cpdAlsD_hist {kind : OptKind} {dims : Fin N → ℕ} (hfit : OptFits kind dims) {R : ℕ} {V : Tensor ℝ} {f : Fac ℝ}
    (hS : Shaped dims R V f.W) (hG : f.G.length = N) (lam : ℝ) (solve : Spec.Solver ℝ) (q : ℕ) (lr : Spec.LowRank ℝ)
    {a : AlsArgs} (hres : a.resprint ≠ 0) (clock : ℕ → ℝ) (k0 : ℕ) {B fuel : ℕ}
    (hB : a.maxsweep < ⌊cntD fl (stepSweepsD fl N kind) B⌋) (hf : B < fuel) :
    ∃ o0 s, optInit ℝ N kind = .ok o0 ∧ iterM (optStep N R lam solve q lr V) k0 (o0, f) = .ok s ∧
      ∃ (tr : ℕ → OptState ℝ × Fac ℝ) (c : ℕ → ℝ × ℝ) (r : AlsEnd (OptState ℝ × Fac ℝ)),
        (∀ k, iterM (optStep N R lam solve q lr V) k s = .ok (tr k)) ∧
        (∀ k, gradnorm (tr k).2.G N = .ok (c k).1 ∧ Model.residual V (tr k).2.W N = .ok (c k).2) ∧
        cpdAlsD fl kind N R lam solve q lr V a clock fuel s = .ok r ∧
        AlsHistD a (cntD fl (stepSweepsD fl N kind)) clock tr c r := by
  obtain ⟨o0, h0, h⟩ := opt_reach hfit hS hG lam solve q lr
  obtain ⟨s, hs, _⟩ := h k0
  choose T hT1 hT2 hT3 using h
  have htr : ∀ k, iterM (optStep N R lam solve q lr V) k s = .ok (T (k0 + k)) := by
    intro k
    have := hT1 (k0 + k)
    rw [iterM_add, hs] at this
    exact this
  have hg : ∀ k, ∃ g, gradnorm (T k).2.G N = .ok g := fun k => gradnorm_ok (hT3 k)
  have hr : ∀ k, ∃ g, Model.residual V (T k).2.W N = .ok g := fun k =>
    ⟨_, C16_residual (by have := hfit.lo; omega) hfit.hi (hT2 k)⟩
  choose g hg using hg
  choose d hd using hr
  have hc : ∀ k, cpdCheck N V (T (k0 + k)) = .ok (g (k0 + k), d (k0 + k)) := by
    intro k
    simp [cpdCheck, hg, hd, bind, Except.bind, pure, Except.pure]
  obtain ⟨r, r1, r2⟩ := alsLoopD_ok (a := a) (clock := clock) hB hres htr hc fuel 0 [] (Nat.zero_le _) (by omega)
    (by intro j hj; omega) (by intro j hj; omega)
  have e0 : T (k0 + 0) = s := by
    have := htr 0
    simp only [iterM] at this
    exact (Except.ok.inj this).symm
  rw [e0] at r1
  exact ⟨o0, s, h0, hs, _, _, r, htr, fun k => ⟨hg _, hd _⟩, r1, r2⟩

/-- The counter of a multi-sweep optimizer stays close to the number of sweeps made. -/
theorem cntD_near (hfl : Spec.Nearest fl) {inc0 : ℚ} (hh : 1 / 2 ≤ inc0) (h1 : inc0 ≤ 1) :
    ∀ k : ℕ, k ≤ 2 ^ 21 + 8 → |cntD fl (fl inc0) k - k * inc0| ≤ k / 2 ^ 31 := by
  have h0 : 0 ≤ inc0 := by linarith
  have hi : |fl inc0 - inc0| ≤ 1 / 2 ^ 54 := by
    have := hfl.err (j := 0) (by norm_num) (by norm_num) h0 (by simpa using h1)
    norm_num at this ⊢
    exact this
  intro k
  induction k with
  | zero => intro _; simp [cntD]
  | succ k ih =>
    intro hk
    have hk' := ih (by omega)
    have hkq : (k : ℚ) ≤ 2 ^ 21 + 7 := by
      have : k ≤ 2 ^ 21 + 7 := by omega
      exact_mod_cast this
    have hk0 : (0 : ℚ) ≤ k := Nat.cast_nonneg k
    have hki : (k : ℚ) * inc0 ≤ k := by nlinarith
    have hki0 : 0 ≤ (k : ℚ) * inc0 := mul_nonneg hk0 h0
    have a1 := abs_le.1 hk'
    have a2 := abs_le.1 hi
    have hkh : (k : ℚ) / 2 ≤ k * inc0 := by nlinarith
    rw [show ((k + 1 : ℕ) : ℚ) * inc0 = k * inc0 + inc0 by push_cast; ring, Nat.cast_succ]
    generalize hx : cntD fl (fl inc0) k = x at a1
    generalize fl inc0 = y at *
    rw [cntD, hx]
    generalize hz : (k : ℚ) * inc0 = z at *
    generalize (k : ℚ) = w at *
    have hpos : 0 ≤ x + y := by
      norm_num at a1 a2
      linarith
    have e := hfl.err (x := x + y) (j := 22) (by norm_num) (by norm_num) hpos (by
      norm_num at a1 a2 hkq ⊢
      linarith)
    norm_num at e
    have e := abs_le.1 e
    rw [abs_le]
    norm_num at *
    constructor <;> linarith

/-- **C88 (multi-sweep optimizers).** Any order `als` handles, any sweep limit below `2 ^ 20`, after any number of earlier steps: `als`
still returns, and its counter is within 1/100 of the number of sweeps made.  It makes at most as many steps as with an exact counter,
or one more, the latter only if `N-1` divides `maxsweep + 1`; it stops before the limit only if the gradient norm is below `tol` or the
time is up; and the answer `false` still means that the limit was reached. -/
theorem C88_msdt (hfl : Spec.Nearest fl) {kind : OptKind} (hk : kind = .msdt ∨ kind = .msdtlr) {dims : Fin N → ℕ}
    (hfit : OptFits kind dims) {R : ℕ} {V : Tensor ℝ} {f : Fac ℝ} (hS : Shaped dims R V f.W) (hG : f.G.length = N) (lam : ℝ)
    (solve : Spec.Solver ℝ) (q : ℕ) (lr : Spec.LowRank ℝ) {a : AlsArgs} (hres : a.resprint ≠ 0) (hm0 : 0 ≤ a.maxsweep)
    (hm : a.maxsweep < 2 ^ 20) (clock : ℕ → ℝ) (k0 : ℕ) {fuel : ℕ} (hf : stepLimit N a.maxsweep kind + 1 < fuel) :
    ∃ o0 s r, optInit ℝ N kind = .ok o0 ∧ iterM (optStep N R lam solve q lr V) k0 (o0, f) = .ok s ∧
      cpdAlsD fl kind N R lam solve q lr V a clock fuel s = .ok r ∧
      iterM (optStep N R lam solve q lr V) r.iters s = .ok r.st ∧
      |r.sweeps - r.iters * (((N : ℚ) - 1) / N)| < 1 / 100 ∧
      r.iters ≤ stepLimit N a.maxsweep kind + 1 ∧
      (r.iters = stepLimit N a.maxsweep kind + 1 → ((N : ℤ) - 1) ∣ a.maxsweep + 1) ∧
      (r.iters < stepLimit N a.maxsweep kind → ∃ g, gradnorm r.st.2.G N = .ok g ∧ (g < a.tol ∨ a.timelimit < clock r.iters)) ∧
      (r.ret = false → r.iters = stepLimit N a.maxsweep kind ∧ ((N : ℤ) - 1) ∣ a.maxsweep + 1) := by
  have h3 := hfit.lo
  have h18 := hfit.hi
  have hN3 : (3 : ℚ) ≤ N := by exact_mod_cast h3
  have hN18 : (N : ℚ) ≤ 18 := by exact_mod_cast h18
  have hN0 : (0 : ℚ) < N := by linarith
  obtain ⟨inc, hinc⟩ : ∃ inc, inc = ((N : ℚ) - 1) / N := ⟨_, rfl⟩
  have hD : stepSweepsD fl N kind = fl inc := by rw [hinc]; rcases hk with rfl | rfl <;> rfl
  have hE : stepSweeps N kind = inc := by rw [hinc]; rcases hk with rfl | rfl <;> rfl
  have hincN : inc * N = N - 1 := by rw [hinc]; field_simp
  have hi2 : 2 / 3 ≤ inc := by rw [hinc, le_div_iff₀ hN0]; linarith
  have hi1 : inc ≤ 1 := by rw [hinc, div_le_one hN0]; linarith
  obtain ⟨B, hB⟩ : ∃ B, B = stepLimit N a.maxsweep kind := ⟨_, rfl⟩
  have hBa : B = alsBound a.maxsweep inc := by rw [hB, ← alsBound_kind h3, hE]
  obtain ⟨M, hM⟩ : ∃ M : ℚ, M = (a.maxsweep : ℚ) + 1 := ⟨_, rfl⟩
  have hM1 : 1 ≤ M := by rw [hM]; have : (0 : ℚ) ≤ a.maxsweep := by exact_mod_cast hm0
                         linarith
  have hM2 : M ≤ 2 ^ 20 := by rw [hM]; have : (a.maxsweep : ℤ) + 1 ≤ 2 ^ 20 := by omega
                              exact_mod_cast this
  -- exact multiples of the increment against `M`
  have hlow : ∀ k : ℕ, k < B → (k : ℚ) * inc ≤ M - 1 / N := by
    intro k hkB
    rw [hBa] at hkB
    unfold alsBound at hkB
    rw [Nat.lt_ceil, lt_div_iff₀ (by linarith), ← hM] at hkB
    have e : (k : ℚ) * inc * N < M * N := mul_lt_mul_of_pos_right hkB hN0
    rw [mul_assoc, hincN, hM] at e
    have e' : (k : ℤ) * ((N : ℤ) - 1) < (a.maxsweep + 1) * N := by exact_mod_cast e
    have e'' : (k : ℤ) * ((N : ℤ) - 1) + 1 ≤ (a.maxsweep + 1) * N := e'
    have e3 : (k : ℚ) * ((N : ℚ) - 1) + 1 ≤ M * N := by rw [hM]; exact_mod_cast e''
    rw [le_sub_iff_add_le, ← mul_le_mul_iff_left₀ hN0, add_mul, mul_assoc, hincN, one_div, inv_mul_cancel₀ hN0.ne']
    exact e3
  have hBge : M ≤ B * inc := by
    rw [hBa]
    unfold alsBound
    rw [← hM, ← div_le_iff₀ (by linarith)]
    exact Nat.le_ceil _
  have hBle : (B : ℚ) ≤ 2 ^ 21 := by
    have h1 : (B : ℚ) < M / inc + 1 := by
      rw [hBa]
      unfold alsBound
      rw [← hM]
      exact Nat.ceil_lt_add_one (div_nonneg (by linarith) (by linarith))
    have h2 : M / inc ≤ M * (3 / 2) := by
      rw [div_le_iff₀ (by linarith)]
      nlinarith
    generalize (B : ℚ) = b at *
    norm_num at hM2 ⊢
    linarith
  have hBn : B ≤ 2 ^ 21 := by exact_mod_cast hBle
  -- the counter
  obtain ⟨cnt, hcnt⟩ : ∃ cnt, cnt = cntD fl (fl inc) := ⟨_, rfl⟩
  have near : ∀ k : ℕ, k ≤ B + 1 → |cnt k - k * inc| ≤ 1 / 500 := by
    intro k hkB
    have h1 := cntD_near hfl (by linarith : 1 / 2 ≤ inc) hi1 k (by omega)
    rw [← hcnt] at h1
    refine h1.trans ?_
    have : (k : ℚ) ≤ 2 ^ 21 + 1 := by
      have : k ≤ 2 ^ 21 + 1 := by omega
      exact_mod_cast this
    generalize (k : ℚ) = w at *
    norm_num at this ⊢
    linarith
  have hfl_iff : ∀ x : ℚ, ⌊x⌋ ≤ a.maxsweep ↔ x < M := by
    intro x
    rw [← Int.lt_add_one_iff, Int.floor_lt, hM]
    push_cast
    rfl
  have h118 : (1 : ℚ) / 18 ≤ 1 / N := one_div_le_one_div_of_le hN0 hN18
  have hend : M ≤ cnt (B + 1) := by
    have := abs_le.1 (near (B + 1) le_rfl)
    push_cast at this
    nlinarith [this.1]
  obtain ⟨o0, s, h0, hs, tr, c, r, htr, hc, hr, H⟩ := cpdAlsD_hist (fl := fl) hfit hS hG lam solve q lr hres clock k0
    (B := B + 1) (fuel := fuel) (by rw [hD, ← hcnt]; exact not_le.1 fun h => absurd ((hfl_iff _).1 h) (not_lt.2 hend))
    (by rw [hB]; exact hf)
  rw [hD, ← hcnt] at H
  rw [← hinc, ← hB]
  -- the limit is not passed before step `B`, and is passed at step `B` unless `B` steps are exactly `M` sweeps
  have hitB : r.iters ≤ B + 1 := by
    by_contra hgt
    have := (hfl_iff _).1 (H.inside (B + 1) (by omega))
    linarith
  have hdvd : ¬ (((N : ℤ) - 1) ∣ a.maxsweep + 1) → M + 1 / N ≤ B * inc := by
    intro hnd
    have hne : (B : ℚ) * inc * N ≠ M * N := by
      intro e
      apply hnd
      rw [mul_assoc, hincN, hM] at e
      have hz : (a.maxsweep + 1) * (N : ℤ) = B * ((N : ℤ) - 1) := by exact_mod_cast e.symm
      have hcop : IsCoprime ((N : ℤ) - 1) N := ⟨-1, 1, by ring⟩
      exact hcop.dvd_of_dvd_mul_right (Dvd.intro_left _ hz.symm)
    have hlt : M * N < B * inc * N := lt_of_le_of_ne (mul_le_mul_of_nonneg_right hBge hN0.le) (Ne.symm hne)
    rw [mul_assoc, hincN, hM] at hlt
    have h1 : (a.maxsweep + 1) * (N : ℤ) < B * ((N : ℤ) - 1) := by exact_mod_cast hlt
    have h2 : (a.maxsweep + 1) * (N : ℤ) + 1 ≤ B * ((N : ℤ) - 1) := h1
    have h3 : M * N + 1 ≤ (B : ℚ) * ((N : ℚ) - 1) := by rw [hM]; exact_mod_cast h2
    rw [← mul_le_mul_iff_left₀ hN0, add_mul, mul_assoc, hincN, one_div, inv_mul_cancel₀ hN0.ne']
    exact h3
  have hgtB : ¬ (((N : ℤ) - 1) ∣ a.maxsweep + 1) → M < cnt B := by
    intro hnd
    have h1 := hdvd hnd
    have := abs_le.1 (near B (by omega))
    linarith [this.1]
  have hltB : ∀ k, k < B → cnt k < M := by
    intro k hkB
    have h1 := hlow k hkB
    have := abs_le.1 (near k (by omega))
    linarith [this.2]
  have hlast : r.iters = B + 1 → ((N : ℤ) - 1) ∣ a.maxsweep + 1 := by
    intro e
    by_contra hnd
    have := (hfl_iff _).1 (H.inside B (by omega))
    linarith [hgtB hnd]
  refine ⟨o0, s, r, h0, hs, hr, by rw [H.state]; exact htr _, ?_, hitB, hlast, ?_, ?_⟩
  · rw [H.sweeps]
    exact lt_of_le_of_lt (near _ hitB) (by norm_num)
  · intro hlt
    have hbr : r.broke = true := by
      by_contra hne
      have h1 := H.atEnd (by simpa using hne)
      have := (hfl_iff _).2 (hltB _ hlt)
      omega
    exact ⟨_, by rw [H.state]; exact (hc _).1, (H.atBreak hbr).2.2⟩
  · intro hret
    rw [H.ret, decide_eq_false_iff_not, not_not, ← hM, H.sweeps] at hret
    have h1 : ¬ r.iters < B := fun h => by have := hltB _ h; linarith
    have h2 : r.iters ≠ B + 1 := by
      intro e
      rw [e] at hret
      have := abs_le.1 (near (B + 1) le_rfl)
      push_cast at this
      nlinarith [this.1]
    have h3 : r.iters = B := by omega
    refine ⟨h3, ?_⟩
    by_contra hnd
    have := hgtB hnd
    rw [h3] at hret
    linarith

/-- The first seven values of the counter at order 3, for every way of breaking ties. -/
theorem cnt_order3 (hfl : Spec.Nearest fl) :
    cntD fl (fl (2 / 3)) 6 = 9007199254740991 / 2 ^ 51 ∧ cntD fl (fl (2 / 3)) 7 = 5254199565265578 / 2 ^ 50 ∧
      ∀ k ≤ 5, cntD fl (fl (2 / 3)) k ≤ 7 / 2 := by
  have c0 : fl (2 / 3) = 6004799503160661 / 2 ^ 53 :=
    hfl.eq (m := 6004799503160661) (e := -53) (by norm_num) (by norm_num) (by norm_num) (by norm_num) (by norm_num) (by norm_num [abs_lt])
  have c1 : cntD fl (fl (2 / 3)) 1 = 6004799503160661 / 2 ^ 53 := by
    rw [cntD, cntD, c0]
    exact hfl.eq (m := 6004799503160661) (e := -53) (by norm_num) (by norm_num) (by norm_num) (by norm_num) (by norm_num)
      (by norm_num [abs_lt])
  have c2 : cntD fl (fl (2 / 3)) 2 = 6004799503160661 / 2 ^ 52 := by
    rw [cntD, c1, c0]
    exact hfl.eq (m := 6004799503160661) (e := -52) (by norm_num) (by norm_num) (by norm_num) (by norm_num) (by norm_num)
      (by norm_num [abs_lt])
  -- a tie: the third value is 2 or the number before it
  have c3 : 2 - 1 / 2 ^ 52 ≤ cntD fl (fl (2 / 3)) 3 ∧ cntD fl (fl (2 / 3)) 3 ≤ 2 := by
    rw [cntD, c2, c0]
    have h2 : Spec.IsDouble 2 := ⟨2, 0, by norm_num, by norm_num, by norm_num, by norm_num⟩
    have hx : |(6004799503160661 / 2 ^ 52 + 6004799503160661 / 2 ^ 53 : ℚ)| ≤ (2 : ℚ) ^ (1023 : ℤ) := by
      have h4 : (2 : ℚ) ^ 2 ≤ (2 : ℚ) ^ (1023 : ℤ) := by
        rw [← zpow_natCast (2 : ℚ) 2]
        exact zpow_le_zpow_right₀ (by norm_num) (by norm_num)
      refine le_trans ?_ h4
      norm_num
    have := hfl.nearest _ hx 2 h2
    rw [abs_le] at this
    norm_num at this ⊢
    constructor <;> linarith [this.1, this.2]
  have c4 : cntD fl (fl (2 / 3)) 4 = 6004799503160661 / 2 ^ 51 := by
    rw [cntD, c0]
    refine hfl.eq (m := 6004799503160661) (e := -51) (by norm_num) (by norm_num) (by norm_num) (by norm_num) (by norm_num) ?_
    rw [c0] at c3
    generalize cntD fl (6004799503160661 / 2 ^ 53) 3 = x at c3 ⊢
    rw [abs_lt]
    norm_num at c3 ⊢
    constructor <;> linarith [c3.1, c3.2]
  have c5 : cntD fl (fl (2 / 3)) 5 = 7505999378950826 / 2 ^ 51 := by
    rw [cntD, c4, c0]
    exact hfl.eq (m := 7505999378950826) (e := -51) (by norm_num) (by norm_num) (by norm_num) (by norm_num) (by norm_num)
      (by norm_num [abs_lt])
  have c6 : cntD fl (fl (2 / 3)) 6 = 9007199254740991 / 2 ^ 51 := by
    rw [cntD, c5, c0]
    exact hfl.eq (m := 9007199254740991) (e := -51) (by norm_num) (by norm_num) (by norm_num) (by norm_num) (by norm_num)
      (by norm_num [abs_lt])
  have c7 : cntD fl (fl (2 / 3)) 7 = 5254199565265578 / 2 ^ 50 := by
    rw [cntD, c6, c0]
    exact hfl.eq (m := 5254199565265578) (e := -50) (by norm_num) (by norm_num) (by norm_num) (by norm_num) (by norm_num)
      (by norm_num [abs_lt])
  refine ⟨c6, c7, fun k hk => ?_⟩
  interval_cases k
  · rw [cntD]; norm_num
  · rw [c1]; norm_num
  · rw [c2]; norm_num
  · linarith [c3.2]
  · rw [c4]; norm_num
  · rw [c5]; norm_num

/-- **C88 (violation).** Order 3, a multi-sweep optimizer, `maxsweep = 3`: six steps are four sweeps, but the counter then holds
3.9999999999999996.  So when neither the tolerance nor the time limit stops it, `als` makes a seventh step and answers `true`; with an
exact counter it would stop after six steps and answer `false`. -/
theorem C88_order3 (hfl : Spec.Nearest fl) {kind : OptKind} (hk : kind = .msdt ∨ kind = .msdtlr) {dims : Fin 3 → ℕ}
    {R : ℕ} {V : Tensor ℝ} {f : Fac ℝ} (hS : Shaped dims R V f.W) (hG : f.G.length = 3) (lam : ℝ)
    (solve : Spec.Solver ℝ) (q : ℕ) (lr : Spec.LowRank ℝ) {a : AlsArgs} (hres : a.resprint ≠ 0) (hm : a.maxsweep = 3)
    (htol : a.tol ≤ 0) {clock : ℕ → ℝ} (hclock : ∀ k, clock k ≤ a.timelimit) {fuel : ℕ} (hf : 7 < fuel) :
    ∃ o0 r r', optInit ℝ 3 kind = .ok o0 ∧
      cpdAlsD fl kind 3 R lam solve q lr V a clock fuel (o0, f) = .ok r ∧ r.iters = 7 ∧ r.ret = true ∧
      cpdAls kind 3 R lam solve q lr V a clock fuel (o0, f) = .ok r' ∧ r'.iters = 6 ∧ r'.ret = false := by
  have hfit : OptFits kind dims := ⟨le_rfl, by norm_num, fun h => by rcases hk with rfl | rfl <;> cases h⟩
  obtain ⟨c6, c7, c5⟩ := cnt_order3 hfl
  have hD : stepSweepsD fl 3 kind = fl (2 / 3) := by
    rcases hk with rfl | rfl <;> simp only [stepSweepsD] <;> norm_num
  have hE : stepSweeps 3 kind = 2 / 3 := by
    rcases hk with rfl | rfl <;> simp only [stepSweeps] <;> norm_num
  have hL : alsBound a.maxsweep (stepSweeps 3 kind) = 6 := by
    unfold alsBound
    rw [hE, hm]
    norm_num
  have hg : ∀ {G : List (Tensor ℝ)} {g : ℝ}, G.length = 3 → gradnorm G 3 = .ok g → 0 ≤ g := by
    intro G g hG h
    have := gradnorm_eq (N := 3) (G := G) (T := fun j => G.getD j ⟨[], fun _ => 0⟩) fun j hj => by
      rw [List.getD_eq_getElem?_getD, List.getElem?_eq_getElem (by omega)]
      rfl
    rw [this] at h
    rw [← Except.ok.inj h]
    exact Real.sqrt_nonneg _
  obtain ⟨o0, s, h0, hs, tr, c, r, htr, hc, hr, H⟩ := cpdAlsD_hist (fl := fl) hfit hS hG lam solve q lr hres clock 0
    (B := 7) (fuel := fuel) (by rw [hD, c7, hm]; rw [Int.lt_iff_add_one_le, Int.le_floor]; norm_num) hf
  obtain ⟨o0', s', h0', hs', tr', c', r', htr', hc', hr', H'⟩ := cpdAls_hist hfit hS hG lam solve q lr hres clock 0
    (fuel := fuel) (by rw [← alsBound_kind le_rfl, hL]; omega)
  rw [h0] at h0'
  cases h0'
  simp only [iterM] at hs hs'
  cases hs
  cases hs'
  rw [hD] at H
  refine ⟨o0, r, r', h0, hr, ?_⟩
  -- no state stops the loop
  obtain ⟨o1, h1, hreach⟩ := opt_reach hfit hS hG lam solve q lr
  rw [h0] at h1
  cases h1
  have hnn : ∀ k, 0 ≤ (c k).1 := by
    intro k
    obtain ⟨t, t1, _, t3⟩ := hreach k
    rw [htr k] at t1
    cases t1
    exact hg t3 (hc k).1
  have hnn' : ∀ k, 0 ≤ (c' k).1 := by
    intro k
    obtain ⟨t, t1, _, t3⟩ := hreach k
    rw [htr' k] at t1
    cases t1
    exact hg t3 (hc' k).1
  have hb : r.broke = false := by
    by_contra hne
    obtain ⟨-, -, h | h⟩ := H.atBreak (by simpa using hne)
    · linarith [hnn r.iters]
    · linarith [hclock r.iters]
  have hb' : r'.broke = false := by
    by_contra hne
    obtain ⟨-, -, h | h⟩ := H'.atBreak (by simpa using hne)
    · linarith [hnn' r'.iters]
    · linarith [hclock r'.iters]
  have hend := H.atEnd hb
  rw [hm, Int.lt_iff_add_one_le, Int.le_floor] at hend
  norm_num at hend
  have hit : r.iters = 7 := by
    rcases Nat.lt_or_ge r.iters 6 with h | h
    · have := c5 r.iters (by omega)
      linarith
    rcases Nat.lt_or_ge r.iters 8 with h8 | h8
    · have h67 : r.iters = 6 ∨ r.iters = 7 := by omega
      rcases h67 with h6 | h7
      · rw [h6, c6] at hend
        norm_num at hend
      · exact h7
    · have := H.inside 7 (by omega)
      rw [hm, c7, ← Int.lt_add_one_iff, Int.floor_lt] at this
      norm_num at this
  have hit' : r'.iters = 6 := by rw [H'.atEnd hb', hL]
  refine ⟨hit, ?_, hr', hit', ?_⟩
  · rw [H.ret, H.sweeps, hit, c7, hm]
    norm_num
  · rw [H'.ret, H'.sweeps, hit', hE, hm]
    norm_num

/-! ### the hypotheses are met -/

/-- A 2×1×2 tensor, rank 1. -/
noncomputable def exThreeV : Tensor ℝ := ⟨[2, 1, 2], fun idx => (idx.sum : ℝ) + 1⟩
noncomputable def exThreeW : List (Tensor ℝ) := [⟨[2, 1], fun _ => 1⟩, ⟨[1, 1], fun _ => 1⟩, ⟨[2, 1], fun _ => 1⟩]

theorem exThreeShaped : Shaped (N := 3) ![2, 1, 2] 1 exThreeV exThreeW where
  lensV := rfl
  count := rfl
  lensW := by
    intro m M h
    fin_cases m <;> simp [exThreeW] at h <;> subst h <;> rfl

/-- A run that makes the seventh step. -/
example : ∃ fl, Spec.Nearest fl ∧ ∃ o0 r r', optInit ℝ 3 .msdt = .ok o0 ∧
    cpdAlsD fl .msdt 3 1 1 (fun _ _ M _ => M) 1 (fun _ _ _ _ _ => (fun _ _ => 0, fun _ => 0, fun _ _ => 0)) exThreeV ⟨0, 10, 3, 1⟩
      (fun _ => 0) 10 (o0, ⟨exThreeW, exThreeW⟩) = .ok r ∧ r.iters = 7 ∧ r.ret = true ∧
    cpdAls .msdt 3 1 1 (fun _ _ M _ => M) 1 (fun _ _ _ _ _ => (fun _ _ => 0, fun _ => 0, fun _ _ => 0)) exThreeV ⟨0, 10, 3, 1⟩
      (fun _ => 0) 10 (o0, ⟨exThreeW, exThreeW⟩) = .ok r' ∧ r'.iters = 6 ∧ r'.ret = false := by
  obtain ⟨fl, h⟩ := Spec.exists_nearest
  exact ⟨fl, h, C88_order3 h (.inl rfl) (f := ⟨exThreeW, exThreeW⟩) exThreeShaped rfl 1 _ 1 _ (a := ⟨0, 10, 3, 1⟩) (by norm_num) rfl le_rfl
    (fun _ => by norm_num) (by norm_num)⟩

/-- The general theorem at order 3 and 500 sweeps, after two earlier steps. -/
example {fl : ℚ → ℚ} (h : Spec.Nearest fl) : ∃ o0 s r, optInit ℝ 3 .msdt = .ok o0 ∧
    iterM (optStep 3 1 1 (fun _ _ M _ => M) 1 (fun _ _ _ _ _ => (fun _ _ => 0, fun _ => 0, fun _ _ => 0)) exThreeV) 2
      (o0, ⟨exThreeW, exThreeW⟩) = .ok s ∧
    cpdAlsD fl .msdt 3 1 1 (fun _ _ M _ => M) 1 (fun _ _ _ _ _ => (fun _ _ => 0, fun _ => 0, fun _ _ => 0)) exThreeV ⟨1 / 10, 10, 500, 7⟩
      (fun _ => 0) 1000 s = .ok r ∧ r.iters ≤ 752 ∧ r.ret = true := by
  have hl : stepLimit 3 500 .msdt = 752 := by
    unfold stepLimit
    rw [show (((500 : ℤ) : ℚ) + 1) * (3 : ℕ) / ((3 : ℕ) - 1) = 1503 / 2 by norm_num]
    rw [Nat.ceil_eq_iff (by norm_num)]
    norm_num
  obtain ⟨o0, s, r, h1, h2, h3, -, -, h4, h5, -, h6⟩ := C88_msdt h (kind := .msdt) (.inl rfl) (dims := ![2, 1, 2])
    ⟨le_rfl, by norm_num, fun h => by cases h⟩ (f := ⟨exThreeW, exThreeW⟩) exThreeShaped rfl 1 (fun _ _ M _ => M) 1
    (fun _ _ _ _ _ => (fun _ _ => 0, fun _ => 0, fun _ _ => 0)) (a := ⟨1 / 10, 10, 500, 7⟩) (by norm_num) (by norm_num) (by norm_num)
    (fun _ => 0) 2 (fuel := 1000) (by simp only [hl]; norm_num)
  simp only [hl] at h4 h5 h6
  refine ⟨o0, s, r, h1, h2, h3, ?_, ?_⟩
  · by_contra hne
    have := h5 (by omega)
    norm_num at this
  · by_contra hne
    have := (h6 (by simpa using hne)).2
    norm_num at this

/-- `C88_exact` at order 4 for a multi-sweep optimizer. -/
example {fl : ℚ → ℚ} (h : Spec.Nearest fl) (clock : ℕ → ℝ) (fuel : ℕ) (s : OptState ℝ × Fac ℝ) (solve : Spec.Solver ℝ) (q : ℕ)
    (lr : Spec.LowRank ℝ) (V : Tensor ℝ) :
    cpdAlsD fl .msdt 4 2 0 solve q lr V ⟨1 / 10, 10, 500, 7⟩ clock fuel s =
      cpdAls .msdt 4 2 0 solve q lr V ⟨1 / 10, 10, 500, 7⟩ clock fuel s :=
  C88_exact h (.inr (.inr (.inr ⟨.inl rfl, 2, rfl, by norm_num⟩))) 2 0 solve q lr V (by norm_num) clock fuel s

end Properties
