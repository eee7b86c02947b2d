import Verif.Model.AlsLoop
import Verif.Proofs.DTSteps
import Mathlib.Tactic.Linarith
import Mathlib.Tactic.FieldSimp
import Mathlib.Algebra.Order.Floor.Ring

namespace Model

variable {σ : Type}

/-- Number of steps after which the sweep limit is exceeded. -/
def alsBound (maxsweep : ℤ) (inc : ℚ) : ℕ := ⌈((maxsweep : ℚ) + 1) / inc⌉₊

/-- `als` would leave the loop at step `k`, where the gradient norm is `g`. -/
def Stops (a : AlsArgs) (inc : ℚ) (clock : ℕ → ℝ) (k : ℕ) (g : ℝ) : Prop :=
  alsChecked a k (k * inc) ∧ (g < a.tol ∨ a.timelimit < clock k)

open Classical in
/-- The rows logged at the checked iterations among the first `k`. -/
noncomputable def logRows (a : AlsArgs) (inc : ℚ) (c : ℕ → ℝ × ℝ) (k : ℕ) : List AlsRow :=
  ((List.range k).filter fun j => decide (alsChecked a j (j * inc))).map fun j => ⟨j, (j : ℚ) * inc, (c j).1, (c j).2⟩

/-- The history of an execution of `als` that ended in `r`; `tr k` is the state after `k` steps, `c k` its gradient norm
and residual. -/
structure AlsHist (a : AlsArgs) (inc : ℚ) (clock : ℕ → ℝ) (tr : ℕ → σ) (c : ℕ → ℝ × ℝ) (r : AlsEnd σ) : Prop where
  state : r.st = tr r.iters
  sweeps : r.sweeps = r.iters * inc
  bound : r.iters ≤ alsBound a.maxsweep inc
  ret : r.ret = decide (¬ r.sweeps = (a.maxsweep : ℚ) + 1)
  before : ∀ j < r.iters, ¬ Stops a inc clock j (c j).1
  atBreak : r.broke = true → r.iters < alsBound a.maxsweep inc ∧ Stops a inc clock r.iters (c r.iters).1
  atEnd : r.broke = false → r.iters = alsBound a.maxsweep inc
  rows : r.rows = logRows a inc c (if r.broke then r.iters + 1 else r.iters)

theorem iterM_succ_right' {step : σ → Except Fault σ} (k : ℕ) (s : σ) :
    iterM step (k + 1) s = (do let t ← iterM step k s; step t) := by
  induction k generalizing s with
  | zero =>
    simp only [iterM, bind, Except.bind]
    cases step s <;> rfl
  | succ k ih =>
    rw [iterM]
    conv_rhs => rw [iterM]
    simp only [bind, Except.bind]
    cases step s with
    | error e => rfl
    | ok t =>
      simp only
      have := ih t
      simpa only [bind, Except.bind] using this

theorem floor_le_iff {m : ℤ} {inc : ℚ} (hinc : 0 < inc) (k : ℕ) :
    ⌊(k : ℚ) * inc⌋ ≤ m ↔ k < alsBound m inc := by
  unfold alsBound
  rw [Nat.lt_ceil, lt_div_iff₀ hinc, ← Int.lt_add_one_iff, Int.floor_lt]
  push_cast
  rfl

theorem logRows_succ (a : AlsArgs) (inc : ℚ) (c : ℕ → ℝ × ℝ) (k : ℕ) :
    logRows a inc c (k + 1) = logRows a inc c k ++
      if alsChecked a k (k * inc) then [⟨k, (k : ℚ) * inc, (c k).1, (c k).2⟩] else [] := by
  unfold logRows
  rw [List.range_succ, List.filter_append, List.map_append]
  congr 1
  by_cases h : alsChecked a k (k * inc) <;> simp [h]

/-- Every execution of `als` ends within the bound, whatever the gradient norms and the clock. -/
theorem alsLoop_ok {a : AlsArgs} {step : σ → Except Fault σ} {inc : ℚ} {check : σ → Except Fault (ℝ × ℝ)}
    {clock : ℕ → ℝ} {st : σ} {tr : ℕ → σ} {c : ℕ → ℝ × ℝ} (hinc : 0 < inc) (hres : a.resprint ≠ 0)
    (hstep : ∀ k, iterM step k st = .ok (tr k)) (hc : ∀ k, check (tr k) = .ok (c k)) :
    ∀ (fuel k : ℕ), k ≤ alsBound a.maxsweep inc →
      alsBound a.maxsweep inc < k + fuel → (∀ j < k, ¬ Stops a inc clock j (c j).1) →
      ∃ r, alsLoop a step inc check clock fuel k (k * inc) (tr k) (logRows a inc c k) = .ok r ∧
        AlsHist a inc clock tr c r := by
  intro fuel
  induction fuel with
  | zero => intro k h1 h2; omega
  | succ fuel ih =>
    intro k hk hf hb
    unfold alsLoop
    by_cases hlt : k < alsBound a.maxsweep inc
    · rw [if_pos ((floor_le_iff hinc k).2 hlt), if_neg hres]
      have hcont : ¬ Stops a inc clock k (c k).1 → ∃ r, (do
          let st' ← step (tr k)
          alsLoop a step inc check clock fuel (k + 1) ((k : ℚ) * inc + inc) st' (logRows a inc c (k + 1))) = .ok r ∧
            AlsHist a inc clock tr c r := by
        intro hns
        have ht' := hstep (k + 1)
        rw [iterM_succ_right', hstep k] at ht'
        simp only [bind, Except.bind] at ht' ⊢
        rw [ht']
        have := ih (k + 1) (by omega) (by omega) (fun j hj => by
          rcases Nat.lt_succ_iff_lt_or_eq.1 hj with h | h
          · exact hb j h
          · subst h
            exact hns)
        rw [show ((k + 1 : ℕ) : ℚ) * inc = (k : ℚ) * inc + inc by push_cast; ring] at this
        exact this
      by_cases hck : alsChecked a k (k * inc)
      · rw [if_pos hck, hc k]
        simp only [bind, Except.bind, pure, Except.pure]
        by_cases hst : (c k).1 < a.tol ∨ a.timelimit < clock k
        · rw [if_pos hst]
          refine ⟨_, rfl, rfl, rfl, hk, by simp, hb, fun _ => ⟨hlt, hck, hst⟩, fun h => by simp at h, ?_⟩
          simp [logRows_succ, hck]
        · rw [if_neg hst]
          have := hcont (fun h => hst h.2)
          rw [logRows_succ, if_pos hck] at this
          exact this
      · rw [if_neg hck]
        have := hcont (fun h => hck h.1)
        rw [logRows_succ, if_neg hck, List.append_nil] at this
        exact this
    · rw [if_neg (fun h => hlt ((floor_le_iff hinc k).1 h))]
      exact ⟨_, rfl, rfl, rfl, hk, by simp, hb, fun h => by simp at h, fun _ => by simp; omega, by simp⟩

theorem als_ok {a : AlsArgs} {step : σ → Except Fault σ} {inc : ℚ} {check : σ → Except Fault (ℝ × ℝ)} {clock : ℕ → ℝ}
    {st : σ} {tr : ℕ → σ} {c : ℕ → ℝ × ℝ} (hinc : 0 < inc) (hres : a.resprint ≠ 0)
    (hstep : ∀ k, iterM step k st = .ok (tr k)) (hc : ∀ k, check (tr k) = .ok (c k)) {fuel : ℕ}
    (hf : alsBound a.maxsweep inc < fuel) :
    ∃ r, als a step inc check clock fuel st = .ok r ∧ AlsHist a inc clock tr c r := by
  have h0 : tr 0 = st := by
    have := hstep 0
    simp only [iterM] at this
    cases this; rfl
  have := alsLoop_ok (a := a) (clock := clock) hinc hres hstep hc fuel 0 (Nat.zero_le _)
    (by omega) (by intro j hj; omega)
  rw [h0] at this
  simpa [als, logRows] using this

theorem alsBound_simple {m : ℤ} : alsBound m 1 = (m + 1).toNat := by
  unfold alsBound
  rw [div_one]
  have : ((m : ℚ) + 1) = ((m + 1 : ℤ) : ℚ) := by push_cast; ring
  rw [this, Nat.ceil_intCast]

theorem alsBound_half {m : ℤ} : alsBound m (1 / 2) = (2 * (m + 1)).toNat := by
  unfold alsBound
  have : ((m : ℚ) + 1) / (1 / 2) = ((2 * (m + 1) : ℤ) : ℚ) := by push_cast; ring
  rw [this, Nat.ceil_intCast]

end Model
