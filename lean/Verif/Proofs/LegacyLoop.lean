import Verif.Model.LegacyLoop

namespace Model

variable {σ : Type}

/-- The loop would be left at iteration `k` by its test; `m k` is the measured quantity. -/
def LLStop (a : LLArgs) (h : LLHooks σ) (clock : ℕ → ℝ) (m : ℕ → ℝ) (k : ℕ) : Prop :=
  h.checked k ∧ (m k < a.tol ∨ a.timelimit < clock k)

open Classical in
/-- The rows of the tests among the first `k` iterations. -/
noncomputable def llRows (h : LLHooks σ) (c : ℕ → σ × ℝ × ℝ) (k : ℕ) : List (ℕ × ℝ × ℝ) :=
  ((List.range k).filter fun j => decide (h.checked j)).map fun j => (j, (c j).2.1, (c j).2.2)

open Classical in
theorem llRows_succ (h : LLHooks σ) (c : ℕ → σ × ℝ × ℝ) (k : ℕ) :
    llRows h c (k + 1) = llRows h c k ++ if h.checked k then [(k, (c k).2.1, (c k).2.2)] else [] := by
  unfold llRows
  rw [List.range_succ, List.filter_append, List.map_append]
  congr 1
  by_cases hc : h.checked k <;> simp [hc]

/-- An unbounded history of the computations: `tr k` is the state at the start of iteration `k`, `c k` the outcome of a test
there, `mid k` the state in which the sweep of iteration `k` starts. -/
structure LLTrace (h : LLHooks σ) (st : σ) (tr : ℕ → σ) (c : ℕ → σ × ℝ × ℝ) (mid : ℕ → σ) : Prop where
  start : tr 0 = st
  check : ∀ k, h.check (tr k) = .ok (c k)
  mid1 : ∀ k, h.checked k → h.accept (c k).1 = .ok (mid k)
  mid2 : ∀ k, ¬ h.checked k → mid k = tr k
  sweep : ∀ k, h.sweep (mid k) = .ok (tr (k + 1))

/-- The history of an execution that ended in `r`. -/
structure LLHist (a : LLArgs) (h : LLHooks σ) (clock : ℕ → ℝ) (tr : ℕ → σ) (c : ℕ → σ × ℝ × ℝ) (r : LLEnd σ) : Prop where
  bound : r.iter ≤ (a.maxiter + 1).toNat
  before : ∀ j < r.iter, ¬ LLStop a h clock (fun k => (c k).2.1) j
  atBreak : r.broke = true → (r.iter : ℤ) ≤ a.maxiter ∧ LLStop a h clock (fun k => (c k).2.1) r.iter ∧ r.st = (c r.iter).1
  atEnd : r.broke = false → r.iter = (a.maxiter + 1).toNat ∧ r.st = tr r.iter
  rows : r.rows = llRows h c (if r.broke then r.iter + 1 else r.iter)
  ret : r.ret = decide (¬ (r.iter : ℤ) = a.maxiter + 1)

theorem llLoop_ok {a : LLArgs} {h : LLHooks σ} {clock : ℕ → ℝ} {st : σ} {tr mid : ℕ → σ} {c : ℕ → σ × ℝ × ℝ}
    (hres : a.resprint ≠ 0) (H : LLTrace h st tr c mid) :
    ∀ (fuel k : ℕ), k ≤ (a.maxiter + 1).toNat → (a.maxiter + 1).toNat < k + fuel →
      (∀ j < k, ¬ LLStop a h clock (fun k => (c k).2.1) j) →
      ∃ r, llLoop a h clock fuel k (tr k) (llRows h c k) = .ok r ∧ LLHist a h clock tr c r := by
  intro fuel
  induction fuel with
  | zero => intro k h1 h2; omega
  | succ fuel ih =>
    intro k hk hf hb
    unfold llLoop
    by_cases hlt : (k : ℤ) ≤ a.maxiter
    · rw [if_pos hlt, if_neg hres]
      have hcont : ¬ LLStop a h clock (fun k => (c k).2.1) k → ∃ r, (do
          let st ← h.sweep (mid k)
          llLoop a h clock fuel (k + 1) st (llRows h c (k + 1))) = .ok r ∧ LLHist a h clock tr c r := by
        intro hns
        simp only [bind, Except.bind]
        rw [H.sweep k]
        exact ih (k + 1) (by omega) (by omega) (fun j hj => by
          rcases Nat.lt_succ_iff_lt_or_eq.1 hj with h' | h'
          · exact hb j h'
          · subst h'; exact hns)
      by_cases hck : h.checked k
      · rw [if_pos hck, H.check k]
        simp only [bind, Except.bind, pure, Except.pure]
        by_cases hst : (c k).2.1 < a.tol ∨ a.timelimit < clock k
        · rw [if_pos hst]
          refine ⟨_, rfl, hk, hb, fun _ => ⟨hlt, ⟨hck, hst⟩, rfl⟩, fun h => by simp at h, ?_, rfl⟩
          simp [llRows_succ, hck]
        · rw [if_neg hst, H.mid1 k hck]
          have := hcont (fun h => hst h.2)
          rw [llRows_succ, if_pos hck] at this
          exact this
      · rw [if_neg hck]
        have := hcont (fun h => hck h.1)
        rw [llRows_succ, if_neg hck, List.append_nil, H.mid2 k hck] at this
        exact this
    · rw [if_neg hlt]
      exact ⟨_, rfl, hk, hb, fun h => by simp at h, fun _ => ⟨by simp only; omega, rfl⟩, by simp, rfl⟩

theorem llLoop_run {a : LLArgs} {h : LLHooks σ} {clock : ℕ → ℝ} {st : σ} {tr mid : ℕ → σ} {c : ℕ → σ × ℝ × ℝ}
    (hres : a.resprint ≠ 0) (H : LLTrace h st tr c mid) {fuel : ℕ} (hf : (a.maxiter + 1).toNat < fuel) :
    ∃ r, llLoop a h clock fuel 0 st [] = .ok r ∧ LLHist a h clock tr c r := by
  have := llLoop_ok (clock := clock) hres H fuel 0 (Nat.zero_le _) (by omega) (by intro j hj; omega)
  rw [H.start] at this
  simpa [llRows] using this

/-- If test, accept and sweep always succeed under an invariant, there is an unbounded history. -/
theorem llTrace_exists {h : LLHooks σ} {P : σ → Prop} {st : σ} (hst : P st)
    (hc : ∀ s, P s → ∃ c, h.check s = .ok c ∧ ∃ s', h.accept c.1 = .ok s' ∧ P s')
    (hs : ∀ s, P s → ∃ s', h.sweep s = .ok s' ∧ P s') :
    ∃ tr c mid, LLTrace h st tr c mid ∧ ∀ k, P (tr k) ∧ P (mid k) := by
  classical
  choose! c c1 acc c2 c3 using hc
  choose! sw s1 s2 using hs
  let tr : ℕ → σ := Nat.rec st fun k s => sw (if h.checked k then acc s else s)
  have htr : ∀ k, tr (k + 1) = sw (if h.checked k then acc (tr k) else tr k) := fun _ => rfl
  have hP : ∀ k, P (tr k) := by
    intro k
    induction k with
    | zero => exact hst
    | succ k ih =>
      rw [htr]
      apply s2
      split
      · exact c3 _ ih
      · exact ih
  have hM : ∀ k, P (if h.checked k then acc (tr k) else tr k) := by
    intro k
    split
    · exact c3 _ (hP k)
    · exact hP k
  refine ⟨tr, fun k => c (tr k), fun k => if h.checked k then acc (tr k) else tr k, ⟨rfl, fun k => c1 _ (hP k), ?_, ?_, ?_⟩,
    fun k => ⟨hP k, hM k⟩⟩
  · intro k hk
    simp only [hk, if_true]
    exact c2 _ (hP k)
  · intro k hk
    simp only [hk, if_false]
  · intro k
    rw [htr]
    exact s1 _ (hM k)

end Model
