import Verif.Model.Decomp
import Verif.Properties.RunMain
import Verif.Proofs.FullRank
import Verif.Properties.Converge

/-! # C79: a session with `CPD`, and tests/test_decomposition.cxx -/

namespace Properties

open Model Finset

/-- What `decom.Init(V, W, lambda); decom.als(tol, timelimit, maxsweep, resprint)` leaves behind: `tr t` are factors and recorded
gradients after `t` steps of optimizer number `pp` (`Spec.ppStep`), starting from the caller's factors and the random gradients; `g t`
is the norm of the recorded gradients. -/
structure SessOutcome (pp : ℤ) {n : ℕ} (hN : 0 < n) (s R q : ℕ) (lr : Spec.LowRank ℝ) (lam : ℝ) (solve : Spec.Solver ℝ) (V : Tensor ℝ)
    (W : List (Tensor ℝ)) (g0 : ℕ → ℕ → ℕ → ℝ) (a : AlsArgs) (clock : ℕ → ℝ) (r : AlsEnd (OptState ℝ × Fac ℝ))
    (tr : ℕ → Spec.AlsState n ℝ) (g : ℕ → ℝ) : Prop where
  startW : (tr 0).W = mats W
  startG : ∀ j, ∀ x < s, ∀ c < R, (tr 0).G j x c = g0 j x c
  steps : ∀ t, tr (t + 1) = Spec.ppStep pp hN (fun _ => s) R lam solve q lr (arr V n) tr t
  result : facs n r.st.2 = tr r.iters
  grads : ∀ t, g t = Real.sqrt (∑ j, ∑ x ∈ range s, ∑ c ∈ range R, (tr t).G j x c ^ 2)
  sweeps : r.sweeps = r.iters * Spec.ppSweeps pp n
  bound : (r.iters : ℤ) ≤ 2 * (a.maxsweep + 1)
  before : ∀ t < r.iters, ⌊(t : ℚ) * Spec.ppSweeps pp n⌋ ≤ a.maxsweep ∧
    ((a.resprint ∣ t ∨ (a.maxsweep : ℚ) ≤ t * Spec.ppSweeps pp n) → a.tol ≤ g t ∧ clock t ≤ a.timelimit)
  stop : ⌊r.sweeps⌋ ≤ a.maxsweep → (a.resprint ∣ r.iters ∨ (a.maxsweep : ℚ) ≤ r.sweeps) ∧
    (g r.iters < a.tol ∨ a.timelimit < clock r.iters)
  rows : ∀ row, row ∈ r.rows ↔ ∃ t ≤ r.iters, ⌊(t : ℚ) * Spec.ppSweeps pp n⌋ ≤ a.maxsweep ∧
    (a.resprint ∣ t ∨ (a.maxsweep : ℚ) ≤ t * Spec.ppSweeps pp n) ∧
    row = ⟨t, t * Spec.ppSweeps pp n, g t, Real.sqrt (∑ idx ∈ Spec.Box fun _ : Fin n => s,
      (arr V n idx - Spec.recon R (tr t).W idx) ^ 2)⟩
  order : (r.rows.map AlsRow.iter).Pairwise (· < ·)

/-- All optimizers keep the gradients' shapes. -/
theorem opt_shapes {N : ℕ} {kind : OptKind} {dims : Fin N → ℕ} (hfit : OptFits kind dims) {R : ℕ} {V : Tensor ℝ} {f : Fac ℝ}
    (hS : Shaped dims R V f.W) (hG : Shaped dims R V f.G) (lam : ℝ) (solve : Spec.Solver ℝ) (q : ℕ) (lr : Spec.LowRank ℝ)
    {o0 : OptState ℝ} (h0 : optInit ℝ N kind = .ok o0) {T : ℕ → OptState ℝ × Fac ℝ}
    (hT : ∀ k, iterM (optStep N R lam solve q lr V) k (o0, f) = .ok (T k)) (k : ℕ) : Shaped dims R V (T k).2.G := by
  have h3 := hfit.lo
  have hN : N ≤ 31 := by have := hfit.hi; omega
  by_cases hk : kind = .simple ∨ kind = .dt ∨ kind = .msdt
  · obtain ⟨o0', T', h0', t1, t2, -⟩ := opt_trace_modes hk hfit hS hG lam solve q lr
    obtain rfl := Except.ok.inj (h0.symm.trans h0')
    rw [Except.ok.inj ((hT k).symm.trans (t1 k))]
    exact (t2 k).2
  · cases kind with
    | simple => simp at hk
    | dt => simp at hk
    | msdt => simp at hk
    | dtlr =>
      obtain ⟨o1, T1, h1, -, t1, t2, -⟩ := dtlr_G h3 hN hS hG lam solve q lr
      have e : o0 = .dtlr o1 := by
        simp only [optInit, h1, bind, Except.bind, pure, Except.pure] at h0
        exact (Except.ok.inj h0).symm
      subst e
      have := iterM_map (s1 := dtlrStep N R lam solve q lr V) (s2 := optStep N R lam solve q lr V)
        (fun p => (OptState.dtlr p.1, p.2)) (fun x => by
          simp only [optStep, bind, Except.bind, Except.map]
          cases dtlrStep N R lam solve q lr V x <;> rfl) k (o1, f)
      rw [t1 k] at this
      rw [Except.ok.inj ((hT k).symm.trans this)]
      exact (t2 k).2
    | msdtlr =>
      obtain ⟨o1, T1, h1, -, t1, t2, -⟩ := msdtlr_G h3 hN hS hG lam solve q lr
      have e : o0 = .msdtlr o1 := by
        simp only [optInit, h1, bind, Except.bind, pure, Except.pure] at h0
        exact (Except.ok.inj h0).symm
      subst e
      have := iterM_map (s1 := msdtlrStep N R lam solve q lr V) (s2 := optStep N R lam solve q lr V)
        (fun p => (OptState.msdtlr p.1, p.2)) (fun x => by
          simp only [optStep, bind, Except.bind, Except.map]
          cases msdtlrStep N R lam solve q lr V x <;> rfl) k (o1, f)
      rw [t1 k] at this
      rw [Except.ok.inj ((hT k).symm.trans this)]
      exact (t2 k).2

/-- **C79.** For every optimizer, every tensor with `n` modes of length `s` (`3 ≤ n ≤ 18`, plain optimizer `n ≤ 10`) and factors of
that shape with `R` columns, every `lambda`, `tol`, time limit, clock, `maxsweep ≥ 0`, `resprint ≠ 0`, all random numbers, solvers and
low-rank routines: constructing the object, `Init` and `als` run to completion with `SessOutcome`. -/
theorem C79_session {kind : OptKind} {n s R : ℕ} (h3 : 3 ≤ n) (h18 : n ≤ 18) (h10 : kind = .simple → n ≤ 10) {V : Tensor ℝ}
    {W : List (Tensor ℝ)} (hS : Shaped (fun _ : Fin n => s) R V W) (lam : ℝ) (solve : Spec.Solver ℝ) (q : ℕ) (lr : Spec.LowRank ℝ)
    (g0 : ℕ → ℕ → ℕ → ℝ) {a : AlsArgs} (hm : 0 ≤ a.maxsweep) (hr : a.resprint ≠ 0) (clock : ℕ → ℝ) {fuel : ℕ}
    (hf : 2 * (a.maxsweep + 1) < fuel) :
    ∃ r tr g, cpdSession kind n s R q lr lam solve V W g0 a clock fuel = .ok r ∧
      SessOutcome (kindNum kind) (n := n) (by omega) s R q lr lam solve V W g0 a clock r tr g := by
  have hfit : OptFits kind (fun _ : Fin n => s) := ⟨by omega, by omega, fun h => ⟨h10 h, _, rfl⟩⟩
  have hGs := fillMats_shaped (V := V) hS.lensV R g0
  set f : Fac ℝ := ⟨W, fillMats (List.ofFn fun _ : Fin n => s) R g0⟩ with hfd
  have hlim := stepLimit_le h3 hm kind
  obtain ⟨o0, s0, e0, e1, T, c, r, t1, t2, t3, H⟩ := cpdAls_hist (f := f) hfit hS hGs.count lam solve q lr
    (a := a) hr clock 0 (fuel := fuel) (by omega)
  obtain rfl : (o0, f) = s0 := Except.ok.inj e1
  have hT0 : T 0 = (o0, f) := (Except.ok.inj (t1 0)).symm
  have hpos := stepSweeps_pos h3 kind
  have hb := H.bound
  rw [alsBound_kind h3] at hb
  have hinc : stepSweeps n kind = Spec.ppSweeps (kindNum kind) n := by rw [stepSweeps_num]
  have hpos' := hpos
  rw [hinc] at hpos'
  have hfl := fun t => floor_le_iff (m := a.maxsweep) hpos' t
  have hck : ∀ t : ℕ, alsChecked a t (t * Spec.ppSweeps (kindNum kind) n) ↔
      (a.resprint ∣ (t : ℤ) ∨ (a.maxsweep : ℚ) ≤ t * Spec.ppSweeps (kindNum kind) n) := by
    intro t
    unfold alsChecked
    rw [← Int.dvd_iff_tmod_eq_zero]
    constructor
    · rintro (h | h | h)
      · exact .inl h
      · exact .inr h
      · rcases mul_eq_zero.1 h with h | h
        · left
          rw [show t = 0 by exact_mod_cast h]
          exact dvd_zero _
        · exact absurd h hpos'.ne'
    · rintro (h | h)
      · exact .inl h
      · exact .inr (.inl h)
  have hsh : ∀ t, Shaped (fun _ : Fin n => s) R V (T t).2.W := by
    intro t
    obtain ⟨o0', g1, g2⟩ := opt_reach (f := f) hfit hS hGs.count lam solve q lr
    rw [e0] at g1
    obtain ⟨s', g3, g4, -⟩ := g2 t
    rw [← Except.ok.inj g1, t1 t] at g3
    rw [Except.ok.inj g3]
    exact g4
  have hres : ∀ t, (c t).2 = Real.sqrt (∑ idx ∈ Spec.Box fun _ : Fin n => s,
      (arr V n idx - Spec.recon R (mats (T t).2.W) idx) ^ 2) := by
    intro t
    have h := (t2 t).2
    rw [C16_residual (by omega) hfit.hi (hsh t)] at h
    exact (Except.ok.inj h).symm
  have hgr : ∀ t, (c t).1 = Real.sqrt (∑ j : Fin n, ∑ x ∈ range s, ∑ c ∈ range R, mats (T t).2.G j x c ^ 2) := by
    intro t
    have h := (t2 t).1
    rw [C16_gradnorm (dims := fun _ : Fin n => s) (R := R)
      (fun j => (opt_shapes hfit hS hGs lam solve q lr e0 t1 t).get j)] at h
    exact (Except.ok.inj h).symm
  refine ⟨r, fun t => facs n (T t).2, fun t => (c t).1, ?_, ?_⟩
  · unfold cpdSession
    simp only [bind, Except.bind]
    rw [e0]
    simp only
    have ha : initAsserts V.lens (W.map ncol) n s R = .ok () := by
      unfold initAsserts
      rw [hS.lensV, if_neg (by simp), if_pos]
      rw [List.all_eq_true]
      rintro ⟨x, y⟩ hxy
      rw [List.mem_iff_getElem?] at hxy
      obtain ⟨i, hi⟩ := hxy
      rw [List.getElem?_zip_eq_some] at hi
      obtain ⟨i1, i2⟩ := hi
      have hin : i < n := by
        by_contra hc
        rw [List.getElem?_eq_none (by simp; omega)] at i1
        cases i1
      rw [List.getElem?_ofFn] at i1
      simp only [hin, dif_pos, Option.some.injEq] at i1
      rw [List.getElem?_map] at i2
      obtain ⟨M, m1, m2⟩ := hS.get ⟨i, hin⟩
      simp only at m1
      rw [m1] at i2
      simp only [Option.map_some, Option.some.injEq] at i2
      subst i1 i2
      simp [ncol, m2]
    rw [ha]
    simp only
    rw [replicate_ofFn]
    exact t3
  · refine ⟨?_, ?_, ?_, ?_, hgr, ?_, by omega, ?_, ?_, ?_, ?_⟩
    · simp only [hT0, hfd]
    · intro j x hx c hc
      simp only [hT0, hfd]
      exact fillMats_mats j hx hc
    · exact fun t => opt_spec hfit (by omega) hS hGs.count lam solve q _ e0 t1 t
    · rw [H.state]
    · rw [H.sweeps, hinc]
    · intro t ht
      refine ⟨?_, fun h => ?_⟩
      · have h1 : t < alsBound a.maxsweep (stepSweeps n kind) := lt_of_lt_of_le ht H.bound
        rw [hinc] at h1
        exact (hfl t).2 h1
      · have := H.before t ht
        unfold Stops at this
        rw [hinc, hck] at this
        have h2 := fun h' => this ⟨h, h'⟩
        exact ⟨not_lt.1 fun h' => h2 (.inl h'), not_lt.1 fun h' => h2 (.inr h')⟩
    · intro h
      rw [H.sweeps, hinc] at h
      have hlt := (hfl _).1 h
      have hbr : r.broke = true := by
        by_contra hb'
        have := H.atEnd (by simpa using hb')
        rw [hinc] at this
        omega
      have := (H.atBreak hbr).2
      unfold Stops at this
      rw [hinc, hck] at this
      rw [H.sweeps, hinc]
      exact this
    · intro row
      rw [H.rows]
      unfold logRows
      simp only [List.mem_map, List.mem_filter, decide_eq_true_eq, List.mem_range, hinc, hfl, hck]
      constructor
      · rintro ⟨t, ⟨ht, h1⟩, rfl⟩
        have hlt : t ≤ r.iters ∧ t < alsBound a.maxsweep (Spec.ppSweeps (kindNum kind) n) := by
          by_cases hbr : r.broke = true
          · rw [if_pos hbr] at ht
            have := (H.atBreak hbr).1
            rw [hinc] at this
            exact ⟨by omega, by omega⟩
          · rw [if_neg hbr] at ht
            have := H.bound
            rw [hinc] at this
            exact ⟨by omega, by omega⟩
        exact ⟨t, hlt.1, hlt.2, h1, by rw [hres]⟩
      · rintro ⟨t, h1, h2, h3, rfl⟩
        refine ⟨t, ⟨?_, h3⟩, by rw [hres]⟩
        by_cases hbr : r.broke = true
        · rw [if_pos hbr]; omega
        · rw [if_neg hbr]
          have := H.atEnd (by simpa using hbr)
          rw [hinc] at this
          omega
    · rw [H.rows]
      unfold logRows
      rw [List.map_map]
      exact List.Pairwise.map _ (fun a b h => h) (List.Pairwise.filter _ (List.pairwise_lt_range))

theorem dt_even {n : ℕ} (hN : 0 < n) {s R q : ℕ} {lr : Spec.LowRank ℝ} {lam : ℝ} {solve : Spec.Solver ℝ} {V : (Fin n → ℕ) → ℝ}
    {tr : ℕ → Spec.AlsState n ℝ} (h : ∀ t, tr (t + 1) = Spec.ppStep 0 hN (fun _ => s) R lam solve q lr V tr t) (m : ℕ) :
    tr (2 * m) = (Spec.alsSweep (fun _ => s) R lam solve V)^[m] (tr 0) := by
  induction m with
  | zero => rfl
  | succ m ih =>
    have e1 : tr (2 * m + 1) = Spec.alsRun (fun _ => s) R lam solve V (List.finRange n).dropLast (tr (2 * m)) := by
      rw [h]
      unfold Spec.ppStep
      rw [if_pos rfl, if_pos (by omega)]
    have e2 : tr (2 * m + 1 + 1) = Spec.alsRun (fun _ => s) R lam solve V [⟨n - 1, by omega⟩] (tr (2 * m + 1)) := by
      rw [h]
      unfold Spec.ppStep
      rw [if_pos rfl, if_neg (by omega)]
    rw [show 2 * (m + 1) = 2 * m + 1 + 1 by ring, e2, e1, Function.iterate_succ_apply', ← ih, ← Model.alsRun_append]
    unfold Spec.alsSweep
    congr 1
    obtain ⟨k, rfl⟩ : ∃ k, n = k + 1 := ⟨n - 1, by omega⟩
    rw [List.finRange_succ_last, List.dropLast_concat]
    rfl

/-- **C79 (tests/test_decomposition.cxx).** For all random numbers, clocks and solvers: the program runs to completion; it makes 62 steps
(31 exact ALS sweeps from the random factors), unless the check before step 0, 60 or 61 finds recorded gradients below `1e-5` or
1000 seconds passed -- in particular it does nothing iff the random numbers written into the gradients have norm below `1e-5` or the
time is already up; no other step is checked or logged. -/
theorem C79_test_cpd (v0 : List ℕ → ℝ) (w0 g0 : ℕ → ℕ → ℕ → ℝ) (solve : Spec.Solver ℝ) (lr : Spec.LowRank ℝ) (clock : ℕ → ℝ) {fuel : ℕ}
    (hf : 62 < fuel) :
    ∃ r tr g, testCpd v0 w0 g0 solve lr clock fuel = .ok r ∧
      SessOutcome 0 (n := 6) (by norm_num) 13 5 0 lr 0 solve (fillT (List.replicate 6 13) v0) (fillMats (List.replicate 6 13) 5 w0) g0
        ⟨1 / 100000, 1000, 30, 100⟩ clock r tr g ∧
      (∀ idx ∈ Spec.Box fun _ : Fin 6 => 13, arr (fillT (List.replicate 6 13) v0) 6 idx = v0 (List.ofFn idx)) ∧
      (∀ j, ∀ x < 13, ∀ c < 5, (tr 0).W j x c = w0 j x c) ∧
      (r.iters = 0 ∨ r.iters = 60 ∨ r.iters = 61 ∨ r.iters = 62) ∧
      (r.iters = 0 ↔ Real.sqrt (∑ j : Fin 6, ∑ x ∈ range 13, ∑ c ∈ range 5, g0 j x c ^ 2) < 1 / 100000 ∨ 1000 < clock 0) ∧
      (r.iters = 62 → facs 6 r.st.2 =
        (Spec.alsSweep (fun _ => 13) 5 0 solve (arr (fillT (List.replicate 6 13) v0) 6))^[31] (tr 0)) ∧
      ∀ row ∈ r.rows, row.iter = 0 ∨ row.iter = 60 ∨ row.iter = 61 := by
  have hV : (fillT (List.replicate 6 13) v0).lens = List.ofFn fun _ : Fin 6 => 13 := by simp [fillT]
  have hS : Shaped (fun _ : Fin 6 => 13) 5 (fillT (List.replicate 6 13) v0) (fillMats (List.replicate 6 13) 5 w0) := by
    have := fillMats_shaped hV 5 w0
    rwa [← replicate_ofFn] at this
  obtain ⟨r, tr, g, e, H⟩ := C79_session (kind := .dt) (n := 6) (s := 13) (R := 5) (by norm_num) (by norm_num) (by simp) hS 0 solve 0
    lr g0 (a := ⟨1 / 100000, 1000, 30, 100⟩) (by norm_num) (by norm_num) clock (fuel := fuel) (by simp only; omega)
  have hstart : ∀ j, ∀ x < 13, ∀ c < 5, (tr 0).W j x c = w0 j x c := by
    intro j x hx c hc
    rw [H.startW, replicate_ofFn]
    exact fillMats_mats j hx hc
  have hsw : Spec.ppSweeps (kindNum .dt) 6 = 1 / 2 := by
    have : kindNum .dt = 0 := rfl
    rw [this]
    simp [Spec.ppSweeps]
  have hchk : ∀ t : ℕ, t ≤ 62 → (((100 : ℤ) ∣ (t : ℤ)) ∨ ((30 : ℤ) : ℚ) ≤ t * Spec.ppSweeps (kindNum .dt) 6) →
      t = 0 ∨ t = 60 ∨ t = 61 ∨ t = 62 := by
    intro t ht h
    rcases h with h | h
    · omega
    · rw [hsw] at h
      have : (60 : ℚ) ≤ t := by push_cast at h; linarith
      have : 60 ≤ t := by exact_mod_cast this
      omega
  have hb := H.bound
  simp only at hb
  have hfl : ∀ t : ℕ, ⌊(t : ℚ) * Spec.ppSweeps (kindNum .dt) 6⌋ ≤ 30 ↔ t < 62 := by
    intro t
    rw [hsw, ← not_lt, Int.lt_iff_add_one_le, Int.le_floor]
    push_cast
    constructor
    · intro h
      by_contra hc
      have : (62 : ℚ) ≤ t := by exact_mod_cast not_lt.1 hc
      linarith
    · intro h hc
      have : (t : ℚ) < 62 := by exact_mod_cast h
      linarith
  have hiters : r.iters = 0 ∨ r.iters = 60 ∨ r.iters = 61 ∨ r.iters = 62 := by
    by_cases h62 : r.iters < 62
    · have hs := H.stop (by rw [H.sweeps]; exact (hfl _).2 h62)
      rw [H.sweeps] at hs
      exact hchk _ (by omega) hs.1
    · omega
  have hg0 : g 0 = Real.sqrt (∑ j : Fin 6, ∑ x ∈ range 13, ∑ c ∈ range 5, g0 j x c ^ 2) := by
    rw [H.grads]
    congr 1
    exact sum_congr rfl fun j _ => sum_congr rfl fun x hx => sum_congr rfl fun c hc => by
      rw [H.startG j x (mem_range.1 hx) c (mem_range.1 hc)]
  refine ⟨r, tr, g, e, H, ?_, hstart, hiters, ?_, ?_, ?_⟩
  · intro idx hidx
    have hfit : fits (List.replicate 6 13) (List.ofFn idx) = true := by
      have h1 := Spec.mem_Box.1 hidx
      simp [fits, List.ofFn_succ, h1]
    simp only [arr, fillT, hfit, if_true]
  · rw [← hg0]
    constructor
    · intro h0
      have hs := H.stop (by rw [H.sweeps]; exact (hfl _).2 (by omega))
      rw [h0] at hs
      exact hs.2
    · intro h
      by_contra hc
      obtain ⟨-, h2⟩ := H.before 0 (by omega)
      obtain ⟨h3, h4⟩ := h2 (.inl (by simp))
      rcases h with h | h
      · exact absurd h (not_lt.2 h3)
      · exact absurd h (not_lt.2 h4)
  · intro h62
    rw [H.result, h62, show 62 = 2 * 31 by norm_num]
    exact dt_even (by norm_num) H.steps 31
  · intro row hrow
    obtain ⟨t, t1, t2, t3, rfl⟩ := (H.rows row).1 hrow
    have := (hfl t).1 t2
    rcases hchk t (by omega) t3 with h | h | h | h
    · exact .inl h
    · exact .inr (.inl h)
    · exact .inr (.inr h)
    · omega

/-! ## Non-vacuity: the session theorem on another problem (order 3, length 2, rank 1, MSDT with `lambda = 1/2`) -/

example : Shaped (fun _ : Fin 3 => 2) 1 (fillT [2, 2, 2] fun idx => idx.getD 0 0 + 1) (fillMats [2, 2, 2] 1 fun i x _ => i + x) :=
  fillMats_shaped (dims := fun _ : Fin 3 => 2) (V := fillT [2, 2, 2] fun idx => idx.getD 0 0 + 1) (by simp [fillT, List.ofFn_succ]) 1 _

end Properties
