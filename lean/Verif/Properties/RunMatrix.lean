import Verif.Properties.RunMain

/-! # C59: matrices in run.cxx (`-dim 2 -pp 4`) -/

namespace Properties

open Model Finset

section Plain

variable {N : ℕ} {s R : ℕ} {V : Tensor ℝ} {f : Fac ℝ}

/-- Runs of the plain optimizer, from order 2. -/
theorem simple_trace (h2 : 2 ≤ N) (h10 : N ≤ 10) (hS : Shaped (fun _ : Fin N => s) R V f.W) (hG : f.G.length = N) (lam : ℝ)
    (solve : Spec.Solver ℝ) (q : ℕ) (lr : Spec.LowRank ℝ) :
    ∃ T : ℕ → OptState ℝ × Fac ℝ, (∀ k, iterM (optStep N R lam solve q lr V) k (.simple, f) = .ok (T k)) ∧
      (∀ k, Shaped (fun _ : Fin N => s) R V (T k).2.W ∧ (T k).2.G.length = N) ∧
      ∀ k, facs N (T (k + 1)).2 = Spec.alsSweep (fun _ => s) R lam solve (arr V N) (facs N (T k).2) := by
  have key : ∀ k, ∃ g, iterM (simpleStep N R lam solve V) k f = .ok g ∧ Shaped (fun _ : Fin N => s) R V g.W ∧ g.G.length = N := by
    intro k
    induction k with
    | zero => exact ⟨f, rfl, hS, hG⟩
    | succ k ih =>
      obtain ⟨f1, a1, a2, a3⟩ := ih
      obtain ⟨f2, b1, b2, b3, _⟩ := simpleStep_ok h2 h10 a2 a3 lam solve
      exact ⟨f2, by rw [iterM_succ_right, a1]; exact b1, b2, b3⟩
  choose g g1 g2 g3 using key
  have hm := fun k => iterM_map (s1 := simpleStep N R lam solve V) (s2 := optStep N R lam solve q lr V)
    (fun g => ((.simple : OptState ℝ), g)) (fun x => by
      simp only [optStep, bind, Except.bind, Except.map]
      cases simpleStep N R lam solve V x <;> rfl) k f
  refine ⟨fun k => (.simple, g k), fun k => by rw [hm, g1]; rfl, fun k => ⟨g2 k, g3 k⟩, fun k => ?_⟩
  obtain ⟨f2, c1, _, _, c4⟩ := simpleStep_ok h2 h10 (g2 k) (g3 k) lam solve
  have h := g1 (k + 1)
  rw [iterM_succ_right, g1 k] at h
  change simpleStep N R lam solve V (g k) = _ at h
  rw [h] at c1
  cases c1
  exact c4

/-- `als` with the plain optimizer, from order 2. -/
theorem simple_hist (h2 : 2 ≤ N) (h10 : N ≤ 10) {lam : ℝ} {solve : Spec.Solver ℝ} {q : ℕ} {lr : Spec.LowRank ℝ}
    {T : ℕ → OptState ℝ × Fac ℝ} (hT1 : ∀ k, iterM (optStep N R lam solve q lr V) k (.simple, f) = .ok (T k))
    (hT2 : ∀ k, Shaped (fun _ : Fin N => s) R V (T k).2.W ∧ (T k).2.G.length = N) {a : AlsArgs} (hres : a.resprint ≠ 0)
    (clock : ℕ → ℝ) {fuel : ℕ} (hf : (a.maxsweep + 1).toNat < fuel) :
    ∃ (c : ℕ → ℝ × ℝ) (r : AlsEnd (OptState ℝ × Fac ℝ)),
      (∀ k, gradnorm (T k).2.G N = .ok (c k).1 ∧ Model.residual V (T k).2.W N = .ok (c k).2) ∧
      cpdAls .simple N R lam solve q lr V a clock fuel (.simple, f) = .ok r ∧ AlsHist a 1 clock T c r := by
  have hg : ∀ k, ∃ g, gradnorm (T k).2.G N = .ok g := fun k => gradnorm_ok (hT2 k).2
  have hr : ∀ k, ∃ g, Model.residual V (T k).2.W N = .ok g := fun k => ⟨_, C16_residual (by omega) (by omega) (hT2 k).1⟩
  choose g hg using hg
  choose d hd using hr
  have hc : ∀ k, cpdCheck N V (T k) = .ok (g k, d k) := by
    intro k
    simp [cpdCheck, hg, hd, bind, Except.bind, pure, Except.pure]
  obtain ⟨r, r1, r2⟩ := als_ok (a := a) (clock := clock) (show (0 : ℚ) < stepSweeps N .simple by simp [stepSweeps]) hres hT1 hc
    (fuel := fuel) (by rw [show stepSweeps N .simple = 1 from rfl, alsBound_simple]; exact hf)
  exact ⟨_, r, fun k => ⟨hg _, hd _⟩, r1, r2⟩

end Plain

/-- **C59 (direct optimizer, matrices included).** With `-pp 4` the run also succeeds on matrices (`-dim 2`), where all other optimizers are
undefined behaviour: for every command line with `-model C..`, `-pp 4`, `-dim` from 2 to 10, `-resprint` not 0, and every `-tensor` value `p2`,
`c`, `r`, `r2` whose tensor can be built, `main` builds the documented tensor and `als` returns with `RunOutcome`. -/
theorem C59_run_direct {E : MainEnv} {o : Opts} (lr : ℕ → Bool → Spec.LowRank ℝ) (hmi : 0 ≤ o.maxiter)
    (hx : o.tol.Finite) (htl : o.timelimit.Finite) (hr : o.resprint ≠ 0) (hk : PlainKind o) (hin : InputOk E o) (h2 : 2 ≤ o.dim)
    (h10 : o.dim ≤ 10) (hC : o.model.head? = some 'C') (hpp : o.pp = 4) {fuel : ℕ}
    (hfu : 2 * (o.maxiter + 1) < fuel) :
    ∃ V r tr g, runMain E lr fuel o = .ok (V, some r) ∧ InputSpec E o V ∧
      RunOutcome E (lr o.updateRank.toNat (decide (o.randomsvd = 1))) o (by omega) V r tr g := by
  obtain ⟨V, v1, v2⟩ := C57_tensor hin
  have hd : MainDims o (fun _ : Fin o.dim.toNat => o.size.toNat) := by
    unfold MainDims
    rw [← replicate_ofFn]
    rcases hk with h | h | h | h <;> rw [h] <;> rfl
  have hV := input_lens v2 hd hin
  have k1 : dispatch o = some .simple := by
    have hC' : o.model[0]? = some 'C' := by rw [← List.head?_eq_getElem?]; exact hC
    unfold dispatch
    rw [if_pos hC', hpp]
    rfl
  have hN2 : 2 ≤ o.dim.toNat := by omega
  have hN10 : o.dim.toNat ≤ 10 := by omega
  have hW := fillMats_shaped hV o.R.toNat E.w0
  have hGs := fillMats_shaped hV o.R.toNat E.g0
  set f : Fac ℝ := ⟨fillMats (List.ofFn fun _ : Fin o.dim.toNat => o.size.toNat) o.R.toNat E.w0,
    fillMats (List.ofFn fun _ : Fin o.dim.toNat => o.size.toNat) o.R.toNat E.g0⟩ with hf
  obtain ⟨T, t1, tsh, tstep⟩ := simple_trace (f := f) hN2 hN10 hW hGs.count 0 E.solve o.updateRank.toNat
    (lr o.updateRank.toNat (decide (o.randomsvd = 1)))
  obtain ⟨c, r, t2, t3, H⟩ := simple_hist hN2 hN10 t1 tsh
    (a := ⟨o.tol.toReal * norm2 V, o.timelimit.toReal, o.maxiter, o.resprint⟩) hr E.clock (fuel := fuel)
    (by simp only; omega)
  have hT0 : T 0 = (.simple, f) := (Except.ok.inj (t1 0)).symm
  have hinc : (1 : ℚ) = Spec.ppSweeps o.pp o.dim.toNat := by rw [hpp]; norm_num [Spec.ppSweeps]
  rw [hinc] at H
  have hb := H.bound
  have hbb : alsBound o.maxiter (Spec.ppSweeps o.pp o.dim.toNat) = (o.maxiter + 1).toNat := by rw [← hinc]; exact alsBound_simple
  simp only [hbb] at hb
  have hpos' : 0 < Spec.ppSweeps o.pp o.dim.toNat := by rw [← hinc]; norm_num
  have hfl := fun t => floor_le_iff (m := o.maxiter) hpos' t
  have hck : ∀ t : ℕ, alsChecked ⟨o.tol.toReal * norm2 V, o.timelimit.toReal, o.maxiter, o.resprint⟩ t
      (t * Spec.ppSweeps o.pp o.dim.toNat) ↔
      (o.resprint ∣ (t : ℤ) ∨ (o.maxiter : ℚ) ≤ t * Spec.ppSweeps o.pp o.dim.toNat) := by
    intro t
    unfold alsChecked
    rw [← Int.dvd_iff_tmod_eq_zero]
    constructor
    · rintro (h | h | h)
      · exact .inl h
      · exact .inr h
      · rcases mul_eq_zero.1 h with h | h
        · left
          rw [show t = 0 by exact_mod_cast h]
          exact dvd_zero _
        · exact absurd h hpos'.ne'
    · rintro (h | h)
      · exact .inl h
      · exact .inr (.inl h)
  have hsh := fun t => (tsh t).1
  have hres : ∀ t, (c t).2 = Real.sqrt (∑ idx ∈ Spec.Box fun _ : Fin o.dim.toNat => o.size.toNat,
      (arr V o.dim.toNat idx - Spec.recon o.R.toNat (mats (T t).2.W) idx) ^ 2) := by
    intro t
    have h := (t2 t).2
    rw [C16_residual (by omega) (by omega) (hsh t)] at h
    exact (Except.ok.inj h).symm
  refine ⟨V, r, fun t => facs o.dim.toNat (T t).2, fun t => (c t).1, ?_, v2, ?_⟩
  · unfold runMain
    rw [v1, k1]
    simp only [bind, Except.bind, pure, Except.pure]
    simp only [optInit]
    have ha : initAsserts V.lens (List.replicate V.lens.length o.R.toNat) o.dim.toNat o.size.toNat o.R.toNat = .ok () := by
      rw [hV, ← replicate_ofFn]
      unfold initAsserts
      simp
    rw [ha]
    simp only
    rw [hV, replicate_ofFn, ← hf, mixCmp_finite hx htl, cpdAlsC_real, t3]
  · refine ⟨?_, ?_, ?_, ?_, ?_, ?_, by omega, ?_, ?_, ?_, ?_⟩
    · intro j x hx c hc
      simp only [hT0, hf]
      exact fillMats_mats j hx hc
    · intro j x hx c hc
      simp only [hT0, hf]
      exact fillMats_mats j hx hc
    · intro t
      unfold Spec.ppStep
      rw [tstep t, hpp]
      norm_num
    · rw [H.state]
    · exact fun t => ⟨(T t).2, rfl, (t2 t).1⟩
    · rw [H.sweeps]
    · intro t ht
      refine ⟨?_, fun h => ?_⟩
      · have h1 : t < alsBound o.maxiter (Spec.ppSweeps o.pp o.dim.toNat) := lt_of_lt_of_le ht H.bound
        exact (hfl t).2 h1
      · have := H.before t ht
        unfold Stops at this
        rw [hck] at this
        have h2 := fun h' => this ⟨h, h'⟩
        exact ⟨not_lt.1 fun h' => h2 (.inl h'), not_lt.1 fun h' => h2 (.inr h')⟩
    · intro h
      rw [H.sweeps] at h
      have hlt := (hfl _).1 h
      have hbr : r.broke = true := by
        by_contra hb'
        have := H.atEnd (by simpa using hb')
        simp only at this
        omega
      have := (H.atBreak hbr).2
      unfold Stops at this
      rw [hck] at this
      rw [H.sweeps]
      exact this
    · intro row
      rw [H.rows]
      unfold logRows
      simp only [List.mem_map, List.mem_filter, decide_eq_true_eq, List.mem_range, hfl, hck]
      constructor
      · rintro ⟨t, ⟨ht, h1⟩, rfl⟩
        have hlt : t ≤ r.iters ∧ t < alsBound o.maxiter (Spec.ppSweeps o.pp o.dim.toNat) := by
          by_cases hbr : r.broke = true
          · rw [if_pos hbr] at ht
            have := (H.atBreak hbr).1
            exact ⟨by omega, by simp only at this; omega⟩
          · rw [if_neg hbr] at ht
            have := H.bound
            exact ⟨by omega, by simp only at this; omega⟩
        exact ⟨t, hlt.1, hlt.2, h1, by rw [hres]⟩
      · rintro ⟨t, h1, h2, h3, rfl⟩
        refine ⟨t, ⟨?_, h3⟩, by rw [hres]⟩
        by_cases hbr : r.broke = true
        · rw [if_pos hbr]; omega
        · rw [if_neg hbr]
          have := H.atEnd (by simpa using hbr)
          simp only at this
          omega
    · rw [H.rows]
      unfold logRows
      rw [List.map_map]
      exact List.Pairwise.map _ (fun a b h => h) (List.Pairwise.filter _ (List.pairwise_lt_range))



/-- `run -tensor r2 -dim 2 -size 3 -pp 4`. -/
example (atof : CStr → F64) (lr : ℕ → Bool → Spec.LowRank ℝ) : ∃ E V r tr g,
    runProgram E lr atof 20000 ["run".toList, "-tensor".toList, "r2".toList, "-dim".toList, "2".toList, "-size".toList,
      "3".toList, "-pp".toList, ['4']] = .ok (V, some r) ∧ Spec.SolvesConsistent E.solve ∧ V.lens = [3, 3] ∧
      RunOutcome E (lr 1 false) { exRunOpts 4 with dim := 2 } (by norm_num) V r tr g := by
  obtain ⟨k, -⟩ := exists_kernOk
  obtain ⟨srt, -, -⟩ := exists_sort_stable
  obtain ⟨slv, hs⟩ := exists_consistent_solver (K := ℝ)
  have ho : runOpts atof ["run".toList, "-tensor".toList, "r2".toList, "-dim".toList, "2".toList, "-size".toList,
      "3".toList, "-pp".toList, ['4']] = .ok { exRunOpts 4 with dim := 2 } := rfl
  have hin : InputOk { exEnv k srt with solve := slv } { exRunOpts 4 with dim := 2 } := trivial
  obtain ⟨V, r, tr, g, h1, hV, h2⟩ := C59_run_direct (E := { exEnv k srt with solve := slv }) (o := { exRunOpts 4 with dim := 2 }) lr
    (by simp [exRunOpts]) ⟨_, rfl⟩ ⟨_, rfl⟩ (by simp [exRunOpts]) (.inr (.inr (.inr rfl))) hin (by simp) (by simp) rfl rfl
    (fuel := 20000) (by simp [exRunOpts])
  refine ⟨_, V, r, tr, g, ?_, hs, input_lens (dims := fun _ : Fin 2 => 3) hV rfl hin, h2⟩
  unfold runProgram
  rw [ho]
  exact h1

end Properties
