import Verif.Model.RunMain
import Verif.Proofs.Ieee
import Verif.Spec.Run
import Verif.Properties.MainTensor
import Verif.Properties.MainNeg
import Verif.Properties.AlsLoop
import Verif.Properties.Objective

/-! # C59: `main` of run.cxx -/

namespace Properties

open Model Finset

/-- The number `-pp` stands for. -/
def kindNum : OptKind → ℤ
  | .dt => 0
  | .msdt => 1
  | .dtlr => 2
  | .msdtlr => 3
  | .simple => 4

section

variable {K : Type} [CommRing K] {N : ℕ}

/-- Every optimizer makes the steps of its specification. -/
theorem opt_spec {kind : OptKind} {dims : Fin N → ℕ} (hfit : OptFits kind dims) (hN0 : 0 < N) {R : ℕ} {V : Tensor K} {f : Fac K}
    (hS : Shaped dims R V f.W) (hG : f.G.length = N) (lam : K) (solve : Spec.Solver K) (q : ℕ) (lr : Spec.LowRank K)
    {o0 : OptState K} (h0 : optInit K N kind = .ok o0) {T : ℕ → OptState K × Fac K}
    (hT : ∀ k, iterM (optStep N R lam solve q lr V) k (o0, f) = .ok (T k)) (t : ℕ) :
    facs N (T (t + 1)).2 = Spec.ppStep (kindNum kind) hN0 dims R lam solve q lr (arr V N) (fun k => facs N (T k).2) t := by
  have h3 := hfit.lo
  have hN : N ≤ 31 := by have := hfit.hi; omega
  cases kind with
  | simple =>
    obtain ⟨h10, s, rfl⟩ := hfit.plain rfl
    have key : ∀ k, ∃ g, iterM (simpleStep N R lam solve V) k f = .ok g ∧ Shaped (fun _ : Fin N => s) R V g.W ∧ g.G.length = N ∧
        T k = (.simple, g) := by
      intro k
      have hm := iterM_map (s1 := simpleStep N R lam solve V) (s2 := optStep N R lam solve q lr V)
        (fun g => ((.simple : OptState K), g)) (fun x => by
          simp only [optStep, bind, Except.bind, Except.map]
          cases simpleStep N R lam solve V x <;> rfl) k f
      have h0' : o0 = .simple := (Except.ok.inj h0).symm
      have hk := hT k
      rw [h0', hm] at hk
      have : ∃ g, iterM (simpleStep N R lam solve V) k f = .ok g ∧ Shaped (fun _ : Fin N => s) R V g.W ∧ g.G.length = N := by
        clear hm hk
        induction k with
        | zero => exact ⟨f, rfl, hS, hG⟩
        | succ k ih =>
          obtain ⟨f1, a1, a2, a3⟩ := ih
          obtain ⟨f2, b1, b2, b3, _⟩ := simpleStep_ok (by omega) h10 a2 a3 lam solve
          exact ⟨f2, by rw [iterM_succ_right, a1]; exact b1, b2, b3⟩
      obtain ⟨g, a1, a2, a3⟩ := this
      rw [a1] at hk
      exact ⟨g, a1, a2, a3, (Except.ok.inj hk).symm⟩
    obtain ⟨g, a1, a2, a3, a4⟩ := key t
    obtain ⟨g', b1, _, _, b4⟩ := key (t + 1)
    obtain ⟨f2, c1, _, _, c4⟩ := simpleStep_ok (by omega) h10 a2 a3 lam solve
    rw [iterM_succ_right, a1] at b1
    change simpleStep N R lam solve V g = _ at b1
    rw [b1] at c1
    cases c1
    rw [b4]
    simp only [Spec.ppStep, kindNum, a4]
    norm_num
    exact c4
  | dt =>
    obtain ⟨p0, s, f1, s', f2, e0, a1, a2, a3⟩ := C04_dt_step_exact h3 hN hS hG lam solve t
    have h0' : o0 = .dt p0 := by
      simp only [optInit, e0, bind, Except.bind, pure, Except.pure] at h0
      exact (Except.ok.inj h0).symm
    have hm := fun k => iterM_map (s1 := dtStep N R lam solve V) (s2 := optStep N R lam solve q lr V)
      (fun g => ((.dt g.1 : OptState K), g.2)) (fun x => by
        obtain ⟨x1, x2⟩ := x
        simp only [optStep, bind, Except.bind, Except.map]
        cases dtStep N R lam solve V (x1, x2) <;> rfl) k (p0, f)
    have k1 := hT t
    have k2 := hT (t + 1)
    rw [h0', hm, a1] at k1
    rw [h0', hm, iterM_succ_right, a1] at k2
    simp only [bind, Except.bind] at k2
    rw [a2] at k2
    rw [← Except.ok.inj k2]
    simp only [Spec.ppStep, kindNum, ← Except.ok.inj k1]
    exact a3
  | msdt =>
    obtain ⟨p0, s, f1, s', f2, e0, a1, a2, a3⟩ := C04_msdt_step_exact h3 hN hS hG lam solve t
    have h0' : o0 = .msdt p0 := by
      simp only [optInit, e0, bind, Except.bind, pure, Except.pure] at h0
      exact (Except.ok.inj h0).symm
    have hm := fun k => iterM_map (s1 := msdtStep N R lam solve V) (s2 := optStep N R lam solve q lr V)
      (fun g => ((.msdt g.1 : OptState K), g.2)) (fun x => by
        obtain ⟨x1, x2⟩ := x
        simp only [optStep, bind, Except.bind, Except.map]
        cases msdtStep N R lam solve V (x1, x2) <;> rfl) k (p0, f)
    have k1 := hT t
    have k2 := hT (t + 1)
    rw [h0', hm, a1] at k1
    rw [h0', hm, iterM_succ_right, a1] at k2
    simp only [bind, Except.bind] at k2
    rw [a2] at k2
    rw [← Except.ok.inj k2]
    simp only [Spec.ppStep, kindNum, ← Except.ok.inj k1]
    exact a3
  | dtlr =>
    obtain ⟨p0, e0, h⟩ := dtlr_reach h3 hN hS hG lam solve q lr
    obtain ⟨s, f1, a1, a2, a3, a4, -⟩ := h t
    obtain ⟨s', f2, b1, -, -, -, b5⟩ := dtlrStep_ok h3 hN lam solve q lr a2 a3 a4
    have h0' : o0 = .dtlr p0 := by
      simp only [optInit, e0, bind, Except.bind, pure, Except.pure] at h0
      exact (Except.ok.inj h0).symm
    have hm := fun k => iterM_map (s1 := dtlrStep N R lam solve q lr V) (s2 := optStep N R lam solve q lr V)
      (fun g => ((.dtlr g.1 : OptState K), g.2)) (fun x => by
        obtain ⟨x1, x2⟩ := x
        simp only [optStep, bind, Except.bind, Except.map]
        cases dtlrStep N R lam solve q lr V (x1, x2) <;> rfl) k (p0, f)
    have k1 := hT t
    have k2 := hT (t + 1)
    rw [h0', hm, a1] at k1
    rw [h0', hm, iterM_succ_right, a1] at k2
    simp only [bind, Except.bind] at k2
    rw [b1] at k2
    rw [← Except.ok.inj k2]
    simp only [Spec.ppStep, kindNum, ← Except.ok.inj k1]
    exact b5
  | msdtlr =>
    obtain ⟨p0, S, F, e0, s0, f0, hst, h⟩ := C09_msdtlr_cache_coherent h3 hN hS hG lam solve q lr
    have h0' : o0 = .msdtlr p0 := by
      simp only [optInit, e0, bind, Except.bind, pure, Except.pure] at h0
      exact (Except.ok.inj h0).symm
    have hm := fun k => iterM_map (s1 := msdtlrStep N R lam solve q lr V) (s2 := optStep N R lam solve q lr V)
      (fun g => ((.msdtlr g.1 : OptState K), g.2)) (fun x => by
        obtain ⟨x1, x2⟩ := x
        simp only [optStep, bind, Except.bind, Except.map]
        cases msdtlrStep N R lam solve q lr V (x1, x2) <;> rfl) k (p0, f)
    have hi : ∀ k, iterM (msdtlrStep N R lam solve q lr V) k (p0, f) = .ok (S k, F k) := by
      intro k
      induction k with
      | zero => rw [s0, f0]; rfl
      | succ k ih => rw [iterM_succ_right, ih]; exact hst k
    have hk : ∀ k, (T k).2 = F k := by
      intro k
      have := hT k
      rw [h0', hm, hi] at this
      rw [← Except.ok.inj this]
    have := (h t).2.2
    simp only [Spec.ppStep, kindNum, hk]
    exact this

end


theorem dispatch_num {o : Opts} (hC : o.model.head? = some 'C') (h0 : 0 ≤ o.pp) (h4 : o.pp ≤ 4) :
    ∃ k, dispatch o = some k ∧ kindNum k = o.pp := by
  have hC' : o.model[0]? = some 'C' := by rw [← List.head?_eq_getElem?]; exact hC
  unfold dispatch
  rw [if_pos hC']
  have : o.pp = 0 ∨ o.pp = 1 ∨ o.pp = 2 ∨ o.pp = 3 ∨ o.pp = 4 := by omega
  rcases this with h | h | h | h | h <;> rw [h] <;> simp [kindNum]

theorem optInit_ok {n : ℕ} (h3 : 3 ≤ n) (h31 : n ≤ 31) (k : OptKind) : ∃ o0, optInit ℝ n k = .ok o0 := by
  cases k with
  | simple => exact ⟨_, rfl⟩
  | dt =>
    obtain ⟨o0, h, -⟩ := dtInit_ok h3 h31
    exact ⟨_, by simp only [optInit, h, bind, Except.bind, pure, Except.pure]; rfl⟩
  | msdt =>
    obtain ⟨o0, h, -⟩ := msdtInit_ok h3 h31
    exact ⟨_, by simp only [optInit, h, bind, Except.bind, pure, Except.pure]; rfl⟩
  | dtlr =>
    obtain ⟨o0, h, -⟩ := dtlrInit_ok (K := ℝ) h3 h31 (fun _ => 1) 0 0 (fun _ => 0) (fun _ _ _ => 0)
    exact ⟨_, by simp only [optInit, h, bind, Except.bind, pure, Except.pure]; rfl⟩
  | msdtlr =>
    obtain ⟨o0, h, -⟩ := msdtlrInit_ok (K := ℝ) h3 h31 (fun _ => 1) 0 0 (fun _ => 0) (fun _ _ _ _ => 0) (fun _ _ _ => 0)
    exact ⟨_, by simp only [optInit, h, bind, Except.bind, pure, Except.pure]; rfl⟩

theorem stepSweeps_num (N : ℕ) (k : OptKind) : stepSweeps N k = Spec.ppSweeps (kindNum k) N := by
  cases k <;> simp [stepSweeps, Spec.ppSweeps, kindNum]

theorem stepLimit_le {N : ℕ} (h3 : 3 ≤ N) {m : ℤ} (hm : 0 ≤ m) (k : OptKind) : (stepLimit N m k : ℤ) ≤ 2 * (m + 1) := by
  have h : (3 : ℚ) ≤ N := by exact_mod_cast h3
  have hm' : (0 : ℚ) ≤ m := by exact_mod_cast hm
  have key : ⌈((m : ℚ) + 1) * N / (N - 1)⌉₊ ≤ (2 * (m + 1)).toNat := by
    apply Nat.ceil_le.2
    rw [div_le_iff₀ (by linarith)]
    have : (((2 * (m + 1)).toNat : ℤ) : ℚ) = 2 * (m + 1) := by
      rw [Int.toNat_of_nonneg (by omega)]
      push_cast
      ring
    rw [Int.cast_natCast] at this
    rw [this]
    nlinarith
  cases k <;> simp only [stepLimit] <;> omega

/-- A tensor `-tensor` value whose order and mode lengths are `-dim` and `-size`. -/
def PlainKind (o : Opts) : Prop :=
  tensorKind o.tensor = .poisson2 ∨ tensorKind o.tensor = .collinear ∨ tensorKind o.tensor = .random ∨
    tensorKind o.tensor = .random2

/-- What `main` of run.cxx computes, `V` being the tensor: `tr t` are factors and recorded gradients after `t` steps of optimizer
number `-pp` with regularisation 0, from the random start; `g t` is the norm of the recorded gradients; the run ends after the first
step at which a check (each `-resprint` steps and in the last sweep) finds `g t < tol * ‖V‖` or the time limit passed, or after
`-maxiter` whole sweeps; the log has a line for each check, with the true residual. -/
structure RunOutcome (E : MainEnv) (lr : Spec.LowRank ℝ) (o : Opts) (hN : 0 < o.dim.toNat) (V : Tensor ℝ)
    (r : AlsEnd (OptState ℝ × Fac ℝ)) (tr : ℕ → Spec.AlsState o.dim.toNat ℝ) (g : ℕ → ℝ) : Prop where
  startW : ∀ j, ∀ x < o.size.toNat, ∀ c < o.R.toNat, (tr 0).W j x c = E.w0 j x c
  startG : ∀ j, ∀ x < o.size.toNat, ∀ c < o.R.toNat, (tr 0).G j x c = E.g0 j x c
  steps : ∀ t, tr (t + 1) = Spec.ppStep o.pp hN (fun _ => o.size.toNat) o.R.toNat 0 E.solve o.updateRank.toNat lr
    (arr V o.dim.toNat) tr t
  result : facs o.dim.toNat r.st.2 = tr r.iters
  grads : ∀ t, ∃ f : Fac ℝ, facs o.dim.toNat f = tr t ∧ gradnorm f.G o.dim.toNat = .ok (g t)
  sweeps : r.sweeps = r.iters * Spec.ppSweeps o.pp o.dim.toNat
  bound : (r.iters : ℤ) ≤ 2 * (o.maxiter + 1)
  before : ∀ t < r.iters, ⌊(t : ℚ) * Spec.ppSweeps o.pp o.dim.toNat⌋ ≤ o.maxiter ∧
    ((o.resprint ∣ t ∨ (o.maxiter : ℚ) ≤ t * Spec.ppSweeps o.pp o.dim.toNat) →
      o.tol.toReal * norm2 V ≤ g t ∧ E.clock t ≤ o.timelimit.toReal)
  stop : ⌊r.sweeps⌋ ≤ o.maxiter → (o.resprint ∣ r.iters ∨ (o.maxiter : ℚ) ≤ r.sweeps) ∧
    (g r.iters < o.tol.toReal * norm2 V ∨ o.timelimit.toReal < E.clock r.iters)
  rows : ∀ row, row ∈ r.rows ↔ ∃ t ≤ r.iters, ⌊(t : ℚ) * Spec.ppSweeps o.pp o.dim.toNat⌋ ≤ o.maxiter ∧
    (o.resprint ∣ t ∨ (o.maxiter : ℚ) ≤ t * Spec.ppSweeps o.pp o.dim.toNat) ∧
    row = ⟨t, t * Spec.ppSweeps o.pp o.dim.toNat, g t, Real.sqrt (∑ idx ∈ Spec.Box fun _ : Fin o.dim.toNat => o.size.toNat,
      (arr V o.dim.toNat idx - Spec.recon o.R.toNat (tr t).W idx) ^ 2)⟩
  order : (r.rows.map AlsRow.iter).Pairwise (· < ·)

theorem C59_run_of {E : MainEnv} {o : Opts} (lr : ℕ → Bool → Spec.LowRank ℝ) (hpp0 : 0 ≤ o.pp) (hmi : 0 ≤ o.maxiter)
    (hx : o.tol.Finite) (htl : o.timelimit.Finite) (hr : o.resprint ≠ 0) (hk : PlainKind o) (hin : InputOk E o) (h3 : 3 ≤ o.dim)
    (h18 : o.dim ≤ 18) (hC : o.model.head? = some 'C') (hpp : o.pp ≤ 4) (h10 : o.pp = 4 → o.dim ≤ 10) {fuel : ℕ}
    (hfu : 2 * (o.maxiter + 1) < fuel) :
    ∃ V r tr g, runMain E lr fuel o = .ok (V, some r) ∧ InputSpec E o V ∧
      RunOutcome E (lr o.updateRank.toNat (decide (o.randomsvd = 1))) o (by omega) V r tr g := by
  obtain ⟨V, v1, v2⟩ := C57_tensor hin
  have hd : MainDims o (fun _ : Fin o.dim.toNat => o.size.toNat) := by
    unfold MainDims
    rw [← replicate_ofFn]
    rcases hk with h | h | h | h <;> rw [h] <;> rfl
  have hV := input_lens v2 hd hin
  obtain ⟨k, k1, k2⟩ := dispatch_num hC hpp0 hpp
  have hfit : OptFits k (fun _ : Fin o.dim.toNat => o.size.toNat) := by
    refine ⟨by omega, by omega, fun h => ⟨?_, _, rfl⟩⟩
    subst h
    have := h10 k2.symm
    omega
  have h3' := hfit.lo
  have hW := fillMats_shaped hV o.R.toNat E.w0
  have hGs := fillMats_shaped hV o.R.toNat E.g0
  set f : Fac ℝ := ⟨fillMats (List.ofFn fun _ : Fin o.dim.toNat => o.size.toNat) o.R.toNat E.w0,
    fillMats (List.ofFn fun _ : Fin o.dim.toNat => o.size.toNat) o.R.toNat E.g0⟩ with hf
  have hlim := stepLimit_le h3' hmi k
  obtain ⟨o0, s, e0, e1, T, c, r, t1, t2, t3, H⟩ := cpdAls_hist (f := f) hfit hW hGs.count 0 E.solve o.updateRank.toNat
    (lr o.updateRank.toNat (decide (o.randomsvd = 1)))
    (a := ⟨o.tol.toReal * norm2 V, o.timelimit.toReal, o.maxiter, o.resprint⟩) hr E.clock 0 (fuel := fuel)
    (by simp only; omega)
  obtain rfl : (o0, f) = s := Except.ok.inj e1
  have hT0 : T 0 = (o0, f) := (Except.ok.inj (t1 0)).symm
  have hpos := stepSweeps_pos h3' k
  have hb := H.bound
  rw [alsBound_kind h3'] at hb
  simp only at hb
  have hinc : stepSweeps o.dim.toNat k = Spec.ppSweeps o.pp o.dim.toNat := by rw [stepSweeps_num, k2]
  have hpos' := hpos
  rw [hinc] at hpos'
  have hfl := fun t => floor_le_iff (m := o.maxiter) hpos' t
  have hck : ∀ t : ℕ, alsChecked ⟨o.tol.toReal * norm2 V, o.timelimit.toReal, o.maxiter, o.resprint⟩ t
      (t * Spec.ppSweeps o.pp o.dim.toNat) ↔
      (o.resprint ∣ (t : ℤ) ∨ (o.maxiter : ℚ) ≤ t * Spec.ppSweeps o.pp o.dim.toNat) := by
    intro t
    unfold alsChecked
    rw [← Int.dvd_iff_tmod_eq_zero]
    constructor
    · rintro (h | h | h)
      · exact .inl h
      · exact .inr h
      · rcases mul_eq_zero.1 h with h | h
        · left
          rw [show t = 0 by exact_mod_cast h]
          exact dvd_zero _
        · exact absurd h hpos'.ne'
    · rintro (h | h)
      · exact .inl h
      · exact .inr (.inl h)
  have hsh : ∀ t, Shaped (fun _ : Fin o.dim.toNat => o.size.toNat) o.R.toNat V (T t).2.W := by
    intro t
    obtain ⟨o0', g1, g2⟩ := opt_reach (f := f) hfit hW hGs.count 0 E.solve o.updateRank.toNat
      (lr o.updateRank.toNat (decide (o.randomsvd = 1)))
    rw [e0] at g1
    obtain ⟨s', g3, g4, -⟩ := g2 t
    rw [← Except.ok.inj g1, t1 t] at g3
    rw [Except.ok.inj g3]
    exact g4
  have hres : ∀ t, (c t).2 = Real.sqrt (∑ idx ∈ Spec.Box fun _ : Fin o.dim.toNat => o.size.toNat,
      (arr V o.dim.toNat idx - Spec.recon o.R.toNat (mats (T t).2.W) idx) ^ 2) := by
    intro t
    have h := (t2 t).2
    rw [C16_residual (by omega) hfit.hi (hsh t)] at h
    exact (Except.ok.inj h).symm
  refine ⟨V, r, fun t => facs o.dim.toNat (T t).2, fun t => (c t).1, ?_, v2, ?_⟩
  · unfold runMain
    rw [v1, k1]
    simp only [bind, Except.bind, pure, Except.pure]
    rw [e0]
    simp only
    have ha : initAsserts V.lens (List.replicate V.lens.length o.R.toNat) o.dim.toNat o.size.toNat o.R.toNat = .ok () := by
      rw [hV, ← replicate_ofFn]
      unfold initAsserts
      simp [List.zip_replicate]
    rw [ha]
    simp only
    rw [hV, replicate_ofFn, ← hf, mixCmp_finite hx htl, cpdAlsC_real, t3]
  · refine ⟨?_, ?_, ?_, ?_, ?_, ?_, by omega, ?_, ?_, ?_, ?_⟩
    · intro j x hx c hc
      simp only [hT0, hf]
      exact fillMats_mats j hx hc
    · intro j x hx c hc
      simp only [hT0, hf]
      exact fillMats_mats j hx hc
    · intro t
      rw [← k2]
      exact opt_spec hfit (by omega) hW hGs.count 0 E.solve o.updateRank.toNat _ e0 t1 t
    · rw [H.state]
    · exact fun t => ⟨(T t).2, rfl, (t2 t).1⟩
    · rw [H.sweeps, hinc]
    · intro t ht
      refine ⟨?_, fun h => ?_⟩
      · have h1 : t < alsBound o.maxiter (stepSweeps o.dim.toNat k) := lt_of_lt_of_le ht H.bound
        rw [hinc] at h1
        exact (hfl t).2 h1
      · have := H.before t ht
        unfold Stops at this
        rw [hinc, hck] at this
        have h2 := fun h' => this ⟨h, h'⟩
        simp only [not_or, not_lt] at h2
        exact ⟨not_lt.1 fun h' => h2 (.inl h'), not_lt.1 fun h' => h2 (.inr h')⟩
    · intro h
      rw [H.sweeps, hinc] at h
      have hlt := (hfl _).1 h
      have hbr : r.broke = true := by
        by_contra hb'
        have := H.atEnd (by simpa using hb')
        rw [hinc] at this
        simp only at this
        omega
      have := (H.atBreak hbr).2
      unfold Stops at this
      rw [hinc, hck] at this
      rw [H.sweeps, hinc]
      exact this
    · intro row
      rw [H.rows]
      unfold logRows
      simp only [List.mem_map, List.mem_filter, decide_eq_true_eq, List.mem_range, hinc, hfl, hck]
      constructor
      · rintro ⟨t, ⟨ht, h1⟩, rfl⟩
        have hlt : t ≤ r.iters ∧ t < alsBound o.maxiter (Spec.ppSweeps o.pp o.dim.toNat) := by
          by_cases hbr : r.broke = true
          · rw [if_pos hbr] at ht
            have := (H.atBreak hbr).1
            rw [hinc] at this
            exact ⟨by omega, by simp only at this; omega⟩
          · rw [if_neg hbr] at ht
            have := H.bound
            rw [hinc] at this
            exact ⟨by omega, by simp only at this; omega⟩
        exact ⟨t, hlt.1, hlt.2, h1, by rw [hres]⟩
      · rintro ⟨t, h1, h2, h3, rfl⟩
        refine ⟨t, ⟨?_, h3⟩, by rw [hres]⟩
        by_cases hbr : r.broke = true
        · rw [if_pos hbr]; omega
        · rw [if_neg hbr]
          have := H.atEnd (by simpa using hbr)
          rw [hinc] at this
          simp only at this
          omega
    · rw [H.rows]
      unfold logRows
      rw [List.map_map]
      exact List.Pairwise.map _ (fun a b h => h) (List.Pairwise.filter _ (List.pairwise_lt_range))


/-- **C59 (run.cxx).** For every command line with `-model C..`, `-pp` at most 4, order 3..18 (for `-pp 4` up to 10), `-resprint` not 0,
and every `-tensor` value `p2`, `c`, `r`, `r2` whose tensor can be built; for all random numbers, MPI ranks, clocks, solvers and
low-rank routines: `main` builds the documented tensor and `als` returns with `RunOutcome`. -/
theorem C59_run {E : MainEnv} {o : Opts} (lr : ℕ → Bool → Spec.LowRank ℝ) {atof : CStr → F64} {argv : List CStr}
    (ho : runOpts atof argv = .ok o) (hx : o.tol.Finite) (htl : o.timelimit.Finite) (hr : o.resprint ≠ 0) (hk : PlainKind o) (hin : InputOk E o) (h3 : 3 ≤ o.dim)
    (h18 : o.dim ≤ 18) (hC : o.model.head? = some 'C') (hpp : o.pp ≤ 4) (h10 : o.pp = 4 → o.dim ≤ 10) {fuel : ℕ}
    (hfu : 2 * (o.maxiter + 1) < fuel) :
    ∃ V r tr g, runMain E lr fuel o = .ok (V, some r) ∧ InputSpec E o V ∧
      RunOutcome E (lr o.updateRank.toNat (decide (o.randomsvd = 1))) o (by omega) V r tr g := by
  obtain ⟨-, hpp0, -, hmi, -⟩ := C44_ranges ho
  exact C59_run_of lr hpp0 hmi hx htl hr hk hin h3 h18 hC hpp h10 hfu

/-- **C59 (residuals).** For `-pp 0`, `-pp 1` and `-pp 4` (no low-rank corrections) and a solver that is exact whenever the normal
equations have a solution, no step increases the residual `‖V - [[W]]‖`, and the residuals in the log do not increase. -/
theorem C59_residual_monotone {E : MainEnv} {lr : Spec.LowRank ℝ} {o : Opts} {hN : 0 < o.dim.toNat} {V : Tensor ℝ}
    {r : AlsEnd (OptState ℝ × Fac ℝ)} {tr : ℕ → Spec.AlsState o.dim.toNat ℝ} {g : ℕ → ℝ} (H : RunOutcome E lr o hN V r tr g)
    (hpp : o.pp = 0 ∨ o.pp = 1 ∨ o.pp = 4) (hs : Spec.SolvesConsistent E.solve) :
    (∀ t t', t ≤ t' → Spec.resid2 (fun _ => o.size.toNat) o.R.toNat (arr V o.dim.toNat) (tr t').W ≤
      Spec.resid2 (fun _ => o.size.toNat) o.R.toNat (arr V o.dim.toNat) (tr t).W) ∧
    r.rows.Pairwise fun a b => b.diffV ≤ a.diffV := by
  have hfull : ∀ W : Fin o.dim.toNat → ℕ → ℕ → ℝ, Spec.fullObj2 (fun _ => o.size.toNat) o.R.toNat 0 (arr V o.dim.toNat) W =
      Spec.resid2 (fun _ => o.size.toNat) o.R.toNat (arr V o.dim.toNat) W := by
    intro W
    simp [Spec.fullObj2]
  have hrun := fun modes st => Spec.alsRun_mono (dims := fun _ : Fin o.dim.toNat => o.size.toNat) (R := o.R.toNat) (lam := (0 : ℝ))
    (solve := E.solve) (V := arr V o.dim.toNat) le_rfl (Spec.alsFactor_solves (.inl ⟨le_rfl, hs⟩)) modes st
  simp only [hfull] at hrun
  have hone : ∀ t, Spec.resid2 (fun _ => o.size.toNat) o.R.toNat (arr V o.dim.toNat) (tr (t + 1)).W ≤
      Spec.resid2 (fun _ => o.size.toNat) o.R.toNat (arr V o.dim.toNat) (tr t).W := by
    intro t
    rw [H.steps t]
    unfold Spec.ppStep
    rcases hpp with h | h | h <;> simp only [h] <;> norm_num
    · exact hrun _ _
    · exact hrun _ _
    · exact hrun _ _
  have hmono : ∀ t t', t ≤ t' → Spec.resid2 (fun _ => o.size.toNat) o.R.toNat (arr V o.dim.toNat) (tr t').W ≤
      Spec.resid2 (fun _ => o.size.toNat) o.R.toNat (arr V o.dim.toNat) (tr t).W := by
    intro t t' h
    induction t', h using Nat.le_induction with
    | base => exact le_rfl
    | succ m _ ih => exact (hone m).trans ih
  refine ⟨hmono, ?_⟩
  have ho := H.order
  rw [List.pairwise_map] at ho
  refine List.Pairwise.imp_of_mem ?_ ho
  intro a b ha hb hab
  obtain ⟨t, -, -, -, rfl⟩ := (H.rows a).1 ha
  obtain ⟨t', -, -, -, rfl⟩ := (H.rows b).1 hb
  exact Real.sqrt_le_sqrt (hmono t t' hab.le)

/-- **C59 (violated: the default tensor).** With `-tensor p` (the default) and an even order, every optimizer run aborts. -/
theorem C59_poisson_aborts {E : MainEnv} {o : Opts} (lr : ℕ → Bool → Spec.LowRank ℝ) (hk : tensorKind o.tensor = .poisson)
    (hin : InputOk E o) (h31 : o.dim ≤ 31) (hC : o.model.head? = some 'C') (h0 : 0 ≤ o.pp) (h4 : o.pp ≤ 4) (fuel : ℕ) :
    runMain E lr fuel o = .error .abort := by
  obtain ⟨V, v1, v2⟩ := C57_tensor hin
  obtain ⟨k, k1, -⟩ := dispatch_num hC h0 h4
  unfold InputOk at hin
  rw [hk] at hin
  obtain ⟨-, -, -, hd4, -⟩ := hin
  unfold InputSpec at v2
  rw [hk] at v2
  obtain ⟨d, d1, d2, -⟩ := v2
  obtain ⟨o0, e0⟩ := optInit_ok (n := o.dim.toNat) (by omega) (by omega) k
  unfold runMain
  rw [v1, k1]
  simp only [bind, Except.bind, pure, Except.pure]
  rw [e0]
  simp only
  have ha : initAsserts V.lens (List.replicate V.lens.length o.R.toNat) o.dim.toNat o.size.toNat o.R.toNat = .error .abort := by
    unfold initAsserts
    rw [if_pos]
    rw [d2, List.length_replicate]
    omega
  rw [ha]

/-- **C59 (violated: the data sets).** With `-tensor o1` and `-tensor o2` every optimizer run aborts, whatever `-size`. -/
theorem C59_datasets_abort {E : MainEnv} {o : Opts} (lr : ℕ → Bool → Spec.LowRank ℝ)
    (hk : tensorKind o.tensor = .coil ∨ tensorKind o.tensor = .timelapse)
    (hd : o.dim = 4) (hC : o.model.head? = some 'C') (h0 : 0 ≤ o.pp) (h4 : o.pp ≤ 4) (fuel : ℕ) :
    runMain E lr fuel o = .error .abort := by
  have hin : InputOk E o := by
    unfold InputOk
    rcases hk with h | h <;> rw [h] <;> exact hd
  obtain ⟨V, v1, v2⟩ := C57_tensor hin
  obtain ⟨k, k1, -⟩ := dispatch_num hC h0 h4
  obtain ⟨o0, e0⟩ := optInit_ok (n := o.dim.toNat) (by omega) (by omega) k
  have hl : ∃ a b c d, V.lens = [a, b, c, d] ∧ a ≠ b := by
    unfold InputSpec at v2
    rcases hk with h | h <;> rw [h] at v2
    · exact ⟨_, _, _, _, v2.1, by norm_num⟩
    · exact ⟨_, _, _, _, v2.1, by norm_num⟩
  obtain ⟨a, b, c, d, hl, hab⟩ := hl
  unfold runMain
  rw [v1, k1]
  simp only [bind, Except.bind, pure, Except.pure]
  rw [e0]
  simp only
  have ha : initAsserts V.lens (List.replicate V.lens.length o.R.toNat) o.dim.toNat o.size.toNat o.R.toNat = .error .abort := by
    unfold initAsserts
    rw [hl, hd, if_neg (by simp), if_neg]
    simp only [List.length_cons, List.length_nil, List.replicate, List.zip_cons_cons, List.zip_nil_right, List.all_cons, List.all_nil,
      Bool.and_eq_true, decide_eq_true_eq, and_true]
    omega
  rw [ha]

/-- Looking up another option is not affected by an option in front. -/
theorem lookup_skip {prog flag x name : CStr} {rest : List CStr} (hp : prog.head? ≠ some '-') (hx : x.head? ≠ some '-')
    (hn : name.head? = some '-') (hne : flag ≠ name) :
    getCmdOption (prog :: flag :: x :: rest) name = getCmdOption (prog :: rest) name := by
  have h1 : prog ≠ name := by rintro rfl; exact hp hn
  have h2 : x ≠ name := by rintro rfl; exact hx hn
  unfold getCmdOption
  simp [List.dropWhile_cons, h1, h2, hne]

/-- The options that have no effect. -/
def ignoredFlags : List String := ["-lambda", "-magni", "-pp_res_tol", "-update_percentage_pp", "-tensorfile"]

/-- A model whose name does not start with `C` (`-model Tucker`), or a `-pp` above 4: the tensor is set up, nothing is decomposed,
and the program ends normally, on every tensor class it can build. -/
theorem C59_no_decomposition {E : MainEnv} {o : Opts} (lr : ℕ → Bool → Spec.LowRank ℝ) (hin : InputOk E o)
    (hC : o.model.head? ≠ some 'C' ∨ 4 < o.pp) (fuel : ℕ) :
    ∃ V, runMain E lr fuel o = .ok (V, none) ∧ InputSpec E o V := by
  obtain ⟨V, v1, v2⟩ := C57_tensor hin
  have hd : dispatch o = none := by
    unfold dispatch
    rw [← List.head?_eq_getElem?]
    rcases hC with h | h
    · rw [if_neg h]
    · rw [if_neg (show ¬o.pp = 0 by omega), if_neg (show ¬o.pp = 1 by omega), if_neg (show ¬o.pp = 2 by omega),
        if_neg (show ¬o.pp = 3 by omega), if_neg (show ¬o.pp = 4 by omega), ite_self]
  refine ⟨V, ?_, v2⟩
  unfold runMain
  rw [v1, hd]
  rfl

/-- **C59 (violated: options without effect).** `-lambda`, `-magni`, `-pp_res_tol`, `-update_percentage_pp` and `-tensorfile` are
accepted but change nothing: the run is the same without them. -/
theorem C59_ignored_options (E : MainEnv) (lr : ℕ → Bool → Spec.LowRank ℝ) (atof : CStr → F64) (fuel : ℕ) {prog x : CStr}
    {flag : String} (rest : List CStr) (hf : flag ∈ ignoredFlags) (hp : prog.head? ≠ some '-') (hx : x.head? ≠ some '-') :
    runProgram E lr atof fuel (prog :: flag.toList :: x :: rest) = runProgram E lr atof fuel (prog :: rest) := by
  have hl : ∀ name : String, name.toList.head? = some '-' → flag ≠ name →
      getCmdOption (prog :: flag.toList :: x :: rest) name.toList = getCmdOption (prog :: rest) name.toList := by
    intro name h1 h2
    exact lookup_skip hp hx h1 fun h => h2 (String.toList_inj.1 h)
  have hi : ∀ (name : String) (bad : ℤ → Prop) [DecidablePred bad] (d : ℤ), name.toList.head? = some '-' → flag ≠ name →
      intOpt (prog :: flag.toList :: x :: rest) name bad d = intOpt (prog :: rest) name bad d := by
    intro name bad _ d h1 h2
    unfold intOpt
    rw [hl name h1 h2]
  have hd : ∀ (name : String) (bad : F64 → Prop) (d : ℝ), name.toList.head? = some '-' → flag ≠ name →
      dblOpt atof (prog :: flag.toList :: x :: rest) name bad d = dblOpt atof (prog :: rest) name bad d := by
    intro name bad d h1 h2
    unfold dblOpt
    rw [hl name h1 h2]
  have hne : ∀ name : String, name ∉ ignoredFlags → flag ≠ name := by rintro name h rfl; exact h hf
  unfold runProgram runOpts
  rw [hi "-pp" _ _ rfl (hne _ (by decide)), hi "-dim" _ _ rfl (hne _ (by decide)), hi "-maxiter" _ _ rfl (hne _ (by decide)),
    hi "-size" _ _ rfl (hne _ (by decide))]
  simp only [hi "-rank" _ _ rfl (hne _ (by decide)), hi "-updaterank" _ _ rfl (hne _ (by decide)),
    hi "-issparse" _ _ rfl (hne _ (by decide)), hi "-resprint" _ _ rfl (hne _ (by decide)),
    hi "-randomsvd" _ _ rfl (hne _ (by decide)), hd "-timelimit" _ _ rfl (hne _ (by decide)), hd "-tol" _ _ rfl (hne _ (by decide)),
    hd "-colmin" _ _ rfl (hne _ (by decide)), hd "-colmax" _ _ rfl (hne _ (by decide)), hd "-rationoise" _ _ rfl (hne _ (by decide)),
    modelOpt, strOpt, hl "-model" rfl (hne _ (by decide)), hl "-tensor" rfl (hne _ (by decide)), bind, Except.bind, pure, Except.pure]
  generalize intOpt (prog :: rest) "-pp" (· < 0) 0 = a1
  generalize intOpt (prog :: rest) "-dim" (· < 0) 8 = a2
  generalize intOpt (prog :: rest) "-maxiter" (· < 0) 5000 = a3
  generalize intOpt (prog :: rest) "-size" (· < 0) 10 = a4
  generalize intOpt (prog :: rest) "-issparse" (fun x => x < 0 ∨ x > 1) 0 = a5
  generalize intOpt (prog :: rest) "-resprint" (· < 0) 10 = a6
  generalize intOpt (prog :: rest) "-randomsvd" (fun x => x < 0 ∨ x > 1) 0 = a7
  cases a1 with | error e => rfl | ok a1 =>
  cases a2 with | error e => rfl | ok a2 =>
  cases a3 with | error e => rfl | ok a3 =>
  cases a4 with | error e => rfl | ok a4 =>
  simp only
  generalize intOpt (prog :: rest) "-rank" (· < 0) (Int.tdiv a4 2) = b1
  generalize intOpt (prog :: rest) "-updaterank" (· < 0) (Int.tdiv a4 2) = b2
  cases b1 with | error e => rfl | ok b1 =>
  cases b2 with | error e => rfl | ok b2 =>
  cases a5 with | error e => rfl | ok a5 =>
  cases a6 with | error e => rfl | ok a6 =>
  cases a7 with | error e => rfl | ok a7 => rfl

/-! ## Non-vacuity: `run -tensor r2 -dim 4 -size 3 -pp 1` -/

/-- The options of `run -tensor r2 -dim 4 -size 3 -pp pp` with defaults otherwise. -/
noncomputable def exRunOpts (pp : ℤ) : Opts where
  model := "CP".toList
  tensor := "r2".toList
  pp := pp
  updatePct := .fin 1
  dim := 4
  maxiter := 5000
  timelimit := .fin 5000
  size := 3
  R := 1
  updateRank := 1
  issparse := 0
  resprint := 10
  randomsvd := 0
  tol := .fin 1e-10
  ppResTol := .fin 1e-2
  lambda := .fin 0
  magni := .fin 1
  filename := "out.csv".toList
  tensorfile := "test".toList
  colMin := .fin 0.5
  colMax := .fin 0.9
  ratioNoise := .fin 0.01

theorem exRunOpts_ok (atof : CStr → F64) (p : Char) (hp : p = '0' ∨ p = '1' ∨ p = '2' ∨ p = '3' ∨ p = '4') :
    runOpts atof ["run".toList, "-tensor".toList, "r2".toList, "-dim".toList, "4".toList, "-size".toList, "3".toList, "-pp".toList, [p]] =
      .ok (exRunOpts ((p.toNat : ℤ) - 48)) := by
  rcases hp with h | h | h | h | h <;> subst h <;> rfl

example (atof : CStr → F64) (p : Char) (hp : p = '0' ∨ p = '1' ∨ p = '2' ∨ p = '3' ∨ p = '4') (lr : ℕ → Bool → Spec.LowRank ℝ) :
    ∃ E V r tr g, runProgram E lr atof 20000 ["run".toList, "-tensor".toList, "r2".toList, "-dim".toList, "4".toList, "-size".toList,
      "3".toList, "-pp".toList, [p]] = .ok (V, some r) ∧ Spec.SolvesConsistent E.solve ∧
      RunOutcome E (lr 1 false) (exRunOpts ((p.toNat : ℤ) - 48)) (by norm_num [exRunOpts]) V r tr g := by
  obtain ⟨k, -⟩ := exists_kernOk
  obtain ⟨srt, -, -⟩ := exists_sort_stable
  obtain ⟨slv, hs⟩ := exists_consistent_solver (K := ℝ)
  have ho := exRunOpts_ok atof p hp
  obtain ⟨V, r, tr, g, h1, -, h2⟩ := C59_run (E := { exEnv k srt with solve := slv }) lr ho ⟨_, rfl⟩ ⟨_, rfl⟩ (by simp [exRunOpts]) (.inr (.inr (.inr rfl)))
    trivial (by simp [exRunOpts]) (by simp [exRunOpts]) rfl (by rcases hp with h | h | h | h | h <;> subst h <;> decide)
    (by simp [exRunOpts]) (fuel := 20000) (by simp [exRunOpts])
  refine ⟨_, V, r, tr, g, ?_, hs, h2⟩
  unfold runProgram
  rw [ho]
  exact h1

example (atof : CStr → F64) : ∃ o, runOpts atof ["run".toList] = .ok o ∧ ∀ lr fuel k srt, runMain (exEnv k srt) lr fuel o = .error .abort := by
  refine ⟨{ exRunOpts 0 with tensor := "p".toList, dim := 8, size := 10, R := 5, updateRank := 5 }, rfl, fun lr fuel k srt => ?_⟩
  exact C59_poisson_aborts lr rfl (exEnv_input rfl rfl rfl).1 (by norm_num) rfl (by simp [exRunOpts]) (by simp [exRunOpts]) fuel

/-- `run -model Tucker` with the default tensor ends normally without decomposing. -/
example (atof : CStr → F64) : ∃ o, runOpts atof ["run".toList, "-model".toList, "Tucker".toList] = .ok o ∧
    ∀ lr fuel k srt, ∃ V, runMain (exEnv k srt) lr fuel o = .ok (V, none) := by
  refine ⟨{ exRunOpts 0 with model := "Tucker".toList, tensor := "p".toList, dim := 8, size := 10, R := 5, updateRank := 5 }, rfl,
    fun lr fuel k srt => ?_⟩
  obtain ⟨V, h, -⟩ := C59_no_decomposition (E := exEnv k srt)
    (o := { exRunOpts 0 with model := "Tucker".toList, tensor := "p".toList, dim := 8, size := 10, R := 5, updateRank := 5 })
    lr (exEnv_input rfl rfl rfl).1 (.inl (by simp)) fuel
  exact ⟨V, h⟩

end Properties
