import Verif.Proofs.Fixed
import Verif.Properties.Converge

/-! # C72: the fixed points of ALS are the stationary points of its objective -/

namespace Properties

open Model Finset

variable {N : ℕ}

theorem gradnorm_zero {dims : Fin N → ℕ} {R : ℕ} {V : Tensor ℝ} {G : List (Tensor ℝ)} (hG : Shaped dims R V G)
    (h : ∀ i x r, mats (N := N) G i x r = 0) : gradnorm G N = .ok 0 := by
  rw [C16_gradnorm (dims := dims) (R := R) (fun j => hG.get j)]
  congr 1
  rw [Real.sqrt_eq_zero']
  apply le_of_eq
  refine sum_eq_zero fun j _ => sum_eq_zero fun x _ => sum_eq_zero fun y _ => ?_
  rw [h]
  norm_num

/-- If the stored gradients vanish from step 2 on, `als` stops at the first test after it. -/
theorem als_stops {kind : OptKind} (h3 : 3 ≤ N) {a : AlsArgs} (hres : a.resprint ≠ 0) (ht : 0 < a.tol)
    (hmax : 2 * |a.resprint| ≤ a.maxsweep) {clock : ℕ → ℝ} {tr : ℕ → OptState ℝ × Fac ℝ} {c : ℕ → ℝ × ℝ}
    {r : AlsEnd (OptState ℝ × Fac ℝ)} (H : AlsHist a (stepSweeps N kind) clock tr c r) (hc : ∀ k, 2 ≤ k → (c k).1 = 0) :
    r.ret = true ∧ (r.iters : ℤ) ≤ 2 * |a.resprint| := by
  have hs1 : 1 ≤ a.resprint.natAbs := Int.natAbs_pos.2 hres
  have habs : |a.resprint| = (a.resprint.natAbs : ℤ) := (Int.natCast_natAbs _).symm
  rw [habs] at hmax ⊢
  have hlt : 2 * a.resprint.natAbs < alsBound a.maxsweep (stepSweeps N kind) := by
    rw [alsBound_kind h3]
    have h1 := stepLimit_ge h3 (m := a.maxsweep) (by omega) (kind := kind)
    have h2 : (((2 * a.resprint.natAbs : ℕ) : ℤ) : ℝ) ≤ a.maxsweep := by exact_mod_cast hmax
    rw [Int.cast_natCast] at h2
    have : ((2 * a.resprint.natAbs : ℕ) : ℝ) < stepLimit N a.maxsweep kind := by linarith
    exact_mod_cast this
  have hstop : Stops a (stepSweeps N kind) clock (2 * a.resprint.natAbs) (c (2 * a.resprint.natAbs)).1 := by
    refine ⟨.inl ?_, .inl (by rw [hc _ (by omega)]; exact ht)⟩
    rw [← Int.dvd_iff_tmod_eq_zero]
    push_cast
    exact Dvd.dvd.mul_left (by simp) _
  have hle : r.iters ≤ 2 * a.resprint.natAbs := by
    by_contra hcon
    exact H.before _ (not_le.1 hcon) hstop
  have hbr : r.broke = true := by
    by_contra hne
    have := H.atEnd (by simpa using hne)
    omega
  obtain ⟨hb1, _, _⟩ := H.atBreak hbr
  refine ⟨?_, by exact_mod_cast hle⟩
  rw [H.ret, decide_eq_true_iff]
  have := (floor_le_iff (m := a.maxsweep) (stepSweeps_pos h3 kind) r.iters).2 hb1
  rw [← H.sweeps] at this
  intro he
  rw [he] at this
  have h2 : ((a.maxsweep : ℚ) + 1) = ((a.maxsweep + 1 : ℤ) : ℚ) := by push_cast; ring
  rw [h2, Int.floor_intCast] at this
  omega

section Opt

variable {kind : OptKind} {dims : Fin N → ℕ} {R : ℕ} {V : Tensor ℝ} {f : Fac ℝ} {lam : ℝ} {solve : Spec.Solver ℝ}

/-- What the optimizers do to a problem that a run of ALS updates leaves alone. -/
theorem trace_kept (P : Spec.AlsState N ℝ → Prop)
    (hP : ∀ modes st, P st → P (Spec.alsRun dims R lam solve (arr V N) modes st) ∧
      ∀ i ∈ modes, ∀ x r, (Spec.alsRun dims R lam solve (arr V N) modes st).G i x r = 0)
    {st : ℕ → Spec.AlsState N ℝ} {modes : ℕ → List (Fin N)} (tr : Spec.AlsTrace dims R lam solve (arr V N) st modes)
    (h0 : P (st 0)) (k : ℕ) : P (st k) ∧ (2 ≤ k → ∀ i x r, (st k).G i x r = 0) := by
  have h1 : ∀ k, P (st k) := by
    intro k
    induction k with
    | zero => exact h0
    | succ k ih => rw [tr.step]; exact (hP _ _ ih).1
  refine ⟨h1 k, fun hk i x r => ?_⟩
  obtain ⟨k, rfl⟩ : ∃ j, k = j + 2 := ⟨k - 2, by omega⟩
  rw [tr.two]
  exact (hP _ _ (h1 k)).2 i (tr.cover k i) x r

/-- **C72 (stationary points are kept).** Plain, DT and MSDT optimizers, with a solver that is exact for positive definite
systems: if the gradient of `½‖V - [[W]]‖² + (lam/2)∑‖W_j‖²` with respect to every factor vanishes at the starting factors, and
`lam > 0` or the normal-equation matrices there are positive definite, then no number of steps changes any entry of any factor,
and from the second step on all stored gradients are zero.  So `als` with `tol > 0` and `maxsweep ≥ 2|resprint|` returns `true`
after at most `2|resprint|` steps, with the factors it was given. -/
theorem C72_stationary_kept (hk : kind = .simple ∨ kind = .dt ∨ kind = .msdt) (hfit : OptFits kind dims)
    (hS : Shaped dims R V f.W) (hG : Shaped dims R V f.G) (hsv : Spec.SolvesPosDef solve)
    (hpd : 0 < lam ∨ ∀ i, Spec.PosDef R (Spec.normalMat dims R lam (mats f.W) i))
    (hst : ∀ i, IsModeGradient dims R lam (arr V N) (mats f.W) i fun _ _ => 0) (q : ℕ) (lr : Spec.LowRank ℝ) :
    ∃ (o0 : OptState ℝ) (T : ℕ → OptState ℝ × Fac ℝ), optInit ℝ N kind = .ok o0 ∧
      (∀ k, iterM (optStep N R lam solve q lr V) k (o0, f) = .ok (T k)) ∧
      (∀ k j, ∀ x < dims j, ∀ r < R, mats (T k).2.W j x r = mats f.W j x r) ∧
      (∀ k, 2 ≤ k → ∀ j x r, mats (N := N) (T k).2.G j x r = 0) ∧
      ∀ {a : AlsArgs} (clock : ℕ → ℝ) {fuel : ℕ}, a.resprint ≠ 0 → 0 < a.tol → 2 * |a.resprint| ≤ a.maxsweep →
        stepLimit N a.maxsweep kind < fuel →
        ∃ r, cpdAls kind N R lam solve q lr V a clock fuel (o0, f) = .ok r ∧ r.ret = true ∧
          (r.iters : ℤ) ≤ 2 * |a.resprint| ∧ ∀ j, ∀ x < dims j, ∀ y < R, mats r.st.2.W j x y = mats f.W j x y := by
  obtain ⟨o0, T, modes, h0, t1, t2, tr⟩ := opt_trace hk hfit hS hG lam solve q lr
  have hT0 : (T 0).2 = f := by rw [← Except.ok.inj (t1 0)]
  have hpd' : ∀ i, 0 < dims i → Spec.PosDef R (Spec.normalMat dims R lam (mats f.W) i) := by
    intro i hi
    rcases hpd with h | h
    · exact Spec.normalMat_posDef h hi
    · exact h i
  have key := trace_kept (fun st => Spec.FacEq dims R st.W (mats f.W)) (fun modes st h => Spec.alsRun_fixed hsv hpd'
    (fun i => stationary_iff.1 (hst i)) modes st h) tr (by rw [hT0]; exact fun _ _ _ _ _ => rfl)
  refine ⟨o0, T, h0, t1, fun k => (key k).1, fun k hk => (key k).2 hk, ?_⟩
  intro a clock fuel hres ht hmax hf
  obtain ⟨o0', s, h0', hs, tr', c, r, htr, hc, hr, H⟩ := cpdAls_hist hfit hS hG.count lam solve q lr hres clock 0 hf
  rw [h0] at h0'; cases h0'
  cases hs
  have etr : ∀ k, tr' k = T k := fun k => Except.ok.inj ((htr k).symm.trans (t1 k))
  obtain ⟨e1, e2⟩ := als_stops hfit.lo hres ht hmax H (fun k hk => by
    have := (hc k).1
    rw [etr, gradnorm_zero (t2 k).2 ((key k).2 hk)] at this
    exact (Except.ok.inj this).symm)
  refine ⟨r, hr, e1, e2, ?_⟩
  rw [H.state, etr]
  exact (key _).1

/-- **C72 (only stationary points are kept).** Under `lam > 0`: if at any point of a run two consecutive steps do not change the
factors, the gradient with respect to every factor vanishes there. -/
theorem C72_fixed_is_stationary (hk : kind = .simple ∨ kind = .dt ∨ kind = .msdt) (hfit : OptFits kind dims)
    (hS : Shaped dims R V f.W) (hG : Shaped dims R V f.G) (hl : 0 < lam) (hsv : Spec.SolvesPosDef solve) (q : ℕ)
    (lr : Spec.LowRank ℝ) :
    ∃ (o0 : OptState ℝ) (T : ℕ → OptState ℝ × Fac ℝ), optInit ℝ N kind = .ok o0 ∧
      (∀ k, iterM (optStep N R lam solve q lr V) k (o0, f) = .ok (T k)) ∧
      ∀ k, (∀ j, ∀ x < dims j, ∀ r < R, mats (T (k + 2)).2.W j x r = mats (T k).2.W j x r) →
        ∀ i, IsModeGradient dims R lam (arr V N) (mats (T k).2.W) i fun _ _ => 0 := by
  obtain ⟨o0, T, modes, h0, t1, t2, tr⟩ := opt_trace hk hfit hS hG lam solve q lr
  have hsol := Spec.alsFactor_solves (dims := dims) (R := R) (V := arr V N) (Or.inr ⟨hl, hsv⟩)
  refine ⟨o0, T, h0, t1, fun k hkk i => stationary_iff.2 ?_⟩
  have h2 := tr.two k
  have hle : Spec.fullObj2 dims R lam (arr V N) (facs N (T k).2).W ≤
      Spec.fullObj2 dims R lam (arr V N) (Spec.alsRun dims R lam solve (arr V N) (modes k ++ modes (k + 1)) (facs N (T k).2)).W := by
    rw [← h2]
    exact le_of_eq (Spec.fullObj2_congr fun j x hx r hr => (hkk j x hx r hr).symm)
  exact (Spec.alsRun_stuck hl hsol _ _ hle).2 i (tr.cover k i)

/-- **C72 (exact decompositions are kept).** Plain, DT and MSDT optimizers with `lam = 0` and a solver that is exact for
solvable systems (also singular ones): if the starting factors reproduce `V`, then so do the factors after any number of steps, and
from the second step on all stored gradients are zero.  `als` with `tol > 0` and `maxsweep ≥ 2|resprint|` returns `true` after at
most `2|resprint|` steps, with factors that reproduce `V`, and every residual it logs is zero. -/
theorem C72_exact_kept (hk : kind = .simple ∨ kind = .dt ∨ kind = .msdt) (hfit : OptFits kind dims)
    (hS : Shaped dims R V f.W) (hG : Shaped dims R V f.G) (hsv : Spec.SolvesConsistent solve)
    (hV : ∀ idx ∈ Spec.Box dims, arr V N idx = Spec.recon R (mats f.W) idx) (q : ℕ) (lr : Spec.LowRank ℝ) :
    ∃ (o0 : OptState ℝ) (T : ℕ → OptState ℝ × Fac ℝ), optInit ℝ N kind = .ok o0 ∧
      (∀ k, iterM (optStep N R 0 solve q lr V) k (o0, f) = .ok (T k)) ∧
      (∀ k, ∀ idx ∈ Spec.Box dims, arr V N idx = Spec.recon R (mats (T k).2.W) idx) ∧
      (∀ k, 2 ≤ k → ∀ j x r, mats (N := N) (T k).2.G j x r = 0) ∧
      ∀ {a : AlsArgs} (clock : ℕ → ℝ) {fuel : ℕ}, a.resprint ≠ 0 → 0 < a.tol → 2 * |a.resprint| ≤ a.maxsweep →
        stepLimit N a.maxsweep kind < fuel →
        ∃ r, cpdAls kind N R 0 solve q lr V a clock fuel (o0, f) = .ok r ∧ r.ret = true ∧
          (r.iters : ℤ) ≤ 2 * |a.resprint| ∧
          (∀ idx ∈ Spec.Box dims, arr V N idx = Spec.recon R (mats r.st.2.W) idx) ∧ ∀ row ∈ r.rows, row.diffV = 0 := by
  obtain ⟨o0, T, modes, h0, t1, t2, tr⟩ := opt_trace hk hfit hS hG 0 solve q lr
  have hT0 : (T 0).2 = f := by rw [← Except.ok.inj (t1 0)]
  have key := trace_kept (fun st => Exact dims R (arr V N) st.W) (fun modes st h => alsRun_exact hsv modes st h) tr
    (by rw [hT0]; exact hV)
  refine ⟨o0, T, h0, t1, fun k => (key k).1, fun k hk => (key k).2 hk, ?_⟩
  intro a clock fuel hres ht hmax hf
  obtain ⟨o0', s, h0', hs, tr', c, r, htr, hc, hr, H⟩ := cpdAls_hist hfit hS hG.count 0 solve q lr hres clock 0 hf
  rw [h0] at h0'; cases h0'
  cases hs
  have etr : ∀ k, tr' k = T k := fun k => Except.ok.inj ((htr k).symm.trans (t1 k))
  obtain ⟨e1, e2⟩ := als_stops hfit.lo hres ht hmax H (fun k hk => by
    have := (hc k).1
    rw [etr, gradnorm_zero (t2 k).2 ((key k).2 hk)] at this
    exact (Except.ok.inj this).symm)
  refine ⟨r, hr, e1, e2, ?_, ?_⟩
  · rw [H.state, etr]
    exact (key _).1
  · intro row hrow
    rw [H.rows] at hrow
    unfold logRows at hrow
    simp only [List.mem_map] at hrow
    obtain ⟨j, _, rfl⟩ := hrow
    have h1 := (hc j).2
    rw [etr, C16_residual (by have := hfit.lo; omega) hfit.hi (t2 j).1] at h1
    rw [← Except.ok.inj h1]
    have := exact_iff.1 (key j).1
    unfold Spec.resid2 at this
    simp only
    rw [show (∑ idx ∈ Spec.Box dims, (arr V N idx - Spec.recon R (mats (T j).2.W) idx) ^ 2) = 0 from this, Real.sqrt_zero]

end Opt

section Legacy

variable {dims : Fin N → ℕ} {R : ℕ} {V : Tensor ℝ} {solve : Spec.Solver ℝ}

/-- One sweep of `alsCP_DT` from an exact decomposition of a tensor that is not zero. -/
theorem legacySweep_exact (h4 : 4 ≤ N) (h5 : N ≠ 5) (hN : N ≤ 31) {F : List (Tensor ℝ)} (hF : Shaped dims R V F)
    (hF0 : ∀ i x r, mats (N := N) F i x r = 0) {f : Fac ℝ} (hS : Shaped dims R V f.W) (hG : Shaped dims R V f.G)
    (hsv : Spec.SolvesConsistent solve) (hV : Exact dims R (arr V N) (mats f.W)) (hV0 : ∃ idx ∈ Spec.Box dims, arr V N idx ≠ 0) :
    ∃ f', legacySweep N R 0 solve V F f = .ok f' ∧ Shaped dims R V f'.W ∧ Shaped dims R V f'.G ∧
      Exact dims R (arr V N) (mats f'.W) ∧ ∀ i x r, mats (N := N) f'.G i x r = 0 := by
  obtain ⟨f1, a1, a2, a3, a4⟩ := C25_sweep_is_als h4 h5 hN hF hF0 hS hG.count 0 solve
  have a5 := legacyUpdates_G h4 h5 hN 0 solve hF hS hG a1
  have e : facs N f1 = Spec.alsRun dims R 0 solve (arr V N) (List.finRange N) (facs N f) := a4
  obtain ⟨k1, k2⟩ := alsRun_exact hsv (List.finRange N) (facs N f) (dims := dims) (R := R) (V := arr V N) hV
  rw [← e] at k1 k2
  have hpos : 0 < ∑ idx ∈ Spec.Box dims, arr V N idx ^ 2 := by
    obtain ⟨idx, h1, h2⟩ := hV0
    exact sum_pos' (fun _ _ => sq_nonneg _) ⟨idx, h1, by positivity⟩
  have hobj : Spec.fullObj2 dims R 0 (arr V N) (mats f1.W) = 0 := by
    unfold Spec.fullObj2
    rw [exact_iff.1 k1]; ring
  have hne : ∀ j, facNorm dims R f1.W j ≠ 0 := by
    intro j hj
    obtain ⟨x, hx, r, hr, hxr⟩ := facNorm_ne_zero (le_refl 0) (by rw [hobj]; exact hpos) j
    have h0 := facNorm_sq (dims := dims) (R := R) f1.W j
    rw [hj] at h0
    unfold Spec.frob at h0
    have h1 := (sum_eq_zero_iff_of_nonneg (fun x _ => sum_nonneg fun r _ => mul_self_nonneg _)).1
      (h0.symm.trans (by norm_num)) x (mem_range.2 hx)
    have h2 := (sum_eq_zero_iff_of_nonneg (fun r _ => mul_self_nonneg _)).1 h1 r (mem_range.2 hr)
    exact hxr (mul_self_eq_zero.1 h2)
  obtain ⟨W', w1, w2, w3, _⟩ := C17_normalize (by omega) a2 hne
  refine ⟨⟨W', f1.G⟩, ?_, w2, a5, ?_, fun i x r => k2 i (by simp) x r⟩
  · unfold legacySweep
    simp only [bind, Except.bind]
    rw [a1]
    simp only
    rw [w1]
    rfl
  · intro idx hidx
    rw [w3 idx hidx]
    exact k1 idx hidx

/-- **C72 (`alsCP_DT`, exact decompositions are kept).** Orders 4, 6..18, `F = 0`, `lam = 0`, a tensor that is not zero, and a solver
that is exact for solvable systems: started from factors that reproduce `V`, the driver (which rescales the factors after every
sweep) returns factors that reproduce `V`; all residuals in its log are zero; and with `tol > 0` and `maxiter ≥ |resprint|` it
returns `true` after at most `|resprint|` sweeps. -/
theorem C72_exact_kept_legacy (h4 : 4 ≤ N) (h5 : N ≠ 5) (hN : N ≤ 18) {F : List (Tensor ℝ)} (hF : Shaped dims R V F)
    (hF0 : ∀ i x r, mats (N := N) F i x r = 0) {f : Fac ℝ} (hS : Shaped dims R V f.W) (hG : Shaped dims R V f.G)
    (hsv : Spec.SolvesConsistent solve) (hV : ∀ idx ∈ Spec.Box dims, arr V N idx = Spec.recon R (mats f.W) idx)
    (hV0 : ∃ idx ∈ Spec.Box dims, arr V N idx ≠ 0) {a : LLArgs} (hm : 0 ≤ a.maxiter) (hres : a.resprint ≠ 0)
    (clock : ℕ → ℝ) {fuel : ℕ} (hf : (a.maxiter + 1).toNat < fuel) :
    ∃ r, alsCPDT N R 0 solve V F a clock fuel f = .ok r ∧
      (∀ idx ∈ Spec.Box dims, arr V N idx = Spec.recon R (mats r.st.W) idx) ∧ (∀ row ∈ r.rows, row.2.2 = 0) ∧
      (0 < a.tol → |a.resprint| ≤ a.maxiter → r.ret = true ∧ (r.iter : ℤ) ≤ |a.resprint|) := by
  obtain ⟨r, tr, g, r1, t1, hst, hg, hfs, hrows⟩ := C48_cp_dt h4 h5 hN hF hS hG.count 0 solve hm hres clock hf
  have inv : ∀ k, (Shaped dims R V (tr k).W ∧ Shaped dims R V (tr k).G ∧ Exact dims R (arr V N) (mats (tr k).W)) ∧
      (1 ≤ k → ∀ i x r, mats (N := N) (tr k).G i x r = 0) := by
    intro k
    induction k with
    | zero => rw [← Except.ok.inj (t1 0)]; exact ⟨⟨hS, hG, hV⟩, fun h => absurd h (by omega)⟩
    | succ k ih =>
      obtain ⟨⟨i1, i2, i3⟩, _⟩ := ih
      obtain ⟨f', b1, b2, b3, b4, b5⟩ := legacySweep_exact h4 h5 (by omega) hF hF0 i1 i2 hsv i3 hV0
      have := t1 (k + 1)
      rw [iterM_succ_right', t1 k] at this
      have e : f' = tr (k + 1) := Except.ok.inj (b1.symm.trans this)
      rw [← e]
      exact ⟨⟨b2, b3, b4⟩, fun _ => b5⟩
  refine ⟨r, r1, by rw [hst]; exact (inv _).1.2.2, ?_, ?_⟩
  · intro row hrow
    obtain ⟨k, _, _, rfl⟩ := (hrows row).1 hrow
    have := exact_iff.1 (inv k).1.2.2
    unfold Spec.resid2 at this
    simp only
    rw [show (∑ idx ∈ Spec.Box dims, (arr V N idx - Spec.recon R (mats (tr k).W) idx) ^ 2) = 0 from this, Real.sqrt_zero]
  · intro ht hmax
    have hs1 : 1 ≤ a.resprint.natAbs := Int.natAbs_pos.2 hres
    have habs : |a.resprint| = (a.resprint.natAbs : ℤ) := (Int.natCast_natAbs _).symm
    rw [habs] at hmax ⊢
    have hle : r.iter ≤ a.resprint.natAbs := by
      by_contra hcon
      refine hfs.before _ (not_le.1 hcon) ⟨.inl ?_, .inl ?_⟩
      · rw [← Int.dvd_iff_tmod_eq_zero]
        simp
      · have h1 := hg a.resprint.natAbs
        rw [gradnorm_zero (inv _).1.2.1 ((inv _).2 hs1)] at h1
        rw [← Except.ok.inj h1]
        exact ht
    refine ⟨?_, by exact_mod_cast hle⟩
    by_contra hne
    have h1 := hfs.no.1 (by simpa using hne)
    omega

end Legacy

/-! Non-vacuity: the tensor of ones of shape 2×3×1×4 with its rank-2 factors, and the tensor of twos of shape 2×2×2 with the
factors of ones, a stationary point for `lam = 4`. -/

section Examples

theorem exOnes_exact : ∀ idx ∈ Spec.Box (N := 4) ![2, 3, 1, 4], arr exOnesV 4 idx = Spec.recon 2 (mats exOnesW) idx := by
  intro idx _
  have hm : ∀ (j : Fin 4) (x r : ℕ), mats (N := 4) exOnesW j x r = if r = 0 then 1 else 0 := by
    intro j x r
    fin_cases j <;> simp [mats, mat, exOnesW]
  simp only [Spec.recon, hm, sum_range_succ, sum_range_zero]
  norm_num [Fin.prod_univ_four, arr, exOnesV]

example : ∃ (solve : Spec.Solver ℝ) (o0 : OptState ℝ) (r : AlsEnd (OptState ℝ × Fac ℝ)),
    cpdAls .msdt 4 2 0 solve 1 exLRR exOnesV ⟨1 / 1000, 60, 20, 10⟩ (fun _ => 0) 100 (o0, ⟨exOnesW, exOnesW⟩) = .ok r ∧
    ∀ row ∈ r.rows, row.diffV = 0 := by
  obtain ⟨solve, hs⟩ := exists_consistent_solver (K := ℝ)
  obtain ⟨o0, T, _, _, _, _, h⟩ := C72_exact_kept (.inr (.inr rfl)) exFits (f := ⟨exOnesW, exOnesW⟩) exOnesShaped exOnesShaped hs
    exOnes_exact 1 exLRR
  obtain ⟨r, h1, _, _, _, h2⟩ := h (a := ⟨1 / 1000, 60, 20, 10⟩) (fun _ => 0) (fuel := 100) (by norm_num) (by norm_num)
    (by norm_num) (by
      simp only [stepLimit]
      refine lt_of_le_of_lt (Nat.ceil_le.2 (?_ : _ ≤ ((28 : ℕ) : ℚ))) (by norm_num)
      norm_num)
  exact ⟨solve, o0, r, h1, h2⟩

example : ∃ (solve : Spec.Solver ℝ) (r : LLEnd (Fac ℝ)),
    alsCPDT 4 2 0 solve exOnesV exF0 ⟨1 / 1000, 60, 20, 10⟩ (fun _ => 0) 100 ⟨exOnesW, exOnesW⟩ = .ok r ∧ r.ret = true := by
  obtain ⟨solve, hs⟩ := exists_consistent_solver (K := ℝ)
  obtain ⟨r, h1, _, _, h2⟩ := C72_exact_kept_legacy (N := 4) (R := 2) (by norm_num) (by norm_num) (by norm_num) (F := exF0)
    ⟨rfl, rfl, by intro j M h; fin_cases j <;> (simp [exF0] at h; subst h; rfl)⟩
    (by intro j x r; fin_cases j <;> rfl) (f := ⟨exOnesW, exOnesW⟩) exOnesShaped exOnesShaped hs exOnes_exact
    ⟨fun _ => 0, Spec.mem_Box.2 (by intro j; fin_cases j <;> norm_num), by norm_num [arr, exOnesV]⟩
    (a := ⟨1 / 1000, 60, 20, 10⟩) (by norm_num) (by norm_num) (fun _ => 0) (fuel := 100) (by norm_num)
  exact ⟨solve, r, h1, (h2 (by norm_num) (by norm_num)).1⟩

/-- The tensor of twos. -/
noncomputable def exTwosV : Tensor ℝ := ⟨[2, 2, 2], fun _ => 2⟩

/-- Factors of ones. -/
noncomputable def exTwosW : List (Tensor ℝ) := [⟨[2, 1], fun _ => 1⟩, ⟨[2, 1], fun _ => 1⟩, ⟨[2, 1], fun _ => 1⟩]

theorem exTwosShaped : Shaped (N := 3) (fun _ => 2) 1 exTwosV exTwosW where
  lensV := rfl
  count := rfl
  lensW := by
    intro j M h
    fin_cases j <;> (simp [exTwosW] at h; subst h; rfl)

theorem exTwos_stationary (i : Fin 3) :
    IsModeGradient (fun _ : Fin 3 => 2) 1 4 (arr exTwosV 3) (mats exTwosW) i fun _ _ => 0 := by
  rw [stationary_iff]
  intro x r
  have hm : ∀ (j : Fin 3) (x r : ℕ), mats (N := 3) exTwosW j x r = 1 := by
    intro j x r
    fin_cases j <;> rfl
  unfold Spec.alsGrad Spec.clip
  split_ifs with hx
  · obtain ⟨hx, hr⟩ := hx
    have hc : (Finset.filter (fun idx : Fin 3 → ℕ => idx i = x) (Spec.Box fun _ => 2)).card = 4 := by
      revert x i
      intro i x hx
      interval_cases x <;> fin_cases i <;> decide
    have hcard : (univ.erase i : Finset (Fin 3)).card = 2 := by simp
    have hr0 : r = 0 := by omega
    subst hr0
    simp only [Spec.mttkrp, Spec.normalMat, Spec.clip, Spec.gramExcept, Spec.gram, hm, prod_const_one, mul_one, one_mul, sum_const,
      card_range, nsmul_eq_mul, prod_const, hcard, hc, sum_range_one, show ∀ idx, arr exTwosV 3 idx = 2 from fun _ => rfl]
    norm_num
  · rfl

example : ∃ (k : Kern ℝ) (o0 : OptState ℝ) (r : AlsEnd (OptState ℝ × Fac ℝ)), KernOk k ∧
    cpdAls .simple 3 1 4 (cholSolver k) 1 exLRR exTwosV ⟨1 / 1000, 60, 20, 10⟩ (fun _ => 0) 100 (o0, ⟨exTwosW, exTwosW⟩) = .ok r ∧
    r.ret = true := by
  obtain ⟨k, hk⟩ := exists_kernOk
  obtain ⟨o0, T, _, _, _, _, h⟩ := C72_stationary_kept (N := 3) (kind := .simple) (.inl rfl)
    ⟨by norm_num, by norm_num, fun _ => ⟨by norm_num, 2, rfl⟩⟩ (f := ⟨exTwosW, exTwosW⟩) exTwosShaped exTwosShaped
    (C12_cholesky_solver hk) (lam := 4) (.inl (by norm_num)) exTwos_stationary 1 exLRR
  obtain ⟨r, h1, h2, _⟩ := h (a := ⟨1 / 1000, 60, 20, 10⟩) (fun _ => 0) (fuel := 100) (by norm_num) (by norm_num)
    (by norm_num) (by simp [stepLimit])
  exact ⟨k, o0, r, hk, h1, h2⟩

end Examples

end Properties
