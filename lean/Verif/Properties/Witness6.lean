import Verif.Properties.BenchTuck
import Verif.Properties.RunMain
import Verif.Properties.TuckConverge
import Verif.Properties.Converge
import Verif.Properties.Again

/-! Non-vacuity, continued (6): uneven benchmark repetitions, idempotence of `CPD::als`. -/

namespace Properties
open Model Finset

/-- One entry: every orthonormal factor is `±1`. -/
theorem coreNorm_one {V : Tensor ℝ} {W : List (Tensor ℝ)}
    (hW : ∀ j : Fin 4, Spec.Orthonormal 1 1 (mats (N := 4) W j)) :
    coreNorm (N := 4) (fun _ => 1) (fun _ => 1) V W = Real.sqrt (arr V 4 (fun _ => 0) ^ 2) := by
  have hb : Spec.Box (fun _ : Fin 4 => 1) = {fun _ => 0} := by
    ext z
    rw [Spec.mem_Box, mem_singleton]
    exact ⟨fun h => funext fun j => by have := h j; omega, fun h j => by rw [h]; norm_num⟩
  have e : ∀ j : Fin 4, mats (N := 4) W j 0 0 ^ 2 = 1 := by
    intro j
    have := hW j 0 (by norm_num) 0 (by norm_num)
    simp only [Spec.gram, range_one, sum_singleton, if_true] at this
    rw [pow_two]
    exact this
  unfold coreNorm Spec.coreNormSq Spec.sumSq Spec.multiTTM
  congr 1
  rw [hb, sum_singleton, filter_true_of_mem (by simp), sum_singleton, mul_pow, ← prod_pow, prod_eq_one fun j _ => e j, mul_one]

theorem sweep_orthonormal {N : ℕ} {dims rk : Fin N → ℕ} {V : Tensor ℝ} {k : Kern ℝ} (h4 : 4 ≤ N) (h5 : N ≠ 5) (hN : N ≤ 18)
    (hr : ∀ j, rk j ≤ dims j) {W W' : List (Tensor ℝ)} {C : Tensor ℝ} (hS : TuckShaped dims rk V W) (hk : SvdShape k)
    (hl : SvdLeading k) (h : tuckSweepDT k V (List.ofFn rk) W = .ok (W', C)) :
    TuckShaped dims rk V W' ∧ ∀ j : Fin N, Spec.Orthonormal (dims j) (rk j) (mats W' j) := by
  obtain ⟨W1, C1, a, b, c, _⟩ := tuckSweepDT_ok h4 h5 hN hr hS hk
  rw [a] at h
  obtain ⟨rfl, rfl⟩ := Prod.mk.inj (Except.ok.inj h)
  exact ⟨b, fun j => ((c.best hl hr le_rfl hS).spec le_rfl hS).2.1 j j.2⟩

noncomputable def exBenchOpts : Opts :=
  { exRunOpts 0 with model := "Tucker".toList, size := 1, updateRank := 0, tensorfile := [] }

/-- `C63_tucker_uneven`: `pp_bench -model Tucker -tensor r2 -dim 4 -size 1 -rank 1`, a tensor with one entry. The first repetition
makes two sweeps, every further one a single sweep. -/
example (atof : CStr → F64) (clkP : ℕ → ℕ → ℝ) : ∃ (E : MainEnv) (o : Opts) (V : Tensor ℝ) (d : ℕ → LLEnd TuckState)
    (P : List (PPRun TuckPPState × Bool)),
    benchOpts atof ["pp_bench".toList, "-model".toList, "Tucker".toList, "-tensor".toList, "r2".toList, "-dim".toList, "4".toList,
      "-size".toList, "1".toList, "-rank".toList, "1".toList] = .ok o ∧
    benchMain E (fun _ _ => 0) clkP 4 o = .ok (V, .tucker ((List.range 5000).map d) P) ∧
    (d 0).iter = 2 ∧ ∀ i, (d (i + 1)).iter = 1 := by
  obtain ⟨k, hl, hk⟩ := exists_svdLeading
  have ho : benchOpts atof ["pp_bench".toList, "-model".toList, "Tucker".toList, "-tensor".toList, "r2".toList, "-dim".toList,
      "4".toList, "-size".toList, "1".toList, "-rank".toList, "1".toList] = .ok exBenchOpts := rfl
  have hkd : tensorKind exBenchOpts.tensor = .random2 := by decide
  have hbk : BenchKind exBenchOpts := by unfold BenchKind; rw [hkd]; decide
  have i1 : InputOk (exEnv k fun _ => []) exBenchOpts := by unfold InputOk; rw [hkd]; trivial
  have i2 : MainDims exBenchOpts (fun _ : Fin 4 => 1) := by unfold MainDims; rw [hkd]; rfl
  have hF : exBenchOpts.Finite := ⟨⟨⟨_, rfl⟩, ⟨_, rfl⟩, ⟨_, rfl⟩, ⟨_, rfl⟩, ⟨_, rfl⟩, ⟨_, rfl⟩, ⟨_, rfl⟩⟩, ⟨_, rfl⟩, ⟨_, rfl⟩⟩
  obtain ⟨V, -, v2, hV, Cd, Cp, d, p, W, W1, W2, U1, e, B⟩ := C63_tucker ho hF (by simp [exBenchOpts, exRunOpts]) i1 hbk i2 (by norm_num)
    (by norm_num) (by norm_num) rfl (by decide) hk hl (fun _ _ => 0) clkP (fuel := 4) (by norm_num)
  have hrk : (fun _ : Fin 4 => exBenchOpts.R.toNat) = fun _ => 1 := by funext j; rfl
  unfold InputSpec at v2
  rw [hkd] at v2
  have hone : arr V 4 (fun _ => 0) = 1 := v2.2 _ (by rw [v2.1]; rfl)
  have hnorm : norm2 V = 1 := by
    unfold norm2
    rw [sqNorm_eq hV]
    have hb : Spec.Box (fun _ : Fin 4 => 1) = {fun _ => 0} := by
      ext z
      rw [Spec.mem_Box, mem_singleton]
      exact ⟨fun h => funext fun j => by have := h j; omega, fun h j => by rw [h]; norm_num⟩
    rw [hb, sum_singleton, hone]
    norm_num
  obtain ⟨C1, s1⟩ := (B.dt 0).s1
  obtain ⟨C2, s2⟩ := (B.dt 0).s2
  obtain ⟨q1, q2⟩ := sweep_orthonormal (by norm_num) (by norm_num) (by norm_num) (fun _ => le_rfl) B.shape hk hl s1
  obtain ⟨-, q3⟩ := sweep_orthonormal (by norm_num) (by norm_num) (by norm_num) (fun _ => le_rfl) q1 hk hl s2
  have c1 : coreNorm (N := 4) (fun _ => 1) (fun _ => exBenchOpts.R.toNat) V W1 = 1 := by
    rw [hrk, coreNorm_one q2, hone]; norm_num
  have c2 : coreNorm (N := 4) (fun _ => 1) (fun _ => exBenchOpts.R.toNat) V W2 = 1 := by
    rw [hrk, coreNorm_one q3, hone]; norm_num
  have ht : exBenchOpts.tol.toReal = 1e-10 := rfl
  obtain ⟨u1, u2⟩ := C63_tucker_uneven B (fun _ _ => by show (0 : ℝ) ≤ 5000; norm_num) (by rw [c1, hnorm, ht]; norm_num)
    (by rw [c1, c2, hnorm, ht]; norm_num)
  exact ⟨_, _, V, d, _, ho, e, u1.1, fun i => (u2 i).1⟩

/-- `C71_idempotent`: a call that converges (C65), and a second one that finds nothing to do. -/
example : ∃ (k : Kern ℝ) (a : AlsArgs) (o0 : OptState ℝ) (r r' : AlsEnd (OptState ℝ × Fac ℝ)), KernOk k ∧
    cpdAls .msdt 4 2 (1 / 2) (cholSolver k) 1 exLRR exVR a (fun _ => 0) (stepLimit 4 a.maxsweep .msdt + 1) (o0, exFacR) =
      .ok r ∧
    cpdAls .msdt 4 2 (1 / 2) (cholSolver k) 1 exLRR exVR a (fun k => k) (stepLimit 4 a.maxsweep .msdt + 1) r.st =
      .ok r' ∧ r'.iters = 0 ∧ r'.ret = true := by
  obtain ⟨k, hk⟩ := exists_kernOk
  let a : AlsArgs := ⟨1 / 1000, 60, ⌈|((10 : ℤ) : ℝ)| * testBound ![2, 3, 1, 4] 2 (1 / 2) (arr exVR 4) (mats exFacR.W) (1 / 1000)⌉, 10⟩
  obtain ⟨o0, r, g, h1, h2, h3, h4, h5, h6⟩ := C65_als_converges (.inr (.inr rfl)) exFits exShapedR exFacR_G
    (lam := 1 / 2) (by norm_num) (C12_cholesky_solver hk) 1 exLRR
    (a := a) (by norm_num [a]) (by norm_num [a]) (clock := fun _ => 0) (fun _ => by norm_num [a]) (Int.le_ceil _) (Nat.lt_succ_self _)
  have hs : iterM (optStep 4 2 (1 / 2) (cholSolver k) 1 exLRR exVR) 0 (o0, exFacR) = .ok (o0, exFacR) := rfl
  obtain ⟨tr, c, r₀, htr, _, hr₀, H⟩ := again_hist exFits exShapedR rfl (1 / 2) (cholSolver k) 1 exLRR h1 hs
    (a := a) (by norm_num [a]) (fun _ => 0) (Nat.lt_succ_self _)
  rw [h2] at hr₀
  obtain rfl := Except.ok.inj hr₀
  have h7 : |((10 : ℤ) : ℝ)| * testBound ![2, 3, 1, 4] 2 (1 / 2) (arr exVR 4) (mats exFacR.W) (1 / 1000) ≤ (a.maxsweep : ℝ) :=
    Int.le_ceil _
  have h8 : (r.iters : ℝ) ≤ (a.maxsweep : ℝ) := h6.trans h7
  have h9 : (r.iters : ℤ) ≤ a.maxsweep := by exact_mod_cast h8
  have hsw : ⌊r.sweeps⌋ ≤ a.maxsweep := by
    rw [H.sweeps]
    refine Int.floor_le_iff.2 ?_
    have e : (r.iters : ℚ) ≤ a.maxsweep := by exact_mod_cast h9
    have e2 : (0 : ℚ) ≤ r.iters := Nat.cast_nonneg _
    simp only [stepSweeps]
    norm_num
    linarith
  obtain ⟨r', g1, g2, _, g3⟩ := C71_idempotent exFits exShapedR rfl (1 / 2) (cholSolver k) 1 exLRR h1 (k0 := 0) hs (a := a) (b := a)
    (by norm_num [a]) (by norm_num [a]) (le_trans (Int.natCast_nonneg _) h9) le_rfl (fun _ => 0) (fun k => k)
    (Nat.lt_succ_self _) (Nat.lt_succ_self _) h2 hsw (by norm_num [a])
  exact ⟨k, a, o0, r, r', hk, h2, g1, g2, g3⟩

end Properties
