import Verif.Properties.Interchange
import Verif.Properties.DirectCalls
import Verif.Properties.RankRSvd
import Verif.Properties.Common
import Verif.Properties.PPSweep
import Verif.Properties.LowRankGrad
import Verif.Properties.WorkLegacy
import Verif.Properties.Symmetry
import Verif.Properties.LegacyLoop
import Verif.Properties.Again

/-! Non-vacuity, continued (1): concrete cases for theorems of C01 - C29 that the examples at the end of their own files do not
already instantiate. -/

namespace Properties
open Model Finset

section Direct

theorem exCountShaped : Shaped (K := ℤ) (fun _ : Fin 3 => 2) 3
    ⟨[2, 2, 2], fun idx => 1 + idx.getD 0 0 + 2 * idx.getD 1 0 + 4 * idx.getD 2 0⟩
    [⟨[2, 3], fun idx => idx.getD 0 0⟩, ⟨[2, 3], fun idx => idx.getD 1 0⟩, ⟨[2, 3], fun _ => 1⟩] :=
  ⟨rfl, rfl, by intro j M h; fin_cases j <;> (simp at h; subst h; rfl)⟩

/-- Order 11, all mode lengths 2, rank 3. -/
theorem exElevenShaped : Shaped (K := ℤ) (fun _ : Fin 11 => 2) 3
    ⟨List.replicate 11 2, fun _ => 1⟩ (List.replicate 11 ⟨[2, 3], fun _ => 1⟩) :=
  ⟨rfl, rfl, by
    intro j M h
    have := List.mem_of_getElem? h
    rw [List.eq_of_mem_replicate this]⟩

/-- `C01_direct_mttkrp_exact`. -/
example := C01_direct_mttkrp_exact (by norm_num) (by norm_num) exCountShaped 1
/-- `C02_unequal_lengths_abort`. -/
example := C02_unequal_lengths_abort (by norm_num) exShaped 2 ⟨0, 1, by decide⟩
/-- `C02_succeeds_iff_uniform`. -/
example : ¬ ∃ M, simpleM 4 exV exFac.W 2 = .ok M := fun h =>
  absurd ((C02_succeeds_iff_uniform (by norm_num) (by norm_num) exShaped 2).1 h 0 1) (by decide)
/-- `C02_simple_step_abort`. -/
example (solve : Spec.Solver ℤ) : simpleStep 4 2 3 solve exV exFac = .error .abort :=
  C02_simple_step_abort (by norm_num) exShaped ⟨0, 1, by decide⟩ 3 solve
/-- `C02_gradient_abort`. -/
example := C02_gradient_abort (by norm_num) exShaped ⟨0, 1, by decide⟩ exFac.G
/-- `C03_label_collision`. -/
example := C03_label_collision (by norm_num) (by norm_num) exElevenShaped 10 (by norm_num)
/-- `C03_gradient_abort`. -/
example := C03_gradient_abort (by norm_num) (by norm_num) exElevenShaped (by norm_num) []
/-- `C03_simple_step_abort`. -/
example (solve : Spec.Solver ℤ) := C03_simple_step_abort (by norm_num) (by norm_num)
  (f := ⟨List.replicate 11 ⟨[2, 3], fun _ => 1⟩, []⟩) exElevenShaped (by norm_num) 1 solve

end Direct

section Trees

/-- `C05_dt_eq_simple`. -/
example (solve : Spec.Solver ℝ) := C05_dt_eq_simple (by norm_num) (by norm_num) (f := ⟨exHyperW, exHyperW⟩) exHyperShaped rfl (1 / 2) solve 3
/-- `C06_msdt_sweeps`. -/
example := C06_msdt_sweeps (by norm_num) (by norm_num) exShaped rfl 3 (fun _ _ M _ => M) 5
/-- `C10_update_S_ignores_own_factor`. -/
example := C10_update_S_ignores_own_factor (by norm_num) exShaped 3 2 ⟨[1, 2], fun _ => 77⟩ rfl
/-- `C07_dtlr_schedule`. -/
example := C07_dtlr_schedule (by norm_num) (by norm_num) exShaped rfl 3 (fun _ _ M _ => M) 1 exLR 17

end Trees

section Objective

/-- `C11_simple_gradient`. -/
example (solve : Spec.Solver ℝ) := C11_simple_gradient (by norm_num) (by norm_num) (f := ⟨exHyperW, exHyperW⟩) exHyperShaped rfl (1 / 2) solve
/-- `C11_gradient_is_derivative`, for the gradient computed by a DT step. -/
example (D : ℕ → ℕ → ℝ) : ∃ G : ℕ → ℕ → ℝ, HasDerivAt (fun t : ℝ => (1 / 2) * Spec.resid2 (fun _ : Fin 4 => 2) 1 (arr exHyperV 4)
      (Function.update (mats exHyperW) 0 fun x r => mats (N := 4) exHyperW 0 x r + t * D x r) +
      ((1 / 2) / 2) * ∑ x ∈ Finset.range 2, ∑ r ∈ Finset.range 1, (mats (N := 4) exHyperW 0 x r + t * D x r) ^ 2)
      (∑ x ∈ Finset.range 2, ∑ r ∈ Finset.range 1, G x r * D x r) 0 :=
  ⟨_, C11_gradient_is_derivative (dims := fun _ : Fin 4 => 2) (alsGrad_isGradient _ _ _ _ _ _) D⟩
/-- `C13_update_is_global_minimiser`, without and with regularisation. -/
example : ∃ solve : Spec.Solver ℚ, ∀ Y : ℕ → ℕ → ℚ,
    Spec.modeObj2 ![2, 3, 1, 4] 2 0 (arr exVQ 4) (Spec.alsUpdate ![2, 3, 1, 4] 2 0 solve (arr exVQ 4) (facs 4 exFacQ) 1).W 1 ≤
      Spec.modeObj2 ![2, 3, 1, 4] 2 0 (arr exVQ 4) (Function.update (facs 4 exFacQ).W 1 Y) 1 := by
  obtain ⟨solve, h⟩ := exists_consistent_solver (K := ℚ)
  exact ⟨solve, C13_update_is_global_minimiser (.inl ⟨le_rfl, h⟩) _ _ 1⟩
example : ∃ kn : Kern ℝ, ∀ Y : ℕ → ℕ → ℝ,
    Spec.modeObj2 ![2, 3, 1, 4] 2 (1 / 2) (arr exVR 4) (Spec.alsUpdate ![2, 3, 1, 4] 2 (1 / 2) (cholSolver kn) (arr exVR 4) (facs 4 exFacR) 1).W 1 ≤
      Spec.modeObj2 ![2, 3, 1, 4] 2 (1 / 2) (arr exVR 4) (Function.update (facs 4 exFacR).W 1 Y) 1 := by
  obtain ⟨kn, h⟩ := exists_kernOk
  exact ⟨kn, C13_update_is_global_minimiser (.inr ⟨by norm_num, C12_cholesky_solver h⟩) _ _ 1⟩
/-- `C13_simple_monotone`. -/
example : ∃ solve : Spec.Solver ℝ, ∃ f', iterM (simpleStep 4 1 0 solve exHyperV) 6 ⟨exHyperW, exHyperW⟩ = .ok f' ∧
    Spec.fullObj2 (fun _ => 2) 1 0 (arr exHyperV 4) (mats f'.W) ≤ Spec.fullObj2 (fun _ => 2) 1 0 (arr exHyperV 4) (mats exHyperW) := by
  obtain ⟨solve, h⟩ := exists_consistent_solver (K := ℝ)
  exact ⟨solve, C13_simple_monotone (by norm_num) (by norm_num) (f := ⟨exHyperW, exHyperW⟩) exHyperShaped rfl (.inl ⟨le_rfl, h⟩) 6⟩
/-- `C13_msdt_monotone`. -/
example : ∃ solve : Spec.Solver ℚ, ∃ o0 s f', msdtInit 4 = .ok o0 ∧ iterM (msdtStep 4 2 0 solve exVQ) 7 (o0, exFacQ) = .ok (s, f') ∧
    Spec.fullObj2 ![2, 3, 1, 4] 2 0 (arr exVQ 4) (mats f'.W) ≤ Spec.fullObj2 ![2, 3, 1, 4] 2 0 (arr exVQ 4) (mats exFacQ.W) := by
  obtain ⟨solve, h⟩ := exists_consistent_solver (K := ℚ)
  exact ⟨solve, C13_msdt_monotone (by norm_num) (by norm_num) exShapedQ rfl (.inl ⟨le_rfl, h⟩) 7⟩
/-- `C13_msdt_monotone_cholesky`, `C13_simple_monotone_cholesky`. -/
example : ∃ kn : Kern ℝ, (∃ o0 s f', msdtInit 4 = .ok o0 ∧ iterM (msdtStep 4 2 (1 / 2) (cholSolver kn) exVR) 7 (o0, exFacR) = .ok (s, f') ∧
      Spec.fullObj2 ![2, 3, 1, 4] 2 (1 / 2) (arr exVR 4) (mats f'.W) ≤ Spec.fullObj2 ![2, 3, 1, 4] 2 (1 / 2) (arr exVR 4) (mats exFacR.W)) ∧
    ∃ f', iterM (simpleStep 4 1 (1 / 2) (cholSolver kn) exHyperV) 6 ⟨exHyperW, exHyperW⟩ = .ok f' ∧
      Spec.fullObj2 (fun _ => 2) 1 (1 / 2) (arr exHyperV 4) (mats f'.W) ≤
        Spec.fullObj2 (fun _ => 2) 1 (1 / 2) (arr exHyperV 4) (mats exHyperW) := by
  obtain ⟨kn, h⟩ := exists_kernOk
  exact ⟨kn, C13_msdt_monotone_cholesky (by norm_num) (by norm_num) exShapedR rfl (by norm_num) h 7,
    C13_simple_monotone_cholesky (by norm_num) (by norm_num) (f := ⟨exHyperW, exHyperW⟩) exHyperShaped rfl (by norm_num) h 6⟩

end Objective

section Solve

/-- The positive definite matrix (2 1; 1 2) used below. -/
noncomputable def exGamma : Tensor ℝ := ⟨[2, 2], fun idx => if idx = [0, 0] ∨ idx = [1, 1] then 2 else 1⟩

theorem exGamma_pd : Spec.PosDef 2 (mat exGamma) := exGamma_posDef

theorem exGamma_inj (v : ℕ → ℝ) (h : ∀ a < 2, ∑ b ∈ range 2, mat exGamma a b * v b = 0) : ∀ b < 2, v b = 0 := by
  have h0 := h 0 (by norm_num)
  have h1 := h 1 (by norm_num)
  simp [sum_range_succ, mat, exGamma] at h0 h1
  intro b hb
  interval_cases b <;> linarith

/-- A right-hand side. -/
noncomputable def exRhs : Tensor ℝ := ⟨[3, 2], fun idx => (idx.sum : ℝ) + 1⟩

/-- `C12_cholesky_solve`, `C12_svd_solve`, `C28_svd_solve_mod`. -/
example : ∃ k : Kern ℝ, KernOk k ∧
    (∃ W, choleskySolve k exRhs exGamma = .ok W ∧ ∀ x < 3, ∀ r < 2, ∑ j ∈ range 2, mat W x j * mat exGamma j r = mat exRhs x r) ∧
    (∃ W, svdSolve k [3, 2] exRhs exGamma = .ok W ∧ ∀ x < 3, ∀ r < 2, ∑ j ∈ range 2, mat W x j * mat exGamma j r = mat exRhs x r) ∧
    ∃ (W dW : Tensor ℝ) (X : ℕ → ℕ → ℝ), svdSolveMod k exRhs ⟨[3, 2], fun _ => 1⟩ exGamma (1 / 2) = .ok (W, dW) ∧
      (∀ x < 3, ∀ r < 2, ∑ j ∈ range 2, X x j * mat exGamma j r = mat exRhs x r) ∧
      ∀ x < 3, ∀ r < 2, mat W x r = 1 + 1 / 2 * (X x r - 1) := by
  classical
  obtain ⟨k, hk⟩ := exists_kernOk
  obtain ⟨W1, a1, _, a2⟩ := C12_cholesky_solve (n := 3) hk.tri (M := exRhs) (S := exGamma) rfl (hk.chol 2 _ rfl exGamma_pd)
  have hs := hk.svd 2 exGamma rfl exGamma_pd.1
  obtain ⟨W2, b1, _, b2⟩ := C12_svd_solve (n := 3) (M := exRhs) rfl rfl hs exGamma_inj
  obtain ⟨W3, dW, X, c1, _, _, c2, c3, c4⟩ :=
    C28_svd_solve_mod (n := 3) (M := exRhs) (Winit := ⟨[3, 2], fun _ => 1⟩) rfl rfl rfl hs exGamma_inj (1 / 2)
  refine ⟨k, hk, ⟨W1, a1, a2⟩, ⟨W2, b1, b2⟩, W3, dW, X, ?_, c2, fun x hx r hr => ?_⟩
  · convert c1
  · rw [c4 x hx r hr, c3 x hx r hr]
    rfl

/-- `C14_rankR_optimal_svd`, `C14_rankR_random_descends`, `C14_rankR_svd_variant_exact`, `C14_rankR_variants_agree`
with kernels that meet their contracts. -/
example : ∃ k : Kern ℝ, LRKernOk k ∧
    (∃ u', rankRUpdate k ⟨[2, 1], fun _ => 1⟩ 1 exRhs ⟨[3, 2], fun _ => 0⟩ exGamma false = .ok u') ∧
    (∃ u', rankRUpdate k ⟨[2, 1], fun _ => 1⟩ 1 exRhs ⟨[3, 2], fun _ => 0⟩ exGamma true = .ok u') ∧
    (∃ u', rankRUpdateSvd k sqrtinv ⟨[2, 1], fun _ => 1⟩ 2 exRhs ⟨[3, 2], fun _ => 0⟩ exGamma false = .ok u' ∧
      (toM 3 2 ⟨[3, 2], fun _ => 0⟩ + usv 3 2 2 u') * toM 2 2 exGamma = toM 3 2 exRhs) ∧
    (∃ u v, rankRUpdateSvd k sqrtinv ⟨[2, 1], fun _ => 1⟩ 1 exRhs ⟨[3, 2], fun _ => 0⟩ exGamma false = .ok u ∧
      rankRUpdate k ⟨[2, 1], fun _ => 1⟩ 1 exRhs ⟨[3, 2], fun _ => 0⟩ exGamma false = .ok v) := by
  obtain ⟨k, hk⟩ := exists_lrKernOk
  obtain ⟨u1, h1, _⟩ := C14_rankR_optimal_svd hk (X0 := ⟨[2, 1], fun _ => 1⟩) (q := 1) (M := exRhs) (A := ⟨[3, 2], fun _ => 0⟩)
    (gamma := exGamma) rfl rfl rfl exGamma_pd (by norm_num)
  obtain ⟨u2, h2, _⟩ := C14_rankR_random_descends hk (X0 := ⟨[2, 1], fun _ => 1⟩) (q := 1) (M := exRhs) (A := ⟨[3, 2], fun _ => 0⟩)
    (gamma := exGamma) rfl rfl rfl exGamma_pd rfl (by norm_num) (by norm_num)
  obtain ⟨u3, h3, _, h3'⟩ := C14_rankR_svd_variant_exact hk (X0 := ⟨[2, 1], fun _ => 1⟩) (M := exRhs) (A := ⟨[3, 2], fun _ => 0⟩)
    (gamma := exGamma) rfl rfl rfl exGamma_pd
  obtain ⟨u4, v4, h4, h5, _⟩ := C14_rankR_variants_agree hk (X0 := ⟨[2, 1], fun _ => 1⟩) (q := 1) (M := exRhs)
    (A := ⟨[3, 2], fun _ => 0⟩) (gamma := exGamma) rfl rfl rfl exGamma_pd (by norm_num)
  exact ⟨k, hk, ⟨u1, h1⟩, ⟨u2, h2⟩, ⟨u3, h3, h3'⟩, u4, v4, h4, h5⟩

/-- `C14_lrSolver_best`, `C14_lrSolver_descends`, `C58_lr_update_optimal`. -/
example : ∃ k : Kern ℝ, Spec.LRBest 1 (lrSolver k (fun _ R _ _ _ => ⟨[R, 1], fun _ => 1⟩) 1 false) ∧
    Spec.LRDescends 1 (lrSolver k (fun _ R _ _ _ => ⟨[R, 1], fun _ => 1⟩) 1 true) ∧
    ∀ P Q : ℕ → ℕ → ℝ, Spec.fullObj2 ![2, 3, 1, 4] 2 (1 / 2) (arr exVR 4) (Spec.lrUpdate ![2, 3, 1, 4] 2 (1 / 2) 1
        (lrSolver k (fun _ R _ _ _ => ⟨[R, 1], fun _ => 1⟩) 1 false) (arr exVR 4) (mats (N := 4) exFacR.W 1) (facs 4 exFacR) 1).W ≤
      Spec.fullObj2 ![2, 3, 1, 4] 2 (1 / 2) (arr exVR 4)
        (Function.update (facs 4 exFacR).W 1 fun x r => mats (N := 4) exFacR.W 1 x r + ∑ a ∈ range 1, P x a * Q a r) := by
  obtain ⟨k, hk⟩ := exists_lrKernOk
  exact ⟨k, C14_lrSolver_best hk _ 1, C14_lrSolver_descends hk (fun _ _ _ _ _ => rfl) true,
    C58_lr_update_optimal (by norm_num) hk le_rfl _ _ _ 1 (by norm_num) (by norm_num)⟩

end Solve

section Build

/-- Order 20. -/
example : buildV (K := ℤ) (List.replicate 20 ⟨[2, 3], fun _ => 1⟩) 20 = .error .ub :=
  C15_build_V_limit (dims := fun _ : Fin 20 => 2) (R := 3) (V := ⟨List.replicate 20 2, fun _ => 1⟩) le_rfl
    ⟨rfl, rfl, by
      intro j M h
      have := List.mem_of_getElem? h
      rw [List.eq_of_mem_replicate this]⟩

/-- `C15_build_V_vec`. -/
example := C15_build_V_vec (K := ℤ) (dims := ![2, 3, 4]) (by norm_num) (by norm_num)
  (w := [⟨[2], fun idx => idx.getD 0 0⟩, ⟨[3], fun _ => 5⟩, ⟨[4], fun _ => 1⟩]) (by
    intro j
    fin_cases j
    · exact ⟨_, rfl, rfl⟩
    · exact ⟨_, rfl, rfl⟩
    · exact ⟨_, rfl, rfl⟩)

end Build

section AlsLoop

/-- `C18_fuel_irrelevant`. -/
example {o0 : OptState ℝ} (h0 : optInit ℝ 4 .msdt = .ok o0) (m : ℕ) :=
  C18_fuel_irrelevant exFits exShapedR (f := exFacR) rfl 3 (fun _ _ M _ => M) 1 exLRR (a := exArgs) (by simp [exArgs])
    (fun k => k) h0 (Nat.lt_succ_self _) (Nat.le_add_right _ m)
/-- `C19_result_simple_dt`. -/
example := C19_result_simple_dt (kind := .dt) (.inr (.inl rfl)) (dims := ![2, 3, 1, 4]) ⟨by norm_num, by norm_num, by simp⟩ exShapedR
  (f := exFacR) rfl 3 (fun _ _ M _ => M) 1 exLRR (a := exArgs) (by simp [exArgs]) (by simp [exArgs]) (fun k => k) 4 (Nat.lt_succ_self _)
/-- `C20_stop_reason`. -/
example := C20_stop_reason exFits exShapedR (f := exFacR) rfl 3 (fun _ _ M _ => M) 1 exLRR (a := exArgs) (by simp [exArgs])
  (fun k => k) 5 (Nat.lt_succ_self _)
/-- `C21_resprint_zero`. -/
example (s : OptState ℝ × Fac ℝ) := C21_resprint_zero (N := 4) .dt 2 1 (fun _ _ M _ => M) 1 exLRR exVR (a := ⟨0, 60, 5, 0⟩) rfl
  (by norm_num) (fun k => k) 9 s

end AlsLoop

section Legacy

/-- `C22_same_domain`, `C22_leaves`, `C22_children` at order 7. -/
example := C22_same_domain (N := 7) (by norm_num) (by norm_num) [letter 0, letter 1]
example := C22_leaves (N := 7) (by norm_num) (by norm_num) 6 (by norm_num)
example := C22_children (N := 7) (by norm_num) (by norm_num) ((List.range 7).map letter) (by norm_num) (.inl rfl)
/-- `C23_node_exact` at the node of the last two modes. -/
example := C23_node_exact (N := 4) (by norm_num) (by norm_num) (by norm_num) exShaped 2 3 ((List.range 4).map letter)
  ((constructDT_sub (s := 0) (e := 3) (by omega) (Sub.right (by omega)) {}).1) (by norm_num) (by norm_num)
/-- `C24_order5_ub`. -/
example (solve : Spec.Solver ℤ) := C24_order5_ub (K := ℤ) (dims := fun _ => 1) (R := 1) (V := ⟨[1, 1, 1, 1, 1], fun _ => 1⟩)
  (f := ⟨List.replicate 5 ⟨[1, 1], fun _ => 1⟩, []⟩)
  ⟨rfl, rfl, by intro j M h; fin_cases j <;> (simp at h; subst h; rfl)⟩ 1 solve []
/-- `C24_order3_diverges` from the empty cache, and `C24_order3_no_sweep`. -/
example := C24_order3_diverges (K := ℤ) ⟨[2, 2, 2], fun _ => 1⟩ [] 1000 [] rfl rfl
example (f f' : Fac ℤ) := C24_order3_no_sweep 2 ⟨[2, 2, 2], fun _ => 1⟩ [] f 1 (fun _ _ M _ => M) f'
/-- `C25_sweep_is_als`. -/
example := C25_sweep_is_als (N := 4) (by norm_num) (by norm_num) (by norm_num) (F := exF0) exF0_shaped
  (by intro j x r; fin_cases j <;> rfl) (f := exFacR) exShapedR rfl 3 (fun _ _ M _ => M)

end Legacy

section PP

/-- `C26_operators_exact`, `C26_build_any_map` from the empty cache, `C26_overflow`. -/
example := C26_operators_exact (by norm_num) (by norm_num) true exShaped
example := C26_build_any_map (N := 4) (by norm_num) true exShaped (ks := [0, 2]) (by decide) (by simp) (by simp) (cache := [])
  (by intro _ _ _ _ h; simp at h)
example := C26_overflow (.inr (by norm_num)) false exElevenShaped
/-- `C27_exact`: only one factor has moved. -/
example := C27_exact (by norm_num) (by norm_num) true exShaped (dW := [⟨[2, 2], fun _ => 0⟩, ⟨[3, 2], fun _ => 9⟩, ⟨[1, 2], fun _ => 4⟩, ⟨[4, 2], fun _ => 0⟩])
  ⟨rfl, rfl, by intro j M h; fin_cases j <;> (simp at h; subst h; rfl)⟩ 2 1 (by
    intro j h2 h1 y _ r _
    fin_cases j
    · rfl
    · exact absurd rfl h1
    · exact absurd rfl h2
    · rfl)
/-- `C27_error_order`. -/
example (t : ℤ) := C27_error_order (dims := ![2, 3, 1, 4]) t (mats exFac.W) (mats exFac.G) (arr exV 4) 1 0 1

theorem exPPShaped : PPShaped (N := 4) ![2, 3, 1, 4] 2 exVR ⟨exFacR.W, exFacR.G, exFacR.G⟩ :=
  ⟨exShapedR, rfl, exFacR_G⟩

/-- `C27_update`, `C29_updates`, `C29_normalize_breaks`. -/
example : ∃ kn : Kern ℝ, KernOk kn ∧ ∃ ops s' s1, ppOperators true 4 exVR exFacR.W = .ok ops ∧
    ppUpdate 4 2 (1 / 2) 1 kn ops exFacR.W ⟨exFacR.W, exFacR.G, exFacR.G⟩ 1 = .ok s' ∧
    ppUpdates 4 2 (1 / 2) 1 kn ops exFacR.W ⟨exFacR.W, exFacR.G, exFacR.G⟩ = .ok s1 ∧
    ((∀ j, facNorm ![2, 3, 1, 4] 2 s1.W j ≠ 0) → ∃ s2, ppSweep 4 2 (1 / 2) 1 kn ops exFacR.W ⟨exFacR.W, exFacR.G, exFacR.G⟩ = .ok s2 ∧
      ∀ j : Fin 4, (∀ x < ![2, 3, 1, 4] j, ∀ r < 2, mats s2.W j x r = mats exFacR.W j x r + mats s2.dW j x r) ↔
        facNorm ![2, 3, 1, 4] 2 s1.W j = (∏ k, facNorm ![2, 3, 1, 4] 2 s1.W k) ^ ((1 : ℝ) / (4 : ℕ))) := by
  obtain ⟨kn, hk⟩ := exists_kernOk
  have hd : ∀ j : Fin 4, 0 < ![2, 3, 1, 4] j := by intro j; fin_cases j <;> simp
  obtain ⟨ops, s', h1, h2, _⟩ := C27_update (by norm_num) (by norm_num) true exShapedR exPPShaped (ratio := 1)
    (lam := 1 / 2) (by norm_num) hk 1 hd
  obtain ⟨ops', s1, g1, g2, g3, g4⟩ := C29_updates (by norm_num) (by norm_num) true exShapedR exPPShaped (ratio := 1)
    (lam := 1 / 2) (by norm_num) hd hk
  obtain rfl : ops = ops' := Except.ok.inj (h1.symm.trans g1)
  refine ⟨kn, hk, ops, s', s1, h1, h2, g2, fun hne => ?_⟩
  obtain ⟨s2, e1, _, _, e2⟩ := C29_normalize_breaks (by norm_num) g2 g3 g4 hne
  exact ⟨s2, e1, e2⟩

end PP

end Properties
