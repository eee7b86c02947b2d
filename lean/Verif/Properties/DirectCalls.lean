import Verif.Properties.Direct
import Verif.Properties.LegacyLoop
import Verif.Properties.Tucker

/-! # C02, C03, C35: what the failures of the direct MTTKRP and of the order-5 tree mean for the routines that call them -/

namespace Properties

open Model

section

variable {K : Type} [CommRing K] {N : ℕ} {dims : Fin N → ℕ} {R : ℕ} {V : Tensor K}

/-- A loop over `0, 1, ..` fails as its first pass does. -/
theorem foldlM_first {σ : Type} {f : σ → ℕ → Except Fault σ} {n : ℕ} (hn : 1 ≤ n) {s : σ} {e : Fault}
    (h : f s 0 = .error e) : (List.range n).foldlM f s = .error e := by
  obtain ⟨m, rfl⟩ : ∃ m, n = m + 1 := ⟨n - 1, by omega⟩
  rw [List.range_succ_eq_map, List.foldlM_cons, h]
  rfl

/-- **C02 (CPSimpleOptimizer).** On a tensor of order up to 31 with two different mode lengths, `CPSimpleOptimizer::step` aborts,
whatever the contents, the solver and the regularisation. -/
theorem C02_simple_step_abort (hN : N ≤ 31) {f : Fac K} (hS : Shaped dims R V f.W) (hne : ∃ a b, dims a ≠ dims b) (lam : K)
    (solve : Spec.Solver K) : simpleStep N R lam solve V f = .error .abort := by
  have h1 : 1 ≤ N := by obtain ⟨a, _⟩ := hne; have := a.2; omega
  have h := C02_unequal_lengths_abort hN hS ⟨0, by omega⟩ hne
  unfold simpleStep
  refine foldlM_first h1 ?_
  simp only [bind, Except.bind]
  simp only at h
  rw [h]

/-- **C02 (gradient_CP).** The same for `gradient_CP`. -/
theorem C02_gradient_abort (hN : N ≤ 31) {W : List (Tensor K)} (hS : Shaped dims R V W) (hne : ∃ a b, dims a ≠ dims b)
    (G : List (Tensor K)) : gradientCP N R V W G = .error .abort := by
  have h1 : 1 ≤ N := by obtain ⟨a, _⟩ := hne; have := a.2; omega
  have h := C02_unequal_lengths_abort hN hS ⟨0, by omega⟩ hne
  rw [← directM_eq hN hS] at h
  unfold gradientCP
  refine foldlM_first h1 ?_
  unfold gradientStep
  simp only [bind, Except.bind]
  simp only at h
  rw [h]

/-- **C03 (gradient_CP).** From order 11 to 31, on equal mode lengths different from the rank, `gradient_CP` aborts. -/
theorem C03_gradient_abort (h11 : 11 ≤ N) (hN : N ≤ 31) {s : ℕ} {W : List (Tensor K)}
    (hS : Shaped (fun _ : Fin N => s) R V W) (hRs : R ≠ s) (G : List (Tensor K)) : gradientCP N R V W G = .error .abort := by
  have h := (C03_label_collision h11 hN hS ⟨0, by omega⟩ hRs).2
  rw [← directM_eq hN hS] at h
  unfold gradientCP
  refine foldlM_first (by omega) ?_
  unfold gradientStep
  simp only [bind, Except.bind]
  simp only at h
  rw [h]

/-- **C03 (CPSimpleOptimizer).** The same for `CPSimpleOptimizer::step`. -/
theorem C03_simple_step_abort (h11 : 11 ≤ N) (hN : N ≤ 31) {s : ℕ} {f : Fac K}
    (hS : Shaped (fun _ : Fin N => s) R V f.W) (hRs : R ≠ s) (lam : K) (solve : Spec.Solver K) :
    simpleStep N R lam solve V f = .error .abort := by
  have h := (C03_label_collision h11 hN hS ⟨0, by omega⟩ hRs).2
  unfold simpleStep
  refine foldlM_first (by omega) ?_
  simp only [bind, Except.bind]
  simp only at h
  rw [h]

end

section

variable {N : ℕ} {dims : Fin N → ℕ} {R : ℕ} {V : Tensor ℝ}

/-- `alsCP` starts with `gradient_CP`. -/
theorem alsCP_of_gradient {W F G : List (Tensor ℝ)} {e : Fault} (h : gradientCP N R V W G = .error e) (solve : Spec.Solver ℝ)
    (tol timelimit : ℝ) {maxiter : ℤ} (hm : 0 ≤ maxiter) (clock : ℕ → ℝ) {fuel : ℕ} (hf : 1 ≤ fuel) :
    alsCP N R solve V F tol timelimit maxiter clock fuel W G = .error e := by
  obtain ⟨m, rfl⟩ : ∃ m, fuel = m + 1 := ⟨fuel - 1, by omega⟩
  unfold alsCP llLoop
  rw [if_pos (by simpa using hm), if_neg (by norm_num), if_pos (by left; rfl)]
  have hc : (cpHooks N R solve V F maxiter).check ⟨W, G, 0⟩ = .error e := by
    show alsCPCheck N R V F ⟨W, G, 0⟩ = _
    unfold alsCPCheck
    simp only [bind, Except.bind]
    rw [h]
  simp only [bind, Except.bind]
  rw [hc]

/-- **C02 (alsCP).** On a tensor of order up to 31 with two different mode lengths, `alsCP` aborts at its first test, before any
update, whatever the start, the matrices `F`, the limits and the clock. -/
theorem C02_als_cp_abort (hN : N ≤ 31) {W : List (Tensor ℝ)} (hS : Shaped dims R V W) (hne : ∃ a b, dims a ≠ dims b)
    (F G : List (Tensor ℝ)) (solve : Spec.Solver ℝ) (tol timelimit : ℝ) {maxiter : ℤ} (hm : 0 ≤ maxiter) (clock : ℕ → ℝ) {fuel : ℕ}
    (hf : 1 ≤ fuel) : alsCP N R solve V F tol timelimit maxiter clock fuel W G = .error .abort :=
  alsCP_of_gradient (C02_gradient_abort hN hS hne G) solve tol timelimit hm clock hf

/-- **C03 (alsCP).** From order 11 to 31, on equal mode lengths different from the rank, `alsCP` aborts. -/
theorem C03_als_cp_abort (h11 : 11 ≤ N) (hN : N ≤ 31) {s : ℕ} {W : List (Tensor ℝ)}
    (hS : Shaped (fun _ : Fin N => s) R V W) (hRs : R ≠ s) (F G : List (Tensor ℝ)) (solve : Spec.Solver ℝ) (tol timelimit : ℝ)
    {maxiter : ℤ} (hm : 0 ≤ maxiter) (clock : ℕ → ℝ) {fuel : ℕ} (hf : 1 ≤ fuel) :
    alsCP N R solve V F tol timelimit maxiter clock fuel W G = .error .abort :=
  alsCP_of_gradient (C03_gradient_abort h11 hN hS hRs G) solve tol timelimit hm clock hf

/-- **C35 (violated at order 5, whole sweep).** A sweep of `alsTucker_DT` on an order-5 tensor aborts, whatever the contents and
the SVD, unless the ranks of modes 3 and 4 equal their lengths. -/
theorem C35_order5_sweep {dims rk : Fin 5 → ℕ} {W : List (Tensor ℝ)} (hS : TuckShaped dims rk V W)
    (h : rk 3 ≠ dims 3 ∨ rk 4 ≠ dims 4) (k : Kern ℝ) (clens : List ℕ) : tuckSweepDT k V clens W = .error .abort := by
  have h5 : V.lens.length = 5 := by rw [hS.lensV]; simp
  unfold tuckSweepDT
  have he : (List.range 5).foldlM (tuckUpdateDT 5 (constructDT 0 (5 - 1) {}) k V clens) (W, [], ⟨[], fun _ => 0⟩) =
      .error .abort := by
    refine foldlM_first (by norm_num) ?_
    unfold tuckUpdateDT
    simp only [bind, Except.bind]
    rw [show (5 : ℕ) - 1 = 4 from rfl, C35_order5_abort hS h]
  simp only [bind, Except.bind]
  rw [h5, he]

end

/-! Non-vacuity: unequal mode lengths of order 3, equal ones of order 11, an order-5 Tucker problem. -/

example (G : List (Tensor ℝ)) (clock : ℕ → ℝ) (solve : Spec.Solver ℝ) :
    alsCP 4 2 solve exVR [] (1 / 10) 100 5 clock 7 exFacR.W G = .error .abort :=
  C02_als_cp_abort (by norm_num) exShapedR ⟨0, 1, by decide⟩ [] G solve _ _ (by norm_num) clock (by norm_num)

example (G : List (Tensor ℝ)) (clock : ℕ → ℝ) (solve : Spec.Solver ℝ) :
    alsCP 11 3 solve ⟨List.replicate 11 2, fun _ => 1⟩ [] (1 / 10) 100 5 clock 7 (List.replicate 11 ⟨[2, 3], fun _ => 1⟩) G =
      .error .abort := by
  refine C03_als_cp_abort (s := 2) (by norm_num) (by norm_num) ⟨by simp, by simp, ?_⟩ (by norm_num) [] G solve _ _ (by norm_num) clock
    (by norm_num)
  intro j M h
  have := List.mem_of_getElem? h
  rw [List.eq_of_mem_replicate this]

example (k : Kern ℝ) : tuckSweepDT k ⟨List.replicate 5 3, fun _ => 1⟩ (List.replicate 5 2) (List.replicate 5 ⟨[3, 2], fun _ => 1⟩) =
    .error .abort := by
  refine C35_order5_sweep (dims := fun _ => 3) (rk := fun _ => 2) ⟨by simp, by simp, ?_⟩ (by simp) k _
  intro j M h
  have := List.mem_of_getElem? h
  rw [List.eq_of_mem_replicate this]

end Properties
