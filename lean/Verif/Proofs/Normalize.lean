import Verif.Proofs.Build

namespace Model

open Finset

variable {N : ℕ}

theorem norm2_nonneg (T : Tensor ℝ) : 0 ≤ norm2 T := Real.sqrt_nonneg _

theorem sqNorm_nonneg (T : Tensor ℝ) : 0 ≤ sqNorm T :=
  List.sum_nonneg (by simp only [List.mem_map]; rintro x ⟨a, _, rfl⟩; exact sq_nonneg _)

theorem sqNorm_scale (c : ℝ) (T : Tensor ℝ) : sqNorm (scaleT c T) = c ^ 2 * sqNorm T := by
  unfold sqNorm scaleT
  rw [← List.sum_map_mul_left]
  congr 1
  refine List.map_congr_left fun idx h => ?_
  simp only [mem_boxList.1 h, if_true]
  ring

theorem norm2_scale {c : ℝ} (hc : 0 ≤ c) (T : Tensor ℝ) : norm2 (scaleT c T) = c * norm2 T := by
  unfold norm2
  rw [sqNorm_scale, Real.sqrt_mul (sq_nonneg c), Real.sqrt_sq hc]

theorem prod_loop {W : List (Tensor ℝ)} {T : ℕ → Tensor ℝ} (hW : ∀ j < N, W[j]? = some (T j)) :
    (List.range N).foldlM (fun norm (i : ℕ) => do
      let Wi ← rd W i
      pure (norm * norm2 Wi)) 1 = Except.ok (ε := Fault) (∏ j ∈ range N, norm2 (T j)) := by
  obtain ⟨b, hb, hP⟩ := foldlM_range'_inv
    (P := fun i (a : ℝ) => a = ∏ j ∈ range i, norm2 (T j)) (s := 0) (n := N) (a := 1)
    (f := fun norm (i : ℕ) => do
      let Wi ← rd W i
      pure (norm * norm2 Wi)) (by simp)
    (fun j a _ h2 h3 => by
      refine ⟨a * norm2 (T j), ?_, ?_⟩
      · simp [rd, hW j (by omega), bind, Except.bind, pure, Except.pure]
      · rw [Finset.prod_range_succ, h3])
  rw [List.range_eq_range', hb, hP]
  simp

theorem normalize_eq {W : List (Tensor ℝ)} {T : ℕ → Tensor ℝ} (hW : ∀ j < N, W[j]? = some (T j)) :
    ∃ W', normalize W N = .ok W' ∧ W'.length = W.length ∧ ∀ j < N, W'[j]? = some
      (scaleT ((∏ j ∈ range N, norm2 (T j)) ^ ((1 : ℝ) / N) / norm2 (T j)) (T j)) := by
  set g := (∏ j ∈ range N, norm2 (T j)) ^ ((1 : ℝ) / N) with hg
  obtain ⟨W', hb, hl, hP⟩ := foldlM_range'_inv
    (P := fun i (A : List (Tensor ℝ)) => A.length = W.length ∧ ∀ j < N, A[j]? = some
      (if j < i then scaleT (g / norm2 (T j)) (T j) else T j)) (s := 0) (n := N) (a := W)
    (f := normalizeStep g) ⟨rfl, fun j hj => by simpa using hW j hj⟩
    (fun i A _ h2 h3 => by
      obtain ⟨hl, h3⟩ := h3
      have hAi := h3 i (by omega)
      rw [if_neg (lt_irrefl _)] at hAi
      refine ⟨A.set i (scaleT (g / norm2 (T i)) (T i)), ?_, by simp [hl], fun j hj => ?_⟩
      · simp [normalizeStep, rd, hAi, bind, Except.bind, pure, Except.pure]
      · by_cases hij : j = i
        · subst hij
          have hlt : j < A.length := by
            by_contra hc
            rw [List.getElem?_eq_none (by omega)] at hAi
            cases hAi
          simp [hlt]
        · rw [List.getElem?_set_ne (fun e => hij e.symm), h3 j hj]
          simp only [show (j < i + 1) ↔ (j < i) by omega])
  refine ⟨W', ?_, hl, fun j hj => ?_⟩
  · unfold normalize
    rw [prod_loop hW]
    simp only [bind, Except.bind, ← hg]
    rw [List.range_eq_range', hb]
  · have := hP j hj
    rwa [if_pos (by omega)] at this

theorem gradnorm_eq {G : List (Tensor ℝ)} {T : ℕ → Tensor ℝ} (hG : ∀ j < N, G[j]? = some (T j)) :
    gradnorm G N = .ok (Real.sqrt (∑ j ∈ range N, sqNorm (T j))) := by
  obtain ⟨b, hb, hP⟩ := foldlM_range'_inv
    (P := fun i (a : ℝ) => a = ∑ j ∈ range i, sqNorm (T j)) (s := 0) (n := N) (a := 0)
    (f := fun s (i : ℕ) => do
      let g ← rd G i
      pure (s + norm2 g * norm2 g)) (by simp)
    (fun j a _ h2 h3 => by
      refine ⟨a + norm2 (T j) * norm2 (T j), ?_, ?_⟩
      · simp [rd, hG j (by omega), bind, Except.bind, pure, Except.pure]
      · rw [Finset.sum_range_succ, h3, norm2, Real.mul_self_sqrt (sqNorm_nonneg _)])
  unfold gradnorm
  rw [List.range_eq_range', hb, hP]
  simp [bind, Except.bind, pure, Except.pure]

end Model
