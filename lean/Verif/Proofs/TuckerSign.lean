import Verif.Proofs.Hooi
import Verif.Proofs.CPOpt

/-! Sign alignment. -/

namespace Model

open Finset

/-- The sign chosen for column `a`. -/
noncomputable def colSign (n : ℕ) (A B : ℕ → ℕ → ℝ) (a : ℕ) : ℝ := if 0 < ∑ x ∈ range n, A x a * B x a then 1 else -1

theorem colSign_sq (n : ℕ) (A B : ℕ → ℕ → ℝ) (a : ℕ) : colSign n A B a * colSign n A B a = 1 := by
  unfold colSign; split_ifs <;> norm_num

theorem signAlign_ok {W Wref : Tensor ℝ} {n c : ℕ} (hW : W.lens = [n, c]) (hR : Wref.lens = [n, c]) :
    ∃ W', signAlign W Wref = .ok W' ∧ Canon W' ∧ W'.lens = [n, c] ∧
      ∀ x < n, ∀ a < c, mat W' x a = mat W x a * colSign n (mat W) (mat Wref) a := by
  -- check
  obtain ⟨C, c1, _, c3⟩ := einsum_one (K := ℝ) (d := dIJK c n c) (sc := [li, lk])
    (ops := [(W, [lj, li]), (Wref, [lj, lk])]) (by simp [hW, hR]) lj (by simp)
    (by simp [li, lj, lk]) (by simp [li, lj, lk])
  have hC : C.lens = [c, c] := by simpa using c3.1
  have hCv : ∀ a < c, mat C a a = ∑ x ∈ range n, mat W x a * mat Wref x a := by
    intro a ha
    have := c3.2 (fun _ => a) (by simp [ha])
    simp only [List.map_cons, List.map_nil, dIJK_j, List.prod_cons, List.prod_nil, mul_one, Function.update_self] at this
    rw [mat, this]
    refine Finset.sum_congr rfl fun x _ => ?_
    rw [Function.update_of_ne (by simp [li, lj]), Function.update_of_ne (by simp [lj, lk])]
    rfl
  -- diagonal
  obtain ⟨S, s1, _, s3⟩ := einsum_rep (K := ℝ) (d := fun _ => c) (sc := [li]) (ops := [(C, [li, li])]) (by simp [hC])
  have hS : S.lens = [c] := by simpa using s3.1
  have hSv : ∀ a < c, S.val [a] = mat C a a := by
    intro a ha
    have := s3.2 (fun _ => a) (by simp [ha])
    have hc : contracted [li] [(C, [li, li])] = [] := by
      apply contracted_eq_nil
      intro o ho
      simp only [List.mem_cons, List.not_mem_nil, or_false] at ho
      subst ho
      simp
    simp only [exprVal, hc, List.map_nil, sumOver, List.map_cons, List.prod_cons, List.prod_nil, mul_one] at this
    exact this
  set S' : Tensor ℝ := ⟨S.lens, fun idx => if fits S.lens idx = true then (if 0 < S.val idx then 1 else -1) else 0⟩ with hS'
  have hS'v : ∀ a < c, S'.val [a] = colSign n (mat W) (mat Wref) a := by
    intro a ha
    simp only [hS']
    rw [if_pos (by simp [hS, fits, ha]), hSv a ha, hCv a ha]
    rfl
  -- trans
  have t1 := einsum_eq (K := ℝ) (d := fun _ => c) (sc := [li, li]) (ops := [(S', [li])]) (by simp [hS', hS])
  set T : Tensor ℝ := ⟨[li, li].map fun _ => c, einsumVal ([li, li].map fun _ => c) [li, li] [(S', [li])]⟩ with hT
  have hTl : T.lens = [c, c] := rfl
  have hTv : ∀ a < c, ∀ b < c, mat T a b = if a = b then colSign n (mat W) (mat Wref) a else 0 := by
    intro a ha b hb
    have hc : contracted [li, li] [(S', [li])] = [] := by
      apply contracted_eq_nil
      intro o ho
      simp only [List.mem_cons, List.not_mem_nil, or_false] at ho
      subst ho
      simp
    simp only [mat, hT, einsumVal, hc, List.map_nil, sumOver, List.map_cons, List.prod_cons, List.prod_nil, mul_one, bindIdx,
      Function.update_self, List.cons.injEq, and_true, true_and]
    by_cases hab : a = b
    · subst hab
      rw [if_pos ⟨by simp [fits, ha], rfl⟩, if_pos rfl]
      exact hS'v a ha
    · rw [if_neg (fun h => hab h.2), if_neg hab]
  -- product
  obtain ⟨W', w1, w2, w3, w4⟩ := einsum_matmul (K := ℝ) hW hTl
  refine ⟨W', ?_, w2, w3, ?_⟩
  · unfold signAlign
    simp only [bind, Except.bind, ncol_of hW]
    have c1' : einsum [c, c] [li, lk] [(W, [lj, li]), (Wref, [lj, lk])] = .ok C := by simpa using c1
    rw [c1']
    simp only
    have s1' : einsum [c] [li] [(C, [li, li])] = .ok S := by simpa using s1
    rw [s1']
    simp only
    have t1' : einsum [c, c] [li, li] [(S', [li])] = .ok T := t1
    rw [t1']
    simp only
    rw [hW, w1]
  · intro x hx a ha
    rw [w4 x hx a ha, Finset.sum_eq_single a]
    · rw [hTv a ha a ha, if_pos rfl]
    · intro b hb hne
      rw [hTv b (mem_range.1 hb) a ha, if_neg hne, mul_zero]
    · intro h; exact absurd (mem_range.2 ha) h

/-- Signs do not change orthonormality. -/
theorem orthonormal_sign {n r : ℕ} {U U' : ℕ → ℕ → ℝ} {s : ℕ → ℝ} (hs : ∀ a < r, s a * s a = 1)
    (h : ∀ x < n, ∀ a < r, U' x a = U x a * s a) (hU : Spec.Orthonormal n r U) : Spec.Orthonormal n r U' := by
  intro a ha b hb
  have : Spec.gram n U' a b = s a * s b * Spec.gram n U a b := by
    unfold Spec.gram
    rw [mul_sum]
    refine sum_congr rfl fun x hx => ?_
    rw [h x (mem_range.1 hx) a ha, h x (mem_range.1 hx) b hb]; ring
  rw [this, hU a ha b hb]
  by_cases hab : a = b
  · subst hab; rw [if_pos rfl, hs a ha, one_mul]
  · rw [if_neg hab, mul_zero]

/-- Signs do not change the trace. -/
theorem trace_sign {n r : ℕ} {U U' M : ℕ → ℕ → ℝ} {s : ℕ → ℝ} (hs : ∀ a < r, s a * s a = 1)
    (h : ∀ x < n, ∀ a < r, U' x a = U x a * s a) :
    ∑ a ∈ range r, ∑ x ∈ range n, ∑ y ∈ range n, U' x a * M x y * U' y a =
      ∑ a ∈ range r, ∑ x ∈ range n, ∑ y ∈ range n, U x a * M x y * U y a := by
  refine sum_congr rfl fun a ha => sum_congr rfl fun x hx => sum_congr rfl fun y hy => ?_
  rw [h x (mem_range.1 hx) a (mem_range.1 ha), h y (mem_range.1 hy) a (mem_range.1 ha)]
  calc U x a * s a * M x y * (U y a * s a) = U x a * M x y * U y a * (s a * s a) := by ring
    _ = _ := by rw [hs a (mem_range.1 ha), mul_one]

end Model
