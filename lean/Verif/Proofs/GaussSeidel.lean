import Verif.Model.Common
import Verif.Spec.Common
import Verif.Proofs.Kernels
import Verif.Properties.Solve
import Mathlib.Topology.Instances.Matrix
import Mathlib.Topology.Order.MonotoneConvergence
import Mathlib.Topology.MetricSpace.Basic

/-! `Gauss_Seidel` -/

namespace Model

open Finset Matrix

section Alg

variable {K : Type} [Field K] {n R : ℕ}

/-- Lower triangle, diagonal included. -/
def lowM (g : Matrix (Fin R) (Fin R) K) : Matrix (Fin R) (Fin R) K := fun a b => if a < b then 0 else g a b

/-- Matrix form of a Gauss-Seidel sweep. -/
theorem gsSweep_iff {G F A A' : Tensor K} (hs : ∀ a < R, ∀ b < R, mat G a b = mat G b a) :
    Spec.GSSweep n R (mat G) (mat F) (mat A) (mat A') ↔
      (toM n R A' - toM n R A) * (lowM (toM R R G))ᵀ = toM n R F - toM n R A * toM R R G := by
  have key : ∀ (x : Fin n) (j : Fin R), ((toM n R A' - toM n R A) * (lowM (toM R R G))ᵀ + toM n R A * toM R R G) x j =
      ∑ k ∈ range R, (if k ≤ j.1 then mat A' x k else mat A x k) * mat G k j := by
    intro x j
    rw [Matrix.add_apply, Matrix.mul_apply, Matrix.mul_apply, ← sum_add_distrib, sum_range]
    refine sum_congr rfl fun k _ => ?_
    simp only [Matrix.sub_apply, Matrix.transpose_apply, lowM, toM, Fin.lt_def]
    by_cases h : k.1 ≤ j.1
    · rw [if_neg (by omega), if_pos h, hs j.1 j.2 k.1 k.2]; ring
    · rw [if_pos (by omega), if_neg h]; ring
  rw [eq_sub_iff_add_eq]
  constructor
  · intro h
    funext x j
    rw [key]
    exact h x.1 x.2 j.1 j.2
  · intro h x hx j hj
    have := congrFun (congrFun h ⟨x, hx⟩) ⟨j, hj⟩
    rw [key] at this
    exact this

theorem lowM_split (g : Matrix (Fin R) (Fin R) K) (hg : gᵀ = g) : g = lowM g + (lowM g)ᵀ - diagonal fun a => g a a := by
  have hs : ∀ a b, g a b = g b a := fun a b => by conv_lhs => rw [← hg, Matrix.transpose_apply]
  funext a b
  simp only [Matrix.sub_apply, Matrix.add_apply, Matrix.transpose_apply, lowM]
  rcases lt_trichotomy a b with h | h | h
  · rw [if_pos h, if_neg h.asymm, Matrix.diagonal_apply_ne _ h.ne, hs b a]; ring
  · subst h; simp
  · rw [if_neg h.asymm, if_pos h, Matrix.diagonal_apply_ne _ h.ne']; ring

/-- Matrix form of the quadratic functional. -/
def quadM (g : Matrix (Fin R) (Fin R) K) (f a : Matrix (Fin n) (Fin R) K) : K :=
  trace (a * g * aᵀ) - 2 * trace (a * fᵀ)

theorem quad_toM (G F A : Tensor K) : Spec.quad n R (mat G) (mat F) (mat A) = quadM (toM R R G) (toM n R F) (toM n R A) := by
  unfold Spec.quad quadM
  congr 1
  · simp only [trace, Matrix.diag, Matrix.mul_apply, sum_range, transpose_apply]
    rfl
  · simp only [trace, Matrix.diag, Matrix.mul_apply, sum_range, transpose_apply]
    rfl

theorem quadM_sweep {g : Matrix (Fin R) (Fin R) K} (hg : gᵀ = g) {f a a' : Matrix (Fin n) (Fin R) K}
    (h : (a' - a) * (lowM g)ᵀ = f - a * g) :
    quadM g f a' = quadM g f a - ∑ x, ∑ j, g j j * (a' x j - a x j) ^ 2 := by
  obtain ⟨y, rfl⟩ : ∃ y, a' = a + y := ⟨a' - a, by abel⟩
  rw [add_sub_cancel_left] at h
  have hf : f = y * (lowM g)ᵀ + a * g := by rw [h]; abel
  have hD : ∑ x, ∑ j, g j j * ((a + y) x j - a x j) ^ 2 = trace (y * (diagonal fun b => g b b) * yᵀ) := by
    simp only [trace, Matrix.diag]
    refine sum_congr rfl fun x _ => ?_
    rw [Matrix.mul_apply]
    refine sum_congr rfl fun j _ => ?_
    rw [Matrix.mul_diagonal, transpose_apply, Matrix.add_apply]
    ring
  rw [hD]
  have hsp := lowM_split g hg
  set L := lowM g
  set D := diagonal fun b => g b b
  have h1 : trace (y * g * aᵀ) = trace (a * g * yᵀ) := by
    rw [← trace_transpose, transpose_mul, transpose_mul, transpose_transpose, hg, Matrix.mul_assoc]
  have h2 : trace (y * g * yᵀ) = 2 * trace (y * L * yᵀ) - trace (y * D * yᵀ) := by
    have e : trace (y * Lᵀ * yᵀ) = trace (y * L * yᵀ) := by
      rw [← trace_transpose, transpose_mul, transpose_mul, transpose_transpose, transpose_transpose, Matrix.mul_assoc]
    conv_lhs => rw [hsp]
    rw [Matrix.mul_sub, Matrix.mul_add, Matrix.sub_mul, Matrix.add_mul, trace_sub, trace_add, e]
    ring
  have h3 : trace (y * fᵀ) = trace (y * L * yᵀ) + trace (a * g * yᵀ) := by
    rw [hf, transpose_add, Matrix.mul_add, trace_add, transpose_mul, transpose_transpose, transpose_mul, hg,
      ← Matrix.mul_assoc, ← Matrix.mul_assoc, h1]
  unfold quadM
  rw [transpose_add, Matrix.add_mul, Matrix.add_mul, Matrix.mul_add, Matrix.mul_add, Matrix.add_mul, trace_add, trace_add,
    trace_add, trace_add, h3, h2, h1]
  ring

/-- The functional and the distance from the solution. -/
theorem quadM_solution {g : Matrix (Fin R) (Fin R) K} (hg : gᵀ = g) {f a x : Matrix (Fin n) (Fin R) K} (h : x * g = f) :
    quadM g f a = quadM g f x + trace ((a - x) * g * (a - x)ᵀ) := by
  obtain ⟨y, rfl⟩ : ∃ y, a = x + y := ⟨a - x, by abel⟩
  rw [add_sub_cancel_left]
  have h1 : trace (y * g * xᵀ) = trace (x * g * yᵀ) := by
    rw [← trace_transpose, transpose_mul, transpose_mul, transpose_transpose, hg, Matrix.mul_assoc]
  have h3 : trace (y * fᵀ) = trace (x * g * yᵀ) := by
    rw [← h, transpose_mul, hg, ← Matrix.mul_assoc, h1]
  unfold quadM
  rw [transpose_add, Matrix.add_mul, Matrix.add_mul, Matrix.mul_add, Matrix.mul_add, Matrix.add_mul, trace_add, trace_add,
    trace_add, trace_add, h3, h1]
  ring

theorem lowM_isUnit {g : Matrix (Fin R) (Fin R) K} (hd : ∀ a, g a a ≠ 0) : IsUnit (lowM g).det := by
  rw [Matrix.det_of_lowerTriangular (lowM g) (fun a b hab => if_pos hab)]
  rw [isUnit_iff_ne_zero, Finset.prod_ne_zero_iff]
  intro a _
  simpa [lowM] using hd a

variable [CharZero K]

theorem strictUpper_mat {G : Tensor K} (hl : G.lens = [R, R]) (hs : ∀ a < R, ∀ b < R, mat G a b = mat G b a) {a b : ℕ}
    (ha : a < R) (hb : b < R) : mat (strictUpper G) a b = if a < b then mat G a b else 0 := by
  have := hs a ha b hb
  simp only [mat] at this
  simp only [mat, strictUpper, hl, fits, ha, hb, decide_true, Bool.and_self, true_and, ← this]
  split_ifs
  · ring
  · rfl

theorem gsStep_ok {F G Gr A : Tensor K} (hF : F.lens = [n, R]) (hG : G.lens = [R, R]) (hGr : Gr.lens = [R, R])
    (hA : A.lens = [n, R]) :
    ∃ T, gsStep F G Gr A = .ok T ∧ T.lens = [n, R] ∧
      toM n R T = toM n R A + (toM n R F - toM n R A * toM R R G) * (toM R R Gr)ᵀ := by
  obtain ⟨AG, a1, _, a3, a4⟩ := einsum_mul hA hG
  obtain ⟨M, m1, m3, m4⟩ := zipT_sub hF a3
  obtain ⟨D, d1, _, d3, d4⟩ := einsum_mulT m3 hGr
  obtain ⟨T, t1, _, t3, t4⟩ := zipT_ok (· + ·) (A := A) (B := D) (by rw [hA, d3])
  refine ⟨T, ?_, by rw [t3, hA], ?_⟩
  · unfold gsStep
    simp only [nrow, ncol, hF, List.getD_cons_zero, List.getD_cons_succ, a1, m1, hA, d1, t1, bind, Except.bind]
  · rw [← a4, ← m4, ← d4]
    funext a b
    rw [Matrix.add_apply, toM, mat, t4 _ (by simp [hA, fits])]
    rfl

/-- The iterates of `Gauss_Seidel`. -/
theorem gaussSeidel_ok {k : Kern K} {A F G : Tensor K} (hA : A.lens = [n, R]) (hF : F.lens = [n, R]) (hG : G.lens = [R, R])
    (hs : ∀ a < R, ∀ b < R, mat G a b = mat G b a) (hd : ∀ a < R, mat G a a ≠ 0)
    (hk : ∀ S : Tensor K, S.lens = [R, R] → SvdSpec R (k.svd S R) S) :
    ∃ T : ℕ → Tensor K, T 0 = A ∧ ∀ t, gaussSeidel k A F G t = .ok (T t) ∧ (T t).lens = [n, R] ∧
      Spec.GSSweep n R (mat G) (mat F) (mat (T t)) (mat (T (t + 1))) := by
  obtain ⟨Lo, g1, g3, g4⟩ := zipT_sub (n := R) (R := R) hG (B := strictUpper G) (by simp [strictUpper, hG])
  have hlow : toM R R Lo = lowM (toM R R G) := by
    rw [g4]
    funext a b
    rw [Matrix.sub_apply]
    simp only [toM, strictUpper_mat hG hs a.2 b.2, lowM, Fin.lt_def]
    split_ifs <;> ring
  have hu : IsUnit (toM R R Lo).det := by
    rw [hlow]; exact lowM_isUnit fun a => hd a.1 a.2
  set u := k.svd Lo R with hu'
  have hS : SvdSpec R u Lo := hk Lo g3
  have hne : ∀ j < R, u.s.val [j] ≠ 0 := by
    refine Properties.svd_nonzero hS fun v hv b hb => ?_
    have : toM R R Lo *ᵥ (fun b => v b.1) = 0 := by
      funext a
      have := hv a.1 a.2
      rw [sum_range] at this
      simpa [mulVec, dotProduct, toM] using this
    have h0 := Matrix.eq_zero_of_mulVec_eq_zero hu.ne_zero this
    exact congrFun h0 ⟨b, hb⟩
  obtain ⟨Gr, r1, _, r3, r4⟩ := einsum_rev (n := R) (m := R) hS.shape.VT
    (s := invVec u.s) (by simp [invVec, hS.shape.s]) hS.shape.U
  have hinv : toM R R Gr * toM R R Lo = 1 := by
    rw [r4, ← usv_mul hS.prod]
    have hVV : (toM R R u.VT)ᵀ * toM R R u.VT = 1 := mul_eq_one_comm.1 hS.mV
    have hdd := toV_inv hS.shape.s hne
    set P := toM R R u.VT
    set B := toM R R u.U
    calc (Pᵀ * diagonal (toV R (invVec u.s)) * Bᵀ) * (B * diagonal (toV R u.s) * P)
        = (Pᵀ * (diagonal (toV R (invVec u.s)) * ((Bᵀ * B) * diagonal (toV R u.s))) * P) := by
          simp only [Matrix.mul_assoc]
      _ = Pᵀ * P := by rw [hS.mU, Matrix.one_mul, hdd, Matrix.mul_one]
      _ = 1 := hVV
  have heq : ∀ t, gaussSeidel k A F G t = (List.range t).foldlM (fun A _ => gsStep F G Gr A) A := by
    intro t
    unfold gaussSeidel
    simp only [g1, bind, Except.bind, show ncol Lo = R by simp [ncol, g3], ← hu', g3, r1]
  have hex : ∀ t, ∃ T, gaussSeidel k A F G t = .ok T ∧ T.lens = [n, R] := by
    intro t
    induction t with
    | zero => exact ⟨A, by rw [heq]; rfl, hA⟩
    | succ t ih =>
      obtain ⟨T, t1, t2⟩ := ih
      obtain ⟨T', s1, s2, _⟩ := gsStep_ok hF hG r3 t2
      refine ⟨T', ?_, s2⟩
      rw [heq, List.range_succ, List.foldlM_append, ← heq, t1]
      simpa [bind, Except.bind, pure, Except.pure] using by rw [s1]
  choose T h1 h2 using hex
  refine ⟨T, ?_, fun t => ⟨h1 t, h2 t, ?_⟩⟩
  · have := h1 0
    rw [heq] at this
    exact (Except.ok.inj this).symm
  · obtain ⟨T', s1, s2, s3⟩ := gsStep_ok hF hG r3 (h2 t)
    have e : T (t + 1) = T' := by
      have := h1 (t + 1)
      rw [heq, List.range_succ, List.foldlM_append, ← heq, h1 t] at this
      simp only [bind, Except.bind, List.foldlM_cons, List.foldlM_nil, pure, Except.pure, s1] at this
      exact (Except.ok.inj this).symm
    rw [e, gsSweep_iff hs, s3, add_sub_cancel_left, ← hlow, Matrix.mul_assoc, ← transpose_mul,
      mul_eq_one_comm.1 hinv, transpose_one, Matrix.mul_one]

end Alg

section Conv

variable {n R : ℕ}

open Filter Topology

theorem trace_nonneg_of_posDef {g : Matrix (Fin R) (Fin R) ℝ} (hg : g.PosDef) (y : Matrix (Fin n) (Fin R) ℝ) :
    0 ≤ trace (y * g * yᵀ) := by
  have := hg.posSemidef.mul_mul_conjTranspose_same y
  rw [conjTranspose_eq_transpose_of_trivial] at this
  exact this.trace_nonneg

/-- Convergence of the Gauss-Seidel iteration for positive definite systems. -/
theorem gs_converges {g : Matrix (Fin R) (Fin R) ℝ} (hg : g.PosDef) {f x : Matrix (Fin n) (Fin R) ℝ} (hx : x * g = f)
    {a : ℕ → Matrix (Fin n) (Fin R) ℝ} (h : ∀ t, (a (t + 1) - a t) * (lowM g)ᵀ = f - a t * g) : Tendsto a atTop (𝓝 x) := by
  have hsym : gᵀ = g := by
    have := hg.isHermitian
    rwa [IsHermitian, conjTranspose_eq_transpose_of_trivial] at this
  have hdiag : ∀ j, 0 < g j j := fun j => hg.diag_pos
  let E : ℕ → ℝ := fun t => quadM g f (a t)
  have hstep : ∀ t, E t - E (t + 1) = ∑ x, ∑ j, g j j * (a (t + 1) x j - a t x j) ^ 2 := by
    intro t
    simp only [E]
    rw [quadM_sweep hsym (h t)]
    ring
  have hanti : Antitone E := antitone_nat_of_succ_le fun t => by
    have : 0 ≤ E t - E (t + 1) := by
      rw [hstep]
      exact sum_nonneg fun x _ => sum_nonneg fun j _ => mul_nonneg (hdiag j).le (sq_nonneg _)
    linarith
  have hbdd : BddBelow (Set.range E) := ⟨quadM g f x, by
    rintro _ ⟨t, rfl⟩
    simp only [E]
    rw [quadM_solution hsym (a := a t) hx]
    have := trace_nonneg_of_posDef hg (a t - x)
    linarith⟩
  have hlim := tendsto_atTop_ciInf hanti hbdd
  have hdiff : Tendsto (fun t => E t - E (t + 1)) atTop (𝓝 0) := by
    have := hlim.sub (hlim.comp (tendsto_add_atTop_nat 1))
    simpa using this
  have hY : Tendsto (fun t => a (t + 1) - a t) atTop (𝓝 0) := by
    refine tendsto_pi_nhds.2 fun y => tendsto_pi_nhds.2 fun j => ?_
    have hsq : Tendsto (fun t => (a (t + 1) y j - a t y j) ^ 2) atTop (𝓝 0) := by
      have hb : Tendsto (fun t => (E t - E (t + 1)) / g j j) atTop (𝓝 0) := by
        simpa using hdiff.div_const (g j j)
      refine squeeze_zero (fun t => sq_nonneg _) (fun t => ?_) hb
      rw [le_div_iff₀ (hdiag j), hstep, mul_comm]
      refine le_trans ?_ (single_le_sum (f := fun x => ∑ j, g j j * (a (t + 1) x j - a t x j) ^ 2)
        (fun x _ => sum_nonneg fun j _ => mul_nonneg (hdiag j).le (sq_nonneg _)) (mem_univ y))
      exact single_le_sum (f := fun j => g j j * (a (t + 1) y j - a t y j) ^ 2)
        (fun j _ => mul_nonneg (hdiag j).le (sq_nonneg _)) (mem_univ j)
    have := (Real.continuous_sqrt.tendsto 0).comp hsq
    rw [Real.sqrt_zero] at this
    have habs : Tendsto (fun t => |a (t + 1) y j - a t y j|) atTop (𝓝 0) := by
      refine this.congr fun t => ?_
      simp [Real.sqrt_sq_eq_abs]
    exact (tendsto_zero_iff_abs_tendsto_zero _).2 habs
  have hu : IsUnit g.det := hg.det_pos.ne'.isUnit
  have ha : ∀ t, a t = x - (a (t + 1) - a t) * ((lowM g)ᵀ * g⁻¹) := by
    intro t
    rw [← Matrix.mul_assoc, h t, ← hx, ← Matrix.sub_mul, Matrix.mul_assoc, Matrix.mul_nonsing_inv _ hu, Matrix.mul_one]
    abel
  have hc : Tendsto (fun t => x - (a (t + 1) - a t) * ((lowM g)ᵀ * g⁻¹)) atTop (𝓝 (x - (0 : Matrix (Fin n) (Fin R) ℝ) * ((lowM g)ᵀ * g⁻¹))) := by
    have hcont : Continuous fun y : Matrix (Fin n) (Fin R) ℝ => x - y * ((lowM g)ᵀ * g⁻¹) :=
      continuous_const.sub (continuous_id.matrix_mul continuous_const)
    exact (hcont.tendsto 0).comp hY
  rw [Matrix.zero_mul, sub_zero] at hc
  exact hc.congr fun t => (ha t).symm

end Conv

end Model
