import Verif.Proofs.Normalize
import Verif.Properties.Solve

/-! # C15, C16, C17: reconstruction, reported residual, normalisation -/

namespace Properties

open Model Finset

variable {K : Type} {N : ℕ}

section helpers

variable {dims : Fin N → ℕ} {R : ℕ} {V : Tensor K} {W : List (Tensor K)}

/-- Natural-number indexed shape. -/
def dimsN (dims : Fin N → ℕ) (j : ℕ) : ℕ := if h : j < N then dims ⟨j, h⟩ else 0

theorem shaped_getN (hS : Shaped dims R V W) : ∀ j < N, ∃ M, W[j]? = some M ∧ M.lens = [dimsN dims j, R] := by
  intro j hj
  have hl : j < W.length := by rw [hS.count]; exact hj
  refine ⟨W[j], by simp [hl], ?_⟩
  rw [dimsN, dif_pos hj]
  exact hS.lensW ⟨j, hj⟩ _ (by simp [hl])

theorem range_map_ofFn {α : Type} (f : ℕ → α) : (List.range N).map f = List.ofFn fun j : Fin N => f j.1 := by
  apply List.ext_getElem <;> simp

/-- Reading a tensor described over the labels of `build_V` at a multi-index. -/
theorem rep_cl_arr {T : Tensor K} {dn : ℕ → ℕ} {f : (Label → ℕ) → K}
    (h : Rep T ((List.range N).map cl) (dB R dn) f) (idx : Fin N → ℕ) (hidx : ∀ j : Fin N, idx j < dn j.1) :
    ∃ env : Label → ℕ, (∀ j : Fin N, env (cl j.1) = idx j) ∧ arr T N idx = f env := by
  classical
  let env : Label → ℕ := fun l => if h : ∃ j : Fin N, l = cl j.1 then idx h.choose else 0
  have he : ∀ j : Fin N, env (cl j.1) = idx j := by
    intro j
    have hex : ∃ k : Fin N, cl j.1 = cl k.1 := ⟨j, rfl⟩
    simp only [env, dif_pos hex]
    congr 1
    exact Fin.ext (cl_inj hex.choose_spec.symm)
  refine ⟨env, he, ?_⟩
  have := h.2 env (by
    intro l hl
    obtain ⟨j, hj, rfl⟩ := mem_cls.1 hl
    rw [he ⟨j, hj⟩, dB_cl]
    exact hidx ⟨j, hj⟩)
  rw [← this, arr, List.map_map, range_map_ofFn]
  congr 2
  funext j
  simp [he]

end helpers

section C15

variable [CommRing K] {dims : Fin N → ℕ} {R : ℕ} {V : Tensor K} {W : List (Tensor K)}

/-- **C15.** `build_V` yields the CP reconstruction of the factors, for orders 2 to 18. -/
theorem C15_build_V (h2 : 2 ≤ N) (hN : N ≤ 18) (hS : Shaped dims R V W) :
    ∃ B, buildV W N = .ok B ∧ B.lens = List.ofFn dims ∧
      ∀ idx ∈ Spec.Box dims, arr B N idx = Spec.recon R (mats W) idx := by
  obtain ⟨B, h1, _, h3⟩ := buildV_ok h2 (by omega) (shaped_getN hS)
  refine ⟨B, h1, ?_, fun idx hidx => ?_⟩
  · rw [h3.1, map_dB, range_map_ofFn]
    congr 1
    funext j
    simp [dimsN]
  · obtain ⟨env, he, hv⟩ := rep_cl_arr h3 idx (fun j => by
      have := Spec.mem_Box.1 hidx j
      simpa [dimsN] using this)
    rw [hv]
    unfold Spec.recon
    refine sum_congr rfl fun r _ => ?_
    rw [range_map_ofFn, List.prod_ofFn]
    refine Finset.prod_congr rfl fun j _ => ?_
    rw [he j]
    rfl

/-- **C15 (limit).** From order 20 on, `build_V` reads past the end of its table of labels. -/
theorem C15_build_V_limit (hN : 20 ≤ N) (hS : Shaped dims R V W) : buildV W N = .error .ub :=
  buildV_ub hN (shaped_getN hS)

/-- **C15 (vectors).** `build_V_vec` yields the outer product of the vectors, orders 2 to 18. -/
theorem C15_build_V_vec (h2 : 2 ≤ N) (hN : N ≤ 18) {w : List (Tensor K)}
    (hw : ∀ j : Fin N, ∃ v, w[j.1]? = some v ∧ v.lens = [dims j]) :
    ∃ B, buildVVec w N = .ok B ∧ B.lens = List.ofFn dims ∧
      ∀ idx ∈ Spec.Box dims, arr B N idx = ∏ j : Fin N, (w.getD j.1 ⟨[], fun _ => 0⟩).val [idx j] := by
  have hw' : ∀ j < N, ∃ v, w[j]? = some v ∧ v.lens = [dimsN dims j] := by
    intro j hj
    obtain ⟨v, a, b⟩ := hw ⟨j, hj⟩
    exact ⟨v, a, by simp [dimsN, hj, b]⟩
  obtain ⟨B, h1, _, h3⟩ := buildVVec_ok h2 (by omega) hw'
  refine ⟨B, h1, ?_, fun idx hidx => ?_⟩
  · rw [h3.1, map_dB, range_map_ofFn]
    congr 1
    funext j
    simp [dimsN]
  · obtain ⟨env, he, hv⟩ := rep_cl_arr h3 idx (fun j => by
      have := Spec.mem_Box.1 hidx j
      simpa [dimsN] using this)
    rw [hv, outProd, range_map_ofFn, List.prod_ofFn]
    refine Finset.prod_congr rfl fun j _ => ?_
    rw [he j]
    obtain ⟨v, a, b⟩ := hw j
    simp [vecN, a]

/-- Entries of `diff_V`. -/
theorem diffV_ok (h2 : 2 ≤ N) (hN : N ≤ 18) (hS : Shaped dims R V W) :
    ∃ D, diffV V W N = .ok D ∧ D.lens = List.ofFn dims ∧
      ∀ idx ∈ Spec.Box dims, arr D N idx = arr V N idx - Spec.recon R (mats W) idx := by
  obtain ⟨B, h1, h3, h4⟩ := C15_build_V h2 hN hS
  obtain ⟨D, d1, _, d3, d4⟩ := zipT_ok (· - ·) (A := V) (B := B) (by rw [hS.lensV, h3])
  refine ⟨D, ?_, by rw [d3, hS.lensV], fun idx hidx => ?_⟩
  · unfold diffV
    simp only [h1, bind, Except.bind, d1]
  · rw [← h4 idx hidx]
    exact d4 _ (by rw [hS.lensV, fits_ofFn]; exact Spec.mem_Box.1 hidx)

end C15

section C16

variable {dims : Fin N → ℕ} {R : ℕ} {V : Tensor ℝ} {W : List (Tensor ℝ)}

/-- **C16.** The residual value printed by `CPD::als` and `alsCP_DT` is `‖V - [[W]]‖_F` for the current factors. -/
theorem C16_residual (h2 : 2 ≤ N) (hN : N ≤ 18) (hS : Shaped dims R V W) :
    Model.residual V W N = .ok (Real.sqrt (∑ idx ∈ Spec.Box dims, (arr V N idx - Spec.recon R (mats W) idx) ^ 2)) := by
  obtain ⟨D, d1, d2, d3⟩ := diffV_ok h2 hN hS
  unfold Model.residual
  simp only [d1, bind, Except.bind, pure, Except.pure, norm2, sqNorm_eq d2]
  congr 2
  exact sum_congr rfl fun idx h => by rw [d3 idx h]

/-- **C16 (gradient norm).** `update_gradnorm` computes the Frobenius norm of the stacked gradients. -/
theorem C16_gradnorm {G : List (Tensor ℝ)} (hG : ∀ j : Fin N, ∃ M, G[j.1]? = some M ∧ M.lens = [dims j, R]) :
    gradnorm G N = .ok (Real.sqrt (∑ j : Fin N, ∑ x ∈ range (dims j), ∑ r ∈ range R, mats G j x r ^ 2)) := by
  have h : ∀ j < N, G[j]? = some (G.getD j ⟨[], fun _ => 0⟩) := by
    intro j hj
    obtain ⟨M, a, _⟩ := hG ⟨j, hj⟩
    simp only at a
    simp [a]
  rw [gradnorm_eq h, Finset.sum_range]
  congr 2
  refine sum_congr rfl fun j _ => ?_
  obtain ⟨M, a, b⟩ := hG j
  have e : G.getD j.1 ⟨[], fun _ => 0⟩ = M := by simp [a]
  have e2 : (mats G j : ℕ → ℕ → ℝ) = mat M := by
    funext x r
    simp [mats, a]
  rw [e, sqNorm_mat b, e2]

end C16

section C17

variable {dims : Fin N → ℕ} {R : ℕ} {V : Tensor ℝ} {W : List (Tensor ℝ)}

/-- Frobenius norm of a factor. -/
noncomputable def facNorm (dims : Fin N → ℕ) (R : ℕ) (W : List (Tensor ℝ)) (j : Fin N) : ℝ :=
  Real.sqrt (∑ x ∈ range (dims j), ∑ r ∈ range R, mats W j x r ^ 2)

/-- **C17.** If no factor is zero, `Normalize` keeps the shapes, leaves the CP reconstruction unchanged, scales every
factor by a positive number, and makes all factors have the same Frobenius norm, the geometric mean of the old norms. -/
theorem C17_normalize (h1 : 1 ≤ N) (hS : Shaped dims R V W) (hne : ∀ j, facNorm dims R W j ≠ 0) :
    ∃ W', normalize W N = .ok W' ∧ Shaped dims R V W' ∧
      (∀ idx ∈ Spec.Box dims, Spec.recon R (mats W') idx = Spec.recon R (mats W) idx) ∧
      (∃ c : Fin N → ℝ, (∀ j, 0 < c j) ∧ ∏ j, c j = 1 ∧
        ∀ j, ∀ x < dims j, ∀ r < R, mats W' j x r = c j * mats W j x r) ∧
      ∀ j, facNorm dims R W' j = (∏ k, facNorm dims R W k) ^ ((1 : ℝ) / N) := by
  set T : ℕ → Tensor ℝ := fun j => W.getD j ⟨[], fun _ => 0⟩ with hT
  have hW : ∀ j < N, W[j]? = some (T j) ∧ (T j).lens = [dimsN dims j, R] := by
    intro j hj
    obtain ⟨M, a, b⟩ := shaped_getN hS j hj
    have : T j = M := by simp [hT, a]
    rw [this]
    exact ⟨a, b⟩
  have hnorm : ∀ j : Fin N, norm2 (T j.1) = facNorm dims R W j := by
    intro j
    have e2 : (mats W j : ℕ → ℕ → ℝ) = mat (T j.1) := by
      funext x r
      simp [mats, (hW j.1 j.2).1]
    unfold norm2 facNorm
    rw [sqNorm_mat (hW j.1 j.2).2, e2]
    simp [dimsN]
  have hpos : ∀ j : Fin N, 0 < facNorm dims R W j := fun j =>
    lt_of_le_of_ne (Real.sqrt_nonneg _) (hne j).symm
  have hprod : ∏ j ∈ range N, norm2 (T j) = ∏ k, facNorm dims R W k := by
    rw [Finset.prod_range]
    exact Finset.prod_congr rfl fun j _ => hnorm j
  obtain ⟨W', w1, w2, w3⟩ := normalize_eq (fun j hj => (hW j hj).1)
  rw [hprod] at w3
  set g := (∏ k, facNorm dims R W k) ^ ((1 : ℝ) / N) with hg
  have hPpos : 0 < ∏ k, facNorm dims R W k := Finset.prod_pos fun j _ => hpos j
  have hgpos : 0 < g := Real.rpow_pos_of_pos hPpos _
  set c : Fin N → ℝ := fun j => g / facNorm dims R W j with hc
  have hcpos : ∀ j, 0 < c j := fun j => div_pos hgpos (hpos j)
  have hw3 : ∀ j : Fin N, W'[j.1]? = some (scaleT (c j) (T j.1)) := by
    intro j
    have := w3 j.1 j.2
    rwa [hnorm j] at this
  have hval : ∀ j, ∀ x < dims j, ∀ r < R, mats W' j x r = c j * mats W j x r := by
    intro j x hx r hr
    simp only [mats, hw3 j, (hW j.1 j.2).1, mat, scaleT]
    rw [if_pos]
    rw [(hW j.1 j.2).2]
    exact fits_two.2 ⟨by simpa [dimsN] using hx, hr⟩
  have hcprod : ∏ j, c j = 1 := by
    rw [hc, Finset.prod_div_distrib, Finset.prod_const, Finset.card_univ, Fintype.card_fin, hg,
      ← Real.rpow_natCast, ← Real.rpow_mul hPpos.le, one_div,
      inv_mul_cancel₀ (by exact_mod_cast (show N ≠ 0 by omega)), Real.rpow_one, div_self hPpos.ne']
  refine ⟨W', w1, ⟨hS.lensV, by rw [w2, hS.count], ?_⟩, ?_, ⟨c, hcpos, hcprod, hval⟩, ?_⟩
  · intro j M hM
    rw [hw3 j] at hM
    cases hM
    rw [scaleT, (hW j.1 j.2).2]
    simp [dimsN]
  · intro idx hidx
    unfold Spec.recon
    refine sum_congr rfl fun r hr => ?_
    rw [Finset.prod_congr rfl fun j _ => hval j (idx j) (Spec.mem_Box.1 hidx j) r (mem_range.1 hr),
      Finset.prod_mul_distrib, hcprod, one_mul]
  · intro j
    have : facNorm dims R W' j = c j * facNorm dims R W j := by
      unfold facNorm
      rw [show c j = Real.sqrt (c j ^ 2) from (Real.sqrt_sq (hcpos j).le).symm, ← Real.sqrt_mul (sq_nonneg _),
        Finset.mul_sum]
      congr 1
      refine sum_congr rfl fun x hx => ?_
      rw [Finset.mul_sum]
      refine sum_congr rfl fun r hr => ?_
      rw [hval j x (mem_range.1 hx) r (mem_range.1 hr), mul_pow]
    rw [this, hc]
    simp only
    rw [div_mul_cancel₀ _ (hne j)]

end C17

/-! Non-vacuity. -/

example := C15_build_V (by norm_num) (by norm_num) exShaped
example := C16_residual (by norm_num) (by norm_num) exShapedR

example : ∃ W', normalize exFacR.W 4 = .ok W' := by
  obtain ⟨W', h, _⟩ := C17_normalize (by norm_num) exShapedR (by
    intro j
    unfold facNorm
    rw [Real.sqrt_ne_zero']
    fin_cases j <;> norm_num [mats, mat, exFacR, Finset.sum_range_succ])
  exact ⟨W', h⟩

end Properties
