import Verif.Properties.PP

/-! # C27 (the update), C29: a PP phase over several iterations -/

namespace Properties

open Model Finset

section Update

variable {K : Type} [Field K] [LinearOrder K] [IsStrictOrderedRing K] {N : ℕ} {dims : Fin N → ℕ} {R : ℕ}
  {V : Tensor K} {Winit : List (Tensor K)} {ops : Cache K}

/-- The effect of one update of mode `i` in a PP phase. -/
structure PPStepSpec (dims : Fin N → ℕ) (R : ℕ) (V : Tensor K) (Winit : List (Tensor K)) (lam ratio : K)
    (s s' : PPState K) (i : Fin N) : Prop where
  shaped : PPShaped dims R V s'
  /-- the new displacement of mode `i` is `ratio (X - W_init)`, `X` the solution of the normal equations with the
  first-order right-hand side -/
  solved : ∃ X, Spec.Solves (dims i) R X (Spec.normalMat dims R lam (mats s.W) i)
      (Spec.ppMttkrp dims (arr V N) (mats Winit) (mats s.dW) i) ∧
    ∀ x < dims i, ∀ r < R, mats s'.dW i x r = ratio * (X x r - mats Winit i x r)
  disp : ∀ x < dims i, ∀ r < R, mats s'.W i x r = mats Winit i x r + mats s'.dW i x r
  grad : ∀ x < dims i, ∀ r < R, mats s'.G i x r = -Spec.ppMttkrp dims (arr V N) (mats Winit) (mats s.dW) i x r +
    ∑ k ∈ range R, mats s.W i x k * Spec.normalMat dims R lam (mats s.W) i k r
  otherW : ∀ j, j ≠ i → (mats s'.W j : ℕ → ℕ → K) = mats s.W j
  otherD : ∀ j, j ≠ i → (mats s'.dW j : ℕ → ℕ → K) = mats s.dW j
  otherG : ∀ j, j ≠ i → (mats s'.G j : ℕ → ℕ → K) = mats s.G j

theorem ppUpdate_ok (h2 : 2 ≤ N) (ho : PPOps dims R V Winit ops) (hI : Shaped dims R V Winit) {s : PPState K}
    (hs : PPShaped dims R V s) {lam ratio : K} {kn : Kern K} (hk : KernOk kn) (i : Fin N)
    (hpd : Spec.PosDef R (Spec.normalMat dims R lam (mats s.W) i)) :
    ∃ s', ppUpdate N R lam ratio kn ops Winit s i.1 = .ok s' ∧ PPStepSpec dims R V Winit lam ratio s s' i := by
  obtain ⟨M, m1, m2, m3, m4⟩ := ppM_ok ho hs.dW i
  obtain ⟨S, s1, s2, s3, s4⟩ := gramS_ok h2 hs.W lam i (index := swapIdx N i.1) (fun m => mem_swapIdx i.2) (swapIdx_nodup i.1)
  obtain ⟨Wi, w1, _, w2, w3⟩ := mats_get hs.W i
  obtain ⟨T, t1, _, t3, t4⟩ := einsum_matmul w2 s3
  obtain ⟨g, g1, g2, g3, g4⟩ := zipT_ok (fun a b : K => -a + b) (A := M) (B := T) (by rw [m3, t3])
  rw [m3] at g3 g4
  obtain ⟨W0, a1, _, a2, a3⟩ := mats_get hI i
  have hpd' : Spec.PosDef R (mat S) := by rw [s4]; exact hpd
  have hu := hk.svd R S s3 hpd'.1
  obtain ⟨X0, D, X, x1, x2, x3, x4, x5, x6⟩ := svdSolveMod_ok m3 a2 s3 hu (svd_nonzero hu (posDef_inj hpd')) ratio
  have hlW := hs.W.count
  have hlG := hs.G
  have hlD := hs.dW.count
  refine ⟨⟨s.W.set i.1 X0, s.G.set i.1 g, s.dW.set i.1 D⟩, ?_, ⟨hs.W.set i x2, by simp [hs.G], hs.dW.set i x3⟩,
    ⟨X, ?_, ?_⟩, ?_, ?_, ?_, ?_, ?_⟩
  · unfold ppUpdate
    simp only [bind, Except.bind]
    rw [m1]; simp only
    rw [s1]; simp only
    rw [w1]; simp only
    rw [m3, t1]; simp only
    rw [g1]; simp only
    rw [a1]; simp only
    rw [x1]
    rfl
  · intro x hx r hr
    have := x4 x hx r hr
    rw [s4] at this
    rw [this, m4 x hx r hr]
  · intro x hx r hr
    rw [mats_set hlD, Function.update_self, x5 x hx r hr, a3]
  · intro x hx r hr
    rw [mats_set hlD, mats_set hlW, Function.update_self, Function.update_self, x6 x hx r hr, a3]
  · intro x hx r hr
    rw [mats_set hlG, Function.update_self, ← m4 x hx r hr, w3, ← s4, ← t4 x hx r hr]
    exact g4 _ (fits_two.2 ⟨hx, hr⟩)
  · intro j hj; rw [mats_set hlW, Function.update_of_ne hj]
  · intro j hj; rw [mats_set hlD, Function.update_of_ne hj]
  · intro j hj; rw [mats_set hlG, Function.update_of_ne hj]

/-- **C27 (the update).** Orders 3 to 9, `lam > 0`, nonempty modes, dense kernels satisfying their contract: an update of
a PP phase succeeds, solves the normal equations of the current factors with the first-order right-hand side (damped by
`ratio`), and changes nothing but mode `i`. -/
theorem C27_update (h3 : 3 ≤ N) (h9 : N ≤ 9) (same : Bool) (hI : Shaped dims R V Winit) {s : PPState K}
    (hs : PPShaped dims R V s) {lam ratio : K} (hl : 0 < lam) {kn : Kern K} (hk : KernOk kn) (i : Fin N)
    (hd : ∀ j, 0 < dims j) :
    ∃ ops s', ppOperators same N V Winit = .ok ops ∧ ppUpdate N R lam ratio kn ops Winit s i.1 = .ok s' ∧
      PPStepSpec dims R V Winit lam ratio s s' i := by
  obtain ⟨ops, h1, h2⟩ := ppOperators_ok h3 h9 same hI
  obtain ⟨s', h4, h5⟩ := ppUpdate_ok (by omega) h2 hI hs hk i (Spec.normalMat_posDef hl (hd i)) (ratio := ratio)
  exact ⟨ops, s', h1, h4, h5⟩

/-- The updates of a PP iteration. -/
theorem ppUpdates_ok (h2 : 2 ≤ N) (ho : PPOps dims R V Winit ops) (hI : Shaped dims R V Winit) {s : PPState K}
    (hs : PPShaped dims R V s) {lam ratio : K} (hl : 0 < lam) (hd : ∀ j, 0 < dims j) {kn : Kern K} (hk : KernOk kn) :
    ∃ s', ppUpdates N R lam ratio kn ops Winit s = .ok s' ∧ PPShaped dims R V s' ∧
      ∀ j : Fin N, ∀ x < dims j, ∀ r < R, mats s'.W j x r = mats Winit j x r + mats s'.dW j x r := by
  obtain ⟨s', h1, h4, h5⟩ := foldlM_range'_inv (s := 0) (n := N) (a := s)
    (f := ppUpdate N R lam ratio kn ops Winit)
    (P := fun i (s : PPState K) => PPShaped dims R V s ∧ ∀ j : Fin N, j.1 < i → ∀ x < dims j, ∀ r < R,
      mats s.W j x r = mats Winit j x r + mats s.dW j x r) ⟨hs, by simp⟩ (by
      rintro i s - hi ⟨a1, a2⟩
      obtain ⟨s', b1, b2⟩ := ppUpdate_ok (by omega) ho hI a1 hk ⟨i, by omega⟩ (Spec.normalMat_posDef hl (hd _))
        (ratio := ratio)
      refine ⟨s', b1, b2.shaped, fun j hj x hx r hr => ?_⟩
      by_cases e : j = ⟨i, by omega⟩
      · rw [e] at hx ⊢
        exact b2.disp x hx r hr
      · rw [b2.otherW j e, b2.otherD j e]
        exact a2 j (by have : j.1 ≠ i := fun h => e (Fin.ext h)
                       omega) x hx r hr)
  refine ⟨s', ?_, h4, fun j => h5 j (by omega)⟩
  unfold ppUpdates
  rw [List.range_eq_range']
  exact h1

/-- **C29 (before `Normalize`).** After the updates of a PP iteration, started from any factors and displacements,
`W = W_init + dW` in every mode. -/
theorem C29_updates (h3 : 3 ≤ N) (h9 : N ≤ 9) (same : Bool) (hI : Shaped dims R V Winit) {s : PPState K}
    (hs : PPShaped dims R V s) {lam ratio : K} (hl : 0 < lam) (hd : ∀ j, 0 < dims j) {kn : Kern K} (hk : KernOk kn) :
    ∃ ops s', ppOperators same N V Winit = .ok ops ∧ ppUpdates N R lam ratio kn ops Winit s = .ok s' ∧
      PPShaped dims R V s' ∧
      ∀ j : Fin N, ∀ x < dims j, ∀ r < R, mats s'.W j x r = mats Winit j x r + mats s'.dW j x r := by
  obtain ⟨ops, h1, h2⟩ := ppOperators_ok h3 h9 same hI
  obtain ⟨s', h4, h5, h6⟩ := ppUpdates_ok (by omega) h2 hI hs hl hd hk (ratio := ratio)
  exact ⟨ops, s', h1, h4, h5, h6⟩

end Update

section Normalize

variable {N : ℕ} {dims : Fin N → ℕ} {R : ℕ} {V : Tensor ℝ} {Winit : List (Tensor ℝ)} {ops : Cache ℝ}

theorem facNorm_scale {W W' : List (Tensor ℝ)} {j : Fin N} {c : ℝ} (hc : 0 < c)
    (h : ∀ x < dims j, ∀ r < R, mats W' j x r = c * mats W j x r) : facNorm dims R W' j = c * facNorm dims R W j := by
  unfold facNorm
  have : ∑ x ∈ range (dims j), ∑ r ∈ range R, mats W' j x r ^ 2 =
      c ^ 2 * ∑ x ∈ range (dims j), ∑ r ∈ range R, mats W j x r ^ 2 := by
    rw [mul_sum]
    refine sum_congr rfl fun x hx => ?_
    rw [mul_sum]
    refine sum_congr rfl fun r hr => ?_
    rw [h x (mem_range.1 hx) r (mem_range.1 hr)]
    ring
  rw [this, Real.sqrt_mul (sq_nonneg c), Real.sqrt_sq hc.le]

theorem facNorm_congr {W W' : List (Tensor ℝ)} {j : Fin N}
    (h : ∀ x < dims j, ∀ r < R, mats W' j x r = mats W j x r) : facNorm dims R W' j = facNorm dims R W j := by
  unfold facNorm
  congr 1
  refine sum_congr rfl fun x hx => sum_congr rfl fun r hr => ?_
  rw [h x (mem_range.1 hx) r (mem_range.1 hr)]

/-- **C29 (violation).** The `Normalize` at the end of a PP iteration rescales the factors and not the displacements:
if the updates leave no factor zero, `W = W_init + dW` still holds in mode `j` if and only if the norm of that factor was
already the geometric mean of all factor norms. -/
theorem C29_normalize_breaks (h1 : 1 ≤ N) {s s1 : PPState ℝ} {lam ratio : ℝ} {kn : Kern ℝ}
    (hu : ppUpdates N R lam ratio kn ops Winit s = .ok s1) (hs : PPShaped dims R V s1)
    (hd : ∀ j : Fin N, ∀ x < dims j, ∀ r < R, mats s1.W j x r = mats Winit j x r + mats s1.dW j x r)
    (hne : ∀ j, facNorm dims R s1.W j ≠ 0) :
    ∃ s', ppSweep N R lam ratio kn ops Winit s = .ok s' ∧ PPShaped dims R V s' ∧ s'.dW = s1.dW ∧
      ∀ j : Fin N, (∀ x < dims j, ∀ r < R, mats s'.W j x r = mats Winit j x r + mats s'.dW j x r) ↔
        facNorm dims R s1.W j = (∏ k, facNorm dims R s1.W k) ^ ((1 : ℝ) / N) := by
  obtain ⟨W', w1, w2, _, ⟨c, c1, _, c3⟩, w4⟩ := C17_normalize h1 hs.W hne
  refine ⟨⟨W', s1.G, s1.dW⟩, ?_, ⟨w2, hs.G, hs.dW⟩, rfl, fun j => ?_⟩
  · unfold ppSweep
    simp only [bind, Except.bind]
    rw [hu]
    simp only
    rw [w1]
    rfl
  · constructor
    · intro h
      rw [← w4 j]
      refine (facNorm_congr fun x hx r hr => ?_).symm
      rw [hd j x hx r hr]
      exact h x hx r hr
    · intro h x hx r hr
      have hc : c j = 1 := by
        have := facNorm_scale (c1 j) (c3 j)
        rw [w4 j, ← h] at this
        exact (mul_right_cancel₀ (hne j) (by rw [one_mul]; exact this)).symm
      simp only
      rw [c3 j x hx r hr, hc, one_mul, hd j x hx r hr]

/-! A concrete run: order 3, all lengths 1, rank 1, tensor 8, factors 1, no regularisation. -/

/-- The tensor. -/
noncomputable def tinyV : Tensor ℝ := ⟨[1, 1, 1], fun _ => 8⟩

/-- The factors (and, with 0, the displacements). -/
noncomputable def tinyW (a : ℝ) : List (Tensor ℝ) := [⟨[1, 1], fun _ => a⟩, ⟨[1, 1], fun _ => a⟩, ⟨[1, 1], fun _ => a⟩]

theorem tinyShaped (a : ℝ) : Shaped (N := 3) (fun _ => 1) 1 tinyV (tinyW a) where
  lensV := rfl
  count := rfl
  lensW := by
    intro j M h
    fin_cases j <;> (simp [tinyW] at h; subst h; rfl)

theorem tiny_box : Spec.Box (fun _ : Fin 3 => 1) = {fun _ => 0} := by
  ext f
  rw [Spec.mem_Box, mem_singleton]
  exact ⟨fun h => funext fun j => by have := h j; omega, fun h j => by rw [h]; exact Nat.one_pos⟩

theorem tiny_erase : (univ.erase 0 : Finset (Fin 3)) = {1, 2} ∧ (univ.erase 1 : Finset (Fin 3)) = {0, 2} ∧
    (univ.erase 2 : Finset (Fin 3)) = {0, 1} := by decide

theorem tiny_mttkrp (v : (Fin 3 → ℕ) → ℝ) (W : Fin 3 → ℕ → ℕ → ℝ) (i : Fin 3) :
    Spec.mttkrp (fun _ => 1) v W i 0 0 = v (fun _ => 0) * ∏ j ∈ univ.erase i, W j 0 0 := by
  unfold Spec.mttkrp
  rw [tiny_box, sum_filter, sum_singleton, if_pos rfl]

theorem tiny_normal (W : Fin 3 → ℕ → ℕ → ℝ) (i : Fin 3) :
    Spec.normalMat (fun _ => 1) 1 0 W i 0 0 = ∏ j ∈ univ.erase i, W j 0 0 ^ 2 := by
  simp [Spec.normalMat, Spec.clip, Spec.gramExcept, Spec.gram, sq]

theorem tiny_posDef {S : ℕ → ℕ → ℝ} (h : 0 < S 0 0) : Spec.PosDef 1 S := by
  constructor
  · intro a ha b hb
    rw [show a = 0 by omega, show b = 0 by omega]
  · rintro v ⟨a, ha, hv⟩
    rw [show a = 0 by omega] at hv
    simp only [range_one, sum_singleton]
    have := mul_pos (mul_self_pos.2 hv) h
    linarith [mul_comm (v 0 * S 0 0) (v 0), mul_assoc (v 0) (v 0) (S 0 0)]

/-- One update of the concrete run. -/
theorem tiny_step {ops : Cache ℝ} (ho : PPOps (N := 3) (fun _ => 1) 1 tinyV (tinyW 1) ops) {s : PPState ℝ}
    (hs : PPShaped (N := 3) (fun _ => 1) 1 tinyV s) {kn : Kern ℝ} (hk : KernOk kn) (i : Fin 3)
    (hpos : ∀ j : Fin 3, mats s.W j 0 0 ≠ (0 : ℝ)) :
    ∃ s', ppUpdate 3 1 0 1 kn ops (tinyW 1) s i.1 = .ok s' ∧ PPShaped (N := 3) (fun _ => 1) 1 tinyV s' ∧
      mats s'.W i 0 0 * ∏ j ∈ univ.erase i, mats s.W j 0 0 ^ 2 = 8 + ∑ j ∈ univ.erase i, 8 * mats s.dW j 0 0 ∧
      mats s'.dW i 0 0 = mats s'.W i 0 0 - 1 ∧
      (∀ j : Fin 3, j ≠ i → (mats s'.W j 0 0 : ℝ) = mats s.W j 0 0) ∧
      ∀ j : Fin 3, j ≠ i → (mats s'.dW j 0 0 : ℝ) = mats s.dW j 0 0 := by
  obtain ⟨s', h1, h2⟩ := ppUpdate_ok (by omega) ho (tinyShaped 1) hs hk i (lam := 0) (ratio := 1) (tiny_posDef (by
    rw [tiny_normal]
    exact prod_pos fun j _ => by have := hpos j; positivity))
  refine ⟨s', h1, h2.shaped, ?_, ?_, fun j hj => by rw [h2.otherW j hj], fun j hj => by rw [h2.otherD j hj]⟩
  · obtain ⟨X, x1, x2⟩ := h2.solved
    have e1 := x1 0 (by omega) 0 (by omega)
    have e2 := x2 0 (by omega) 0 (by omega)
    have e3 := h2.disp 0 (by omega) 0 (by omega)
    have hX : mats s'.W i 0 0 = X 0 0 := by rw [e3, e2]; ring
    rw [hX]
    simp only [range_one, sum_singleton, tiny_normal] at e1
    rw [e1, Spec.ppMttkrp, tiny_mttkrp]
    have hv : ∀ f, arr tinyV 3 f = 8 := fun _ => rfl
    have hW : ∀ j : Fin 3, mats (tinyW 1) j 0 0 = (1 : ℝ) := by intro j; fin_cases j <;> rfl
    congr 1
    · rw [hv]; simp [hW]
    · refine sum_congr rfl fun j hj => ?_
      rw [tiny_mttkrp, hv]
      congr 1
      rw [prod_eq_single_of_mem j hj (fun k _ hk => by rw [Function.update_of_ne hk]; exact hW k), Function.update_self]
  · have e3 := h2.disp 0 (by omega) 0 (by omega)
    have hW : mats (tinyW 1) i 0 0 = (1 : ℝ) := by fin_cases i <;> rfl
    rw [hW] at e3
    linarith

theorem tiny_facNorm (W : List (Tensor ℝ)) (j : Fin 3) : facNorm (fun _ => 1) 1 W j = |mats W j 0 0| := by
  simp [facNorm, Real.sqrt_sq_eq_abs]

/-- **C29 (concrete violation).** On this problem, the first PP iteration ends with `W ≠ W_init + dW` in mode 0. -/
theorem C29_concrete (kn : Kern ℝ) (hk : KernOk kn) : ∃ ops s', ppOperators true 3 tinyV (tinyW 1) = .ok ops ∧
    ppSweep 3 1 0 1 kn ops (tinyW 1) ⟨tinyW 1, tinyW 0, tinyW 0⟩ = .ok s' ∧
    mats (N := 3) s'.W 0 0 0 ≠ mats (N := 3) (tinyW 1) 0 0 0 + mats (N := 3) s'.dW 0 0 0 := by
  obtain ⟨ops, h1, h2⟩ := ppOperators_ok (N := 3) (by norm_num) (by norm_num) true (tinyShaped 1)
  obtain ⟨e0, e1, e2⟩ := tiny_erase
  have hW : ∀ (a : ℝ) (j : Fin 3), mats (tinyW a) j 0 0 = a := by intro a j; fin_cases j <;> rfl
  obtain ⟨s1, a1, a2, a3, a4, a5, a6⟩ := tiny_step h2 (s := ⟨tinyW 1, tinyW 0, tinyW 0⟩)
    ⟨tinyShaped 1, rfl, tinyShaped 0⟩ hk 0 (by intro j; rw [hW]; norm_num)
  simp only [e0, hW, mem_singleton, Fin.reduceEq, not_false_eq_true, prod_insert, prod_singleton, sum_insert, sum_singleton] at a3 a5 a6
  have w0 : mats (N := 3) s1.W 0 0 0 = (8 : ℝ) := by linarith
  have w1 : mats (N := 3) s1.W 1 0 0 = (1 : ℝ) := a5 1 (by decide)
  have w2 : mats (N := 3) s1.W 2 0 0 = (1 : ℝ) := a5 2 (by decide)
  have d0 : mats (N := 3) s1.dW 0 0 0 = (7 : ℝ) := by rw [a4, w0]; norm_num
  have d1 : mats (N := 3) s1.dW 1 0 0 = (0 : ℝ) := a6 1 (by decide)
  have d2 : mats (N := 3) s1.dW 2 0 0 = (0 : ℝ) := a6 2 (by decide)
  obtain ⟨s2, b1, b2, b3, b4, b5, b6⟩ := tiny_step h2 a2 hk 1 (by
    intro j; fin_cases j
    · exact w0.trans_ne (by norm_num)
    · exact w1.trans_ne (by norm_num)
    · exact w2.trans_ne (by norm_num))
  simp only [e1, w0, w2, d0, d2, mem_singleton, Fin.reduceEq, not_false_eq_true, prod_insert, prod_singleton, sum_insert, sum_singleton] at b3
  have w1' : mats (N := 3) s2.W 1 0 0 = (1 : ℝ) := by linarith
  have w0' : mats (N := 3) s2.W 0 0 0 = (8 : ℝ) := (b5 0 (by decide)).trans w0
  have w2' : mats (N := 3) s2.W 2 0 0 = (1 : ℝ) := (b5 2 (by decide)).trans w2
  have d1' : mats (N := 3) s2.dW 1 0 0 = (0 : ℝ) := by rw [b4, w1']; norm_num
  have d0' : mats (N := 3) s2.dW 0 0 0 = (7 : ℝ) := (b6 0 (by decide)).trans d0
  have d2' : mats (N := 3) s2.dW 2 0 0 = (0 : ℝ) := (b6 2 (by decide)).trans d2
  obtain ⟨s3, c1, c2, c3, c4, c5, c6⟩ := tiny_step h2 b2 hk 2 (by
    intro j; fin_cases j
    · exact w0'.trans_ne (by norm_num)
    · exact w1'.trans_ne (by norm_num)
    · exact w2'.trans_ne (by norm_num))
  simp only [e2, w0', w1', d0', d1', mem_singleton, Fin.reduceEq, not_false_eq_true, prod_insert, prod_singleton, sum_insert, sum_singleton] at c3
  have v2 : mats (N := 3) s3.W 2 0 0 = (1 : ℝ) := by linarith
  have v0 : mats (N := 3) s3.W 0 0 0 = (8 : ℝ) := (c5 0 (by decide)).trans w0'
  have v1 : mats (N := 3) s3.W 1 0 0 = (1 : ℝ) := (c5 1 (by decide)).trans w1'
  have f0 : mats (N := 3) s3.dW 0 0 0 = (7 : ℝ) := (c6 0 (by decide)).trans d0'
  have f1 : mats (N := 3) s3.dW 1 0 0 = (0 : ℝ) := (c6 1 (by decide)).trans d1'
  have f2 : mats (N := 3) s3.dW 2 0 0 = (0 : ℝ) := by rw [c4, v2]; norm_num
  have hu : ppUpdates 3 1 0 1 kn ops (tinyW 1) ⟨tinyW 1, tinyW 0, tinyW 0⟩ = .ok s3 := by
    unfold ppUpdates
    rw [show List.range 3 = [0, 1, 2] from rfl]
    have a1' : ppUpdate 3 1 0 1 kn ops (tinyW 1) ⟨tinyW 1, tinyW 0, tinyW 0⟩ 0 = .ok s1 := a1
    have b1' : ppUpdate 3 1 0 1 kn ops (tinyW 1) s1 1 = .ok s2 := b1
    have c1' : ppUpdate 3 1 0 1 kn ops (tinyW 1) s2 2 = .ok s3 := c1
    rw [List.foldlM_cons, a1']
    simp only [bind, Except.bind]
    rw [List.foldlM_cons, b1']
    simp only [bind, Except.bind]
    rw [List.foldlM_cons, c1']
    rfl
  obtain ⟨s', g1, _, g3, g4⟩ := C29_normalize_breaks (N := 3) (by norm_num) hu c2 (by
    intro j x hx r hr
    rw [show x = 0 by omega, show r = 0 by omega, hW]
    fin_cases j
    · exact (v0.trans (by norm_num)).trans (congrArg (1 + ·) f0.symm)
    · exact (v1.trans (by norm_num)).trans (congrArg (1 + ·) f1.symm)
    · exact (v2.trans (by norm_num)).trans (congrArg (1 + ·) f2.symm)) (by
    intro j
    rw [tiny_facNorm]
    fin_cases j
    · exact (congrArg abs v0).trans_ne (by norm_num)
    · exact (congrArg abs v1).trans_ne (by norm_num)
    · exact (congrArg abs v2).trans_ne (by norm_num))
  refine ⟨ops, s', h1, g1, fun hcon => ?_⟩
  have := (g4 0).1 (by
    intro x hx r hr
    rw [show x = 0 by omega, show r = 0 by omega]
    exact hcon)
  simp only [tiny_facNorm, Fin.prod_univ_three, v0, v1, v2] at this
  rw [show |(8 : ℝ)| * |1| * |1| = 2 ^ (3 : ℝ) by norm_num, ← Real.rpow_mul (by norm_num)] at this
  norm_num at this

/-- Kernels satisfying the contract exist, so the violation is realised. -/
example : ∃ (kn : Kern ℝ) (ops : Cache ℝ) (s' : PPState ℝ), ppOperators true 3 tinyV (tinyW 1) = .ok ops ∧
    ppSweep 3 1 0 1 kn ops (tinyW 1) ⟨tinyW 1, tinyW 0, tinyW 0⟩ = .ok s' ∧
    mats (N := 3) s'.W 0 0 0 ≠ mats (N := 3) (tinyW 1) 0 0 0 + mats (N := 3) s'.dW 0 0 0 := by
  obtain ⟨kn, hk⟩ := exists_kernOk
  obtain ⟨ops, s', h⟩ := C29_concrete kn hk
  exact ⟨kn, ops, s', h⟩

end Normalize

end Properties
