import Verif.Spec.RoundObjective
import Verif.Proofs.Converge
import Verif.Proofs.Solvable

/-! Rounded ALS updates and the regularised objective. -/

namespace Spec

open Finset

variable {N : ℕ} {dims : Fin N → ℕ} {R : ℕ} {lam : ℝ} {V : (Fin N → ℕ) → ℝ} {W : Fin N → ℕ → ℕ → ℝ} {i : Fin N}

/-- Frobenius norm of an `n × R` matrix. -/
noncomputable def nrm (n R : ℕ) (A : ℕ → ℕ → ℝ) : ℝ := Real.sqrt (frob n R A A)

theorem nrm_nonneg (n R : ℕ) (A : ℕ → ℕ → ℝ) : 0 ≤ nrm n R A := Real.sqrt_nonneg _

theorem nrm_sq (n R : ℕ) (A : ℕ → ℕ → ℝ) : nrm n R A ^ 2 = frob n R A A := Real.sq_sqrt (frob_self_nonneg n R A)

theorem frob_prod (n R : ℕ) (A B : ℕ → ℕ → ℝ) : frob n R A B = ∑ p ∈ range n ×ˢ range R, A p.1 p.2 * B p.1 p.2 := by
  unfold frob
  rw [sum_product]

theorem frob_cauchy (n R : ℕ) (A B : ℕ → ℕ → ℝ) : |frob n R A B| ≤ nrm n R A * nrm n R B := by
  have h := sum_mul_sq_le_sq_mul_sq (range n ×ˢ range R) (fun p => A p.1 p.2) (fun p => B p.1 p.2)
  rw [← frob_prod] at h
  simp only [pow_two] at h
  rw [← frob_prod, ← frob_prod, ← nrm_sq, ← nrm_sq, ← pow_two, ← mul_pow] at h
  exact abs_le_of_sq_le_sq' h (mul_nonneg (nrm_nonneg _ _ _) (nrm_nonneg _ _ _)) |> abs_le.2

theorem nrm_mono {n R : ℕ} {A B : ℕ → ℕ → ℝ} (h : ∀ x < n, ∀ r < R, |A x r| ≤ B x r) : nrm n R A ≤ nrm n R B := by
  refine Real.sqrt_le_sqrt (sum_le_sum fun x hx => sum_le_sum fun r hr => ?_)
  have := h x (mem_range.1 hx) r (mem_range.1 hr)
  rw [← abs_mul_abs_self (A x r)]
  exact mul_self_le_mul_self (abs_nonneg _) this

theorem nrm_congr {n R : ℕ} {A B : ℕ → ℕ → ℝ} (h : ∀ x < n, ∀ r < R, A x r = B x r) : nrm n R A = nrm n R B := by
  unfold nrm frob
  congr 1
  exact sum_congr rfl fun x hx => sum_congr rfl fun r hr => by rw [h x (mem_range.1 hx) r (mem_range.1 hr)]

theorem nrm_add_le (n R : ℕ) (A B : ℕ → ℕ → ℝ) : nrm n R (fun x r => A x r + B x r) ≤ nrm n R A + nrm n R B := by
  refine Real.sqrt_le_iff.2 ⟨add_nonneg (nrm_nonneg _ _ _) (nrm_nonneg _ _ _), ?_⟩
  have e : frob n R (fun x r => A x r + B x r) (fun x r => A x r + B x r) = frob n R A A + 2 * frob n R A B + frob n R B B := by
    simp only [frob_prod]
    rw [mul_sum, ← sum_add_distrib, ← sum_add_distrib]
    exact sum_congr rfl fun p _ => by ring
  have := (abs_le.1 (frob_cauchy n R A B)).2
  rw [e, ← nrm_sq, ← nrm_sq]
  nlinarith

theorem nrm_smul (n R : ℕ) {c : ℝ} (hc : 0 ≤ c) (A : ℕ → ℕ → ℝ) : nrm n R (fun x r => c * A x r) = c * nrm n R A := by
  unfold nrm
  have : frob n R (fun x r => c * A x r) (fun x r => c * A x r) = c ^ 2 * frob n R A A := by
    simp only [frob_prod]
    rw [mul_sum]
    exact sum_congr rfl fun p _ => by ring
  rw [this, Real.sqrt_mul (sq_nonneg c), Real.sqrt_sq hc]

/-! ### sizes -/

theorem gramExcept_diag_nonneg (r : ℕ) : 0 ≤ gramExcept dims W i r r :=
  prod_nonneg fun _ _ => sum_nonneg fun _ _ => mul_self_nonneg _

theorem mttkrp_abs_nonneg (x r : ℕ) : 0 ≤ mttkrp dims (absArr V) (absMats W) i x r :=
  sum_nonneg fun _ _ => mul_nonneg (abs_nonneg _) (prod_nonneg fun _ _ => abs_nonneg _)

theorem abs_mttkrp_le (x r : ℕ) : |mttkrp dims V W i x r| ≤ mttkrp dims (absArr V) (absMats W) i x r := by
  unfold mttkrp
  refine (abs_sum_le_sum_abs _ _).trans (le_of_eq (sum_congr rfl fun idx _ => ?_))
  rw [abs_mul, abs_prod]
  rfl

/-- The MTTKRP of the absolute values is at most `‖V‖` times the square root of the trace of the Gram product. -/
theorem nrm_mttkrp_le : frob (dims i) R (mttkrp dims (absArr V) (absMats W) i) (mttkrp dims (absArr V) (absMats W) i) ≤
    (∑ idx ∈ Box dims, V idx ^ 2) * ∑ r ∈ range R, gramExcept dims W i r r := by
  rw [sum_box_slices i, sum_mul_sum]
  refine sum_le_sum fun x hx => sum_le_sum fun r _ => ?_
  rw [mem_range] at hx
  have h := sum_mul_sq_le_sq_mul_sq ((Box dims).filter fun idx => idx i = x) (fun idx => |V idx|)
    (fun idx => ∏ j ∈ univ.erase i, |W j (idx j) r|)
  have e1 : ∑ idx ∈ Box dims with idx i = x, |V idx| ^ 2 = ∑ idx ∈ Box dims with idx i = x, V idx ^ 2 :=
    sum_congr rfl fun _ _ => sq_abs _
  have e2 : ∑ idx ∈ Box dims with idx i = x, (∏ j ∈ univ.erase i, |W j (idx j) r|) ^ 2 = gramExcept dims W i r r := by
    rw [← slice_gram hx]
    refine sum_congr rfl fun idx _ => ?_
    rw [← abs_prod, sq_abs, pow_two]
  rw [e1, e2, pow_two] at h
  exact h

theorem gramExcept_abs_le (a b : ℕ) : gramExcept dims (absMats W) i a b ≤
    Real.sqrt (gramExcept dims W i a a) * Real.sqrt (gramExcept dims W i b b) := by
  have h0 : 0 ≤ gramExcept dims (absMats W) i a b :=
    prod_nonneg fun _ _ => sum_nonneg fun _ _ => mul_nonneg (abs_nonneg _) (abs_nonneg _)
  rw [← Real.sqrt_mul (gramExcept_diag_nonneg a)]
  apply Real.le_sqrt_of_sq_le
  unfold gramExcept
  rw [← prod_pow, ← prod_mul_distrib]
  refine prod_le_prod (fun _ _ => sq_nonneg _) fun j _ => ?_
  have h := sum_mul_sq_le_sq_mul_sq (range (dims j)) (fun x => |W j x a|) (fun x => |W j x b|)
  simp only [sq_abs] at h
  simpa only [gram, absMats, pow_two] using h

theorem normalMat_abs_nonneg (hl : 0 ≤ lam) (a b : ℕ) : 0 ≤ normalMat dims R lam (absMats W) i a b := by
  have hg : 0 ≤ gramExcept dims (absMats W) i a b :=
    prod_nonneg fun _ _ => sum_nonneg fun _ _ => mul_nonneg (abs_nonneg _) (abs_nonneg _)
  have hd : (0 : ℝ) ≤ if a = b then lam else 0 := by split_ifs <;> simp [hl]
  unfold normalMat clip
  split_ifs
  · exact add_nonneg hg hd
  · exact le_rfl

theorem abs_normalMat_le (hl : 0 ≤ lam) (a b : ℕ) : |normalMat dims R lam W i a b| ≤ normalMat dims R lam (absMats W) i a b := by
  have hg : |gramExcept dims W i a b| ≤ gramExcept dims (absMats W) i a b := by
    unfold gramExcept
    rw [abs_prod]
    refine prod_le_prod (fun _ _ => abs_nonneg _) fun j _ => ?_
    unfold gram
    refine (abs_sum_le_sum_abs _ _).trans (le_of_eq (sum_congr rfl fun x _ => ?_))
    rw [abs_mul]
    rfl
  have hd : (0 : ℝ) ≤ if a = b then lam else 0 := by split_ifs <;> simp [hl]
  unfold normalMat clip
  split_ifs with h
  · exact (abs_add_le _ _).trans (add_le_add hg (le_of_eq (abs_of_nonneg hd)))
  · simp

theorem normalMat_symm' (a b : ℕ) : normalMat dims R lam W i a b = normalMat dims R lam W i b a := by
  unfold normalMat clip
  by_cases h : a < R ∧ b < R
  · rw [if_pos h, if_pos h.symm]
    beta_reduce
    rw [gramExcept_symm]
    by_cases e : a = b
    · rw [if_pos e, if_pos e.symm]
    · rw [if_neg e, if_neg (Ne.symm e)]
  · rw [if_neg h, if_neg fun h' => h h'.symm]

/-- Multiplying by the normal-equation matrix of the absolute values. -/
theorem nrm_normal_le (hl : 0 ≤ lam) (n : ℕ) (Y : ℕ → ℕ → ℝ) :
    nrm n R (fun x r => ∑ k ∈ range R, |Y x k| * normalMat dims R lam (absMats W) i k r) ≤
      (∑ r ∈ range R, gramExcept dims W i r r + lam) * nrm n R Y := by
  set s : ℕ → ℝ := fun r => Real.sqrt (gramExcept dims W i r r) with hs
  have hss : ∀ r, s r * s r = gramExcept dims W i r r := fun r => Real.mul_self_sqrt (gramExcept_diag_nonneg r)
  set t := ∑ r ∈ range R, gramExcept dims W i r r with ht
  have ht0 : 0 ≤ t := sum_nonneg fun r _ => gramExcept_diag_nonneg r
  have h1 : nrm n R (fun x r => ∑ k ∈ range R, |Y x k| * normalMat dims R lam (absMats W) i k r) ≤
      nrm n R (fun x r => (∑ k ∈ range R, |Y x k| * s k) * s r + lam * |Y x r|) := by
    refine nrm_mono fun x _ r hr => ?_
    rw [abs_of_nonneg (sum_nonneg fun k _ => mul_nonneg (abs_nonneg _) (normalMat_abs_nonneg hl _ _)), sum_mul]
    have e : lam * |Y x r| = ∑ k ∈ range R, if k = r then |Y x k| * lam else 0 := by
      rw [Finset.sum_ite_eq' (range R) r, if_pos (mem_range.2 hr), mul_comm]
    rw [e, ← sum_add_distrib]
    refine sum_le_sum fun k hk => ?_
    have hk := mem_range.1 hk
    have h := gramExcept_abs_le (dims := dims) (W := W) (i := i) k r
    unfold normalMat clip
    rw [if_pos ⟨hk, hr⟩]
    have := mul_le_mul_of_nonneg_left h (abs_nonneg (Y x k))
    beta_reduce
    change _ ≤ |Y x k| * Real.sqrt _ * Real.sqrt _ + _
    rw [mul_add, mul_assoc |Y x k|]
    refine add_le_add this ?_
    split_ifs
    · exact le_rfl
    · simp
  refine h1.trans ((nrm_add_le n R _ _).trans ?_)
  rw [add_mul]
  refine add_le_add ?_ (le_of_eq ?_)
  · refine Real.sqrt_le_iff.2 ⟨mul_nonneg ht0 (nrm_nonneg _ _ _), ?_⟩
    rw [mul_pow, nrm_sq]
    unfold frob
    rw [mul_sum]
    refine sum_le_sum fun x _ => ?_
    have hc := sum_mul_sq_le_sq_mul_sq (range R) (fun k => |Y x k|) s
    simp only [sq_abs] at hc
    have e1 : ∑ k ∈ range R, s k ^ 2 = t := sum_congr rfl fun k _ => by rw [pow_two, hss]
    have e2 : ∑ r ∈ range R, (∑ k ∈ range R, |Y x k| * s k) * s r * ((∑ k ∈ range R, |Y x k| * s k) * s r) =
        (∑ k ∈ range R, |Y x k| * s k) ^ 2 * t := by
      rw [← e1, mul_sum]
      exact sum_congr rfl fun r _ => by ring
    rw [e2]
    rw [e1] at hc
    have e3 : ∑ r ∈ range R, Y x r * Y x r = ∑ r ∈ range R, Y x r ^ 2 := sum_congr rfl fun r _ => by ring
    rw [e3]
    nlinarith
  · rw [nrm_smul n R hl]
    congr 1
    unfold nrm frob
    simp only [abs_mul_abs_self]

/-- The normal-equation matrix is at least `lam`. -/
theorem normal_coercive (X : ℕ → ℕ → ℝ) :
    lam * frob (dims i) R X X ≤ frob (dims i) R (fun x r => ∑ k ∈ range R, X x k * normalMat dims R lam W i k r) X := by
  have h := change_inner (dims := dims) (R := R) (W := W) (i := i) X X
  have h0 : 0 ≤ ∑ idx ∈ Box dims, modelChange R W i X idx * modelChange R W i X idx := sum_nonneg fun _ _ => mul_self_nonneg _
  have e : frob (dims i) R (fun x r => ∑ k ∈ range R, X x k * normalMat dims R lam W i k r) X =
      ∑ x ∈ range (dims i), ∑ r ∈ range R, (∑ k ∈ range R, X x k * gramExcept dims W i k r) * X x r + lam * frob (dims i) R X X := by
    unfold frob
    rw [mul_sum, ← sum_add_distrib]
    refine sum_congr rfl fun x _ => ?_
    rw [mul_sum, ← sum_add_distrib]
    refine sum_congr rfl fun r hr => ?_
    have hr := mem_range.1 hr
    have : ∑ k ∈ range R, X x k * normalMat dims R lam W i k r =
        ∑ k ∈ range R, X x k * gramExcept dims W i k r + X x r * lam := by
      rw [← Finset.sum_ite_eq' (range R) r (fun k => X x k * lam) |>.trans (if_pos (mem_range.2 hr)), ← sum_add_distrib]
      refine sum_congr rfl fun k hk => ?_
      rw [mem_range] at hk
      simp only [normalMat, clip, hk, hr, and_self, if_true]
      split_ifs <;> ring
    beta_reduce
    rw [this]
    ring
  rw [e, ← h]
  linarith

/-- Any factor is worse than the best one by at most `‖gradient‖² / lam`. -/
theorem obj_le_of_grad (hl : 0 < lam) (X Y : ℕ → ℕ → ℝ) :
    fullObj2 dims R lam V (Function.update W i X) ≤ fullObj2 dims R lam V (Function.update W i Y) +
      frob (dims i) R (alsGrad dims R lam V (Function.update W i X) i) (alsGrad dims R lam V (Function.update W i X) i) / lam := by
  have e := modeObj2_expand (dims := dims) (R := R) (V := V) (W := Function.update W i X) (i := i) lam
    (fun x r => Y x r - X x r)
  rw [Function.update_self, Function.update_idem] at e
  have hY : (fun x r => X x r + (Y x r - X x r)) = Y := by funext x r; ring
  rw [hY] at e
  set g := alsGrad dims R lam V (Function.update W i X) i
  set D : ℕ → ℕ → ℝ := fun x r => Y x r - X x r
  have h1 : 0 ≤ ∑ idx ∈ Box dims, modelChange R (Function.update W i X) i D idx ^ 2 := sum_nonneg fun _ _ => sq_nonneg _
  have h2 := (abs_le.1 (frob_cauchy (dims i) R g D)).1
  have h3 : 0 ≤ frob (dims i) R g g / lam + 2 * frob (dims i) R g D + lam * frob (dims i) R D D := by
    rw [← nrm_sq, ← nrm_sq]
    have : 0 ≤ (nrm (dims i) R g - lam * nrm (dims i) R D) ^ 2 / lam := div_nonneg (sq_nonneg _) hl.le
    have e : (nrm (dims i) R g - lam * nrm (dims i) R D) ^ 2 / lam =
        nrm (dims i) R g ^ 2 / lam - 2 * (nrm (dims i) R g * nrm (dims i) R D) + lam * nrm (dims i) R D ^ 2 := by
      field_simp
      ring
    rw [e] at this
    linarith
  rw [fullObj2_eq lam _ i, fullObj2_eq lam (Function.update W i Y) i]
  have e3 : ∑ j ∈ univ.erase i, frob (dims j) R (Function.update W i X j) (Function.update W i X j) =
      ∑ j ∈ univ.erase i, frob (dims j) R (Function.update W i Y j) (Function.update W i Y j) :=
    sum_congr rfl fun j hj => by rw [Function.update_of_ne (ne_of_mem_erase hj), Function.update_of_ne (ne_of_mem_erase hj)]
  rw [e3, e]
  linarith

/-- The relative error of the normal equations solved: `c` from the contractions, `eta` from the solver. -/
noncomputable def normErr (c eta : ℝ) : ℝ := (1 + c) * (1 + eta) - 1

theorem near_posDef (hl : 0 < lam) (hd : 0 < dims i) {c : ℝ} (hc : 0 ≤ c)
    (hs : c * (∑ r ∈ range R, gramExcept dims W i r r + lam) < lam) {S T : ℕ → ℕ → ℝ}
    (hS : ∀ a < R, ∀ b < R, |S a b - normalMat dims R lam W i a b| ≤ c * normalMat dims R lam (absMats W) i a b)
    (hT : OneTriangle S T) : PosDef R T := by
  refine ⟨fun a _ b _ => hT.1 a b, fun v hv => ?_⟩
  have hT' : ∀ a < R, ∀ b < R, |T a b - normalMat dims R lam W i a b| ≤ c * normalMat dims R lam (absMats W) i a b := by
    intro a ha b hb
    rcases hT.2 a b with h | h
    · rw [h]; exact hS a ha b hb
    · rw [h, normalMat_symm', normalMat_symm' (W := absMats W)]; exact hS b hb a ha
  set D := ∑ r ∈ range R, gramExcept dims W i r r + lam with hD
  have hq : 0 < ∑ a ∈ range R, v a * v a := by
    obtain ⟨a, ha, hne⟩ := hv
    exact sum_pos' (fun _ _ => mul_self_nonneg _) ⟨a, mem_range.2 ha, mul_self_pos.2 hne⟩
  have h1 : lam * ∑ a ∈ range R, v a * v a ≤ ∑ a ∈ range R, ∑ b ∈ range R, v a * normalMat dims R lam W i a b * v b := by
    have hg := gram_quad_nonneg (R := R) (W := W) hd v
    have e : ∑ a ∈ range R, ∑ b ∈ range R, v a * normalMat dims R lam W i a b * v b =
        ∑ a ∈ range R, ∑ b ∈ range R, v a * gramExcept dims W i a b * v b + lam * ∑ a ∈ range R, v a * v a := by
      rw [mul_sum, ← sum_add_distrib]
      refine sum_congr rfl fun a ha => ?_
      rw [show lam * (v a * v a) = ∑ b ∈ range R, if a = b then v a * lam * v b else 0 by
        rw [Finset.sum_ite_eq, if_pos ha]; ring, ← sum_add_distrib]
      refine sum_congr rfl fun b hb => ?_
      simp only [normalMat, clip, mem_range.1 ha, mem_range.1 hb, and_self, if_true]
      split_ifs <;> ring
    rw [e]
    linarith
  have h2 : ∑ a ∈ range R, ∑ b ∈ range R, |v a| * normalMat dims R lam (absMats W) i a b * |v b| ≤ D * ∑ a ∈ range R, v a * v a := by
    have h := nrm_normal_le (dims := dims) (R := R) (W := W) (i := i) hl.le 1 (fun _ k => v k)
    have hf := (le_abs_self _).trans (frob_cauchy 1 R (fun x r => ∑ k ∈ range R, |v k| * normalMat dims R lam (absMats W) i k r) (fun _ k => |v k|))
    have e1 : frob 1 R (fun x r => ∑ k ∈ range R, |v k| * normalMat dims R lam (absMats W) i k r) (fun _ k => |v k|) =
        ∑ a ∈ range R, ∑ b ∈ range R, |v a| * normalMat dims R lam (absMats W) i a b * |v b| := by
      unfold frob
      rw [sum_range_one, sum_comm]
      exact sum_congr rfl fun a _ => sum_mul _ _ _
    have e2 : nrm 1 R (fun _ k => |v k|) = nrm 1 R (fun _ k => v k) := by
      unfold nrm frob
      simp only [abs_mul_abs_self]
    have e3 : nrm 1 R (fun _ k => v k) * nrm 1 R (fun _ k => v k) = ∑ a ∈ range R, v a * v a := by
      rw [← pow_two, nrm_sq]
      unfold frob
      rw [sum_range_one]
    rw [e1, e2] at hf
    refine hf.trans ((mul_le_mul_of_nonneg_right h (nrm_nonneg _ _ _)).trans (le_of_eq ?_))
    rw [mul_assoc, e3]
  have h3 : |∑ a ∈ range R, ∑ b ∈ range R, v a * T a b * v b -
      ∑ a ∈ range R, ∑ b ∈ range R, v a * normalMat dims R lam W i a b * v b| ≤
      c * ∑ a ∈ range R, ∑ b ∈ range R, |v a| * normalMat dims R lam (absMats W) i a b * |v b| := by
    rw [← sum_sub_distrib, mul_sum]
    refine (abs_sum_le_sum_abs _ _).trans (sum_le_sum fun a ha => ?_)
    rw [← sum_sub_distrib, mul_sum]
    refine (abs_sum_le_sum_abs _ _).trans (sum_le_sum fun b hb => ?_)
    rw [show v a * T a b * v b - v a * normalMat dims R lam W i a b * v b = v a * (T a b - normalMat dims R lam W i a b) * v b by ring,
      abs_mul, abs_mul]
    have := mul_le_mul_of_nonneg_right (mul_le_mul_of_nonneg_left (hT' a (mem_range.1 ha) b (mem_range.1 hb)) (abs_nonneg (v a))) (abs_nonneg (v b))
    linarith
  have h4 := (abs_le.1 h3).1
  have h5 := mul_le_mul_of_nonneg_left h2 hc
  have h6 := mul_lt_mul_of_pos_right hs hq
  nlinarith

/-- One rounded update. -/
theorem rounded_grad {eta c cG : ℝ} {solve : Solver ℝ} (hsol : SolvesBack eta solve) (he : 0 ≤ eta) (hc : 0 ≤ c) (hl : 0 < lam)
    {st st' : AlsState N ℝ} (h : RoundedUpdate dims R lam solve V c c cG i st st')
    (hs : normErr c eta * (∑ r ∈ range R, gramExcept dims st.W i r r + lam) ≤ lam / 2) :
    nrm (dims i) R (alsGrad dims R lam V st'.W i) ≤ 4 * normErr c eta *
      nrm (dims i) R (mttkrp dims (absArr V) (absMats st.W) i) * (∑ r ∈ range R, gramExcept dims st.W i r r + lam) / lam := by
  obtain ⟨M, S, g, hM, hS, _, hW, _⟩ := h
  rw [abs_of_pos hl] at hS
  set D := ∑ r ∈ range R, gramExcept dims st.W i r r + lam with hD
  set d := normErr c eta with hd
  have hdc : c ≤ d := by unfold normErr at hd; nlinarith
  have hd0 : 0 ≤ d := hc.trans hdc
  have hDl : lam ≤ D := by
    have : 0 ≤ ∑ r ∈ range R, gramExcept dims st.W i r r := sum_nonneg fun r _ => gramExcept_diag_nonneg r
    linarith
  have hD0 : 0 < D := by linarith
  set A := mttkrp dims (absArr V) (absMats st.W) i with hA
  set m := nrm (dims i) R A with hm
  have hm0 : 0 ≤ m := nrm_nonneg _ _ _
  rcases Nat.eq_zero_or_pos (dims i) with hz | hpos
  · have : nrm (dims i) R (alsGrad dims R lam V st'.W i) = 0 := by
      unfold nrm frob
      rw [hz]
      simp
    rw [this]
    positivity
  set X := clip (dims i) R (solve (dims i) R (clip (dims i) R M) (clip R R S)) with hX
  have hcl : ∀ a < R, ∀ b < R, |clip R R S a b - normalMat dims R lam st.W i a b| ≤ c * normalMat dims R lam (absMats st.W) i a b := by
    intro a ha b hb
    rw [clip_of ha hb]
    exact hS a ha b hb
  have hcD : c * D < lam := by
    have := mul_le_mul_of_nonneg_right hdc hD0.le
    linarith
  obtain ⟨T, hT, hres⟩ := hsol (dims i) R (clip (dims i) R M) (clip R R S) fun T hT => near_posDef hl hpos hc hcD hcl hT
  have hT' : ∀ a < R, ∀ b < R, |T a b - normalMat dims R lam st.W i a b| ≤ c * normalMat dims R lam (absMats st.W) i a b := by
    intro a ha b hb
    rcases hT.2 a b with h | h
    · rw [h]; exact hcl a ha b hb
    · rw [h, normalMat_symm', normalMat_symm' (W := absMats st.W)]; exact hcl b hb a ha
  -- the residual of the exact normal equations
  have key : ∀ x < dims i, ∀ r < R, |alsGrad dims R lam V st'.W i x r| ≤
      d * (A x r + ∑ k ∈ range R, |X x k| * normalMat dims R lam (absMats st.W) i k r) := by
    intro x hx r hr
    have e1 : alsGrad dims R lam V st'.W i x r = -mttkrp dims V st.W i x r + ∑ k ∈ range R, X x k * normalMat dims R lam st.W i k r := by
      unfold alsGrad
      rw [clip_of hx hr, hW, normalMat_update, mttkrp_update, Function.update_self]
    have hr1 := hres x hx r hr
    rw [clip_of hx hr] at hr1
    have hXe : ∀ k ∈ range R, solve (dims i) R (clip (dims i) R M) (clip R R S) x k = X x k := by
      intro k hk
      rw [hX, clip_of hx (mem_range.1 hk)]
    rw [sum_congr rfl fun k hk => by rw [hXe k hk], sum_congr (s₁ := range R) (f := fun k => |solve (dims i) R (clip (dims i) R M) (clip R R S) x k| * |T k r|) rfl
      fun k hk => by rw [hXe k hk]] at hr1
    have hM1 := hM x hx r hr
    have hMa : |M x r| ≤ (1 + c) * A x r := by
      have a1 := abs_mttkrp_le (dims := dims) (V := V) (W := st.W) (i := i) x r
      have a2 : |M x r| ≤ |M x r - mttkrp dims V st.W i x r| + |mttkrp dims V st.W i x r| := by
        have := abs_add_le (M x r - mttkrp dims V st.W i x r) (mttkrp dims V st.W i x r)
        simpa using this
      rw [← hA] at a1
      linarith
    have hTa : ∀ k ∈ range R, |T k r| ≤ (1 + c) * normalMat dims R lam (absMats st.W) i k r := by
      intro k hk
      have a1 := abs_normalMat_le (dims := dims) (R := R) (W := st.W) (i := i) hl.le k r
      have a2 : |T k r| ≤ |T k r - normalMat dims R lam st.W i k r| + |normalMat dims R lam st.W i k r| := by
        have := abs_add_le (T k r - normalMat dims R lam st.W i k r) (normalMat dims R lam st.W i k r)
        simpa using this
      have := hT' k (mem_range.1 hk) r hr
      linarith
    set Q := ∑ k ∈ range R, |X x k| * normalMat dims R lam (absMats st.W) i k r with hQ
    have b1 : ∑ k ∈ range R, |X x k| * |T k r| ≤ (1 + c) * Q := by
      rw [hQ, mul_sum]
      refine sum_le_sum fun k hk => ?_
      have := mul_le_mul_of_nonneg_left (hTa k hk) (abs_nonneg (X x k))
      linarith
    have b2 : |∑ k ∈ range R, X x k * T k r - ∑ k ∈ range R, X x k * normalMat dims R lam st.W i k r| ≤ c * Q := by
      rw [← sum_sub_distrib, hQ, mul_sum]
      refine (abs_sum_le_sum_abs _ _).trans (sum_le_sum fun k hk => ?_)
      rw [← mul_sub, abs_mul]
      have := mul_le_mul_of_nonneg_left (hT' k (mem_range.1 hk) r hr) (abs_nonneg (X x k))
      linarith
    rw [e1]
    have b3 := mul_le_mul_of_nonneg_left (add_le_add b1 hMa) he
    have b4 : |-mttkrp dims V st.W i x r + ∑ k ∈ range R, X x k * normalMat dims R lam st.W i k r| ≤
        |∑ k ∈ range R, X x k * T k r - M x r| + |∑ k ∈ range R, X x k * T k r - ∑ k ∈ range R, X x k * normalMat dims R lam st.W i k r| +
          |M x r - mttkrp dims V st.W i x r| := by
      rw [abs_le]
      have c1 := abs_le.1 (le_refl |∑ k ∈ range R, X x k * T k r - M x r|)
      have c2 := abs_le.1 (le_refl |∑ k ∈ range R, X x k * T k r - ∑ k ∈ range R, X x k * normalMat dims R lam st.W i k r|)
      have c3 := abs_le.1 (le_refl |M x r - mttkrp dims V st.W i x r|)
      constructor <;> linarith [c1.1, c1.2, c2.1, c2.2, c3.1, c3.2]
    have : d = eta * (1 + c) + c := by rw [hd]; unfold normErr; ring
    rw [this]
    linarith
  set ξ := nrm (dims i) R X with hξ
  have hξ0 : 0 ≤ ξ := nrm_nonneg _ _ _
  have hg1 : nrm (dims i) R (alsGrad dims R lam V st'.W i) ≤ d * (m + D * ξ) := by
    refine (nrm_mono key).trans ?_
    rw [nrm_smul _ _ hd0]
    refine mul_le_mul_of_nonneg_left ((nrm_add_le _ _ _ _).trans (add_le_add le_rfl ?_)) hd0
    exact nrm_normal_le hl.le _ _
  -- the size of the new factor
  have hxi : lam * ξ ≤ m + nrm (dims i) R (alsGrad dims R lam V st'.W i) := by
    have hco := normal_coercive (dims := dims) (R := R) (lam := lam) (W := st.W) (i := i) X
    have e : nrm (dims i) R (fun x r => ∑ k ∈ range R, X x k * normalMat dims R lam st.W i k r) ≤
        m + nrm (dims i) R (alsGrad dims R lam V st'.W i) := by
      rw [nrm_congr (B := fun x r => mttkrp dims V st.W i x r + alsGrad dims R lam V st'.W i x r)]
      · refine (nrm_add_le _ _ _ _).trans (add_le_add (nrm_mono fun x _ r _ => abs_mttkrp_le x r) le_rfl)
      · intro x hx r hr
        unfold alsGrad
        rw [clip_of hx hr, hW, normalMat_update, mttkrp_update, Function.update_self]
        ring
    have hcs := (le_abs_self _).trans (frob_cauchy (dims i) R (fun x r => ∑ k ∈ range R, X x k * normalMat dims R lam st.W i k r) X)
    rw [← nrm_sq, ← hξ] at hco
    rcases hξ0.eq_or_lt with h0 | h0
    · rw [← h0, mul_zero]
      exact add_nonneg hm0 (nrm_nonneg _ _ _)
    · have := hco.trans (hcs.trans (mul_le_mul_of_nonneg_right e hξ0))
      rw [pow_two, ← mul_assoc] at this
      exact le_of_mul_le_mul_right this h0
  have hdh : d ≤ 1 / 2 := by
    by_contra hcon
    push Not at hcon
    nlinarith
  have hxi2 : lam * ξ ≤ 3 * m := by nlinarith
  refine hg1.trans ?_
  rw [le_div_iff₀ hl]
  have : D * (lam * ξ) ≤ D * (3 * m) := mul_le_mul_of_nonneg_left hxi2 hD0.le
  have h2 : m * lam ≤ m * D := mul_le_mul_of_nonneg_left hDl hm0
  nlinarith

theorem sq_add_le (z y : ℝ) : (z + y) ^ 2 ≤ 2 * z ^ 2 + 2 * y ^ 2 := by nlinarith [sq_nonneg (z - y)]

theorem trace_le_obj (h2 : 2 ≤ N) (hl : 0 < lam) {F : ℝ} (hF : fullObj2 dims R lam V W ≤ F) :
    ∑ r ∈ range R, gramExcept dims W i r r ≤ gramSize N lam F :=
  trace_le h2 fun j => (frob_le_obj hl j).trans (div_le_div_of_nonneg_right hF hl.le)

/-- A rounded update costs at most `updateLoss`, leaves a small gradient, and records a gradient that is small when the objective stays. -/
theorem rounded_update (h2 : 2 ≤ N) {eta c cG F : ℝ} {solve : Solver ℝ} (hsol : SolvesBack eta solve) (he : 0 ≤ eta) (hc : 0 ≤ c) (hcG : 0 ≤ cG)
    (hl : 0 < lam) {st st' : AlsState N ℝ} (h : RoundedUpdate dims R lam solve V c c cG i st st') (hF : fullObj2 dims R lam V st.W ≤ F)
    (hs : normErr c eta * (gramSize N lam F + lam) ≤ lam / 2) :
    fullObj2 dims R lam V st'.W ≤ fullObj2 dims R lam V st.W + updateLoss dims lam V (normErr c eta) F ∧
      frob (dims i) R (alsGrad dims R lam V st'.W i) (alsGrad dims R lam V st'.W i) ≤ lam * updateLoss dims lam V (normErr c eta) F ∧
      frob (dims i) R (st'.G i) (st'.G i) ≤ 2 * (gramSize N lam F + R * lam) *
        (fullObj2 dims R lam V st.W - fullObj2 dims R lam V st'.W + updateLoss dims lam V (normErr c eta) F) + 2 * gradNoise dims lam V cG F := by
  have htr := trace_le_obj (i := i) h2 hl hF
  have ht0 : 0 ≤ ∑ r ∈ range R, gramExcept dims st.W i r r := sum_nonneg fun r _ => gramExcept_diag_nonneg r
  have hd0 : 0 ≤ normErr c eta := by unfold normErr; nlinarith
  set gs := gramSize N lam F with hgs
  set d := normErr c eta with hd
  set t := ∑ r ∈ range R, gramExcept dims st.W i r r with ht
  set v := ∑ idx ∈ Box dims, V idx ^ 2 with hv
  have hv0 : 0 ≤ v := sum_nonneg fun _ _ => sq_nonneg _
  have hgs0 : 0 ≤ gs := ht0.trans htr
  have hF0 : 0 ≤ F := (fullObj2_nonneg hl.le).trans hF
  have hs' : d * (t + lam) ≤ lam / 2 := (mul_le_mul_of_nonneg_left (by linarith) hd0).trans hs
  have hg := rounded_grad hsol he hc hl h hs'
  rw [← hd, ← ht] at hg
  set m := nrm (dims i) R (mttkrp dims (absArr V) (absMats st.W) i) with hm
  have hm0 : 0 ≤ m := nrm_nonneg _ _ _
  have hm2 : m ^ 2 ≤ v * gs := by
    rw [hm, nrm_sq]
    exact nrm_mttkrp_le.trans (mul_le_mul_of_nonneg_left htr hv0)
  have hG' : frob (dims i) R (alsGrad dims R lam V st'.W i) (alsGrad dims R lam V st'.W i) ≤ lam * updateLoss dims lam V d F := by
    rw [← nrm_sq]
    have h1 := pow_le_pow_left₀ (nrm_nonneg _ _ _) hg 2
    refine h1.trans ?_
    have e : lam * updateLoss dims lam V d F = (16 * d ^ 2 * (v * gs) * (gs + lam) ^ 2) / lam ^ 2 := by
      unfold updateLoss
      rw [← hgs, ← hv]
      field_simp
    rw [e, div_pow]
    refine div_le_div_of_nonneg_right ?_ (sq_nonneg _)
    have h3 : (t + lam) ^ 2 ≤ (gs + lam) ^ 2 := pow_le_pow_left₀ (by linarith) (by linarith) 2
    calc (4 * d * m * (t + lam)) ^ 2 = 16 * d ^ 2 * (m ^ 2) * (t + lam) ^ 2 := by ring
      _ ≤ 16 * d ^ 2 * (v * gs) * (gs + lam) ^ 2 := by gcongr
  have hW : ∃ X, st'.W = Function.update st.W i X := by
    obtain ⟨_, _, _, _, _, _, hW, _⟩ := h
    exact ⟨_, hW⟩
  obtain ⟨X, hX⟩ := hW
  have hob : ∀ Y, fullObj2 dims R lam V st'.W ≤ fullObj2 dims R lam V (Function.update st.W i Y) + updateLoss dims lam V d F := by
    intro Y
    have h1 := obj_le_of_grad (dims := dims) (R := R) (V := V) (W := st.W) (i := i) hl X Y
    rw [← hX] at h1
    have h2 : frob (dims i) R (alsGrad dims R lam V st'.W i) (alsGrad dims R lam V st'.W i) / lam ≤ updateLoss dims lam V d F := by
      rw [div_le_iff₀ hl, mul_comm]
      exact hG'
    linarith
  refine ⟨?_, hG', ?_⟩
  · have := hob (st.W i)
    rwa [Function.update_eq_self] at this
  · obtain ⟨Xs, hXs⟩ := normal_solvable (dims := dims) (R := R) (V := V) (W := st.W) (i := i) hl.le
    have hB : ∀ j, frob (dims j) R (st.W j) (st.W j) ≤ F / lam := fun j => (frob_le_obj hl j).trans (div_le_div_of_nonneg_right hF hl.le)
    have hdec := grad_le_decrease h2 hl.le hB hXs
    have hT0 : 0 ≤ gs + R * lam := add_nonneg hgs0 (mul_nonneg (Nat.cast_nonneg _) hl.le)
    have hdec2 : frob (dims i) R (alsGrad dims R lam V st.W i) (alsGrad dims R lam V st.W i) ≤
        (gs + R * lam) * (fullObj2 dims R lam V st.W - fullObj2 dims R lam V st'.W + updateLoss dims lam V d F) := by
      refine hdec.trans (mul_le_mul_of_nonneg_left ?_ hT0)
      have := hob Xs
      linarith
    obtain ⟨M, S, g, _, _, hg3, _, hG⟩ := h
    rw [abs_of_pos hl] at hg3
    set G := alsGrad dims R lam V st.W i with hGdef
    have e1 : nrm (dims i) R (st'.G i) ≤ nrm (dims i) R G + cG * (m + (gs + lam) * nrm (dims i) R (st.W i)) := by
      rw [nrm_congr (B := fun x r => G x r + (g x r - G x r)) (by
        intro x hx r hr
        rw [hG, Function.update_self, clip_of hx hr]
        ring)]
      refine (nrm_add_le _ _ _ _).trans (add_le_add le_rfl ?_)
      refine (nrm_mono hg3).trans ?_
      rw [nrm_smul _ _ hcG]
      refine mul_le_mul_of_nonneg_left ((nrm_add_le _ _ _ _).trans (add_le_add le_rfl ?_)) hcG
      refine (nrm_normal_le hl.le _ _).trans (mul_le_mul_of_nonneg_right (by linarith) (nrm_nonneg _ _ _))
    have e2 : nrm (dims i) R (st.W i) ^ 2 ≤ F / lam := by rw [nrm_sq]; exact hB i
    have e3 : (cG * (m + (gs + lam) * nrm (dims i) R (st.W i))) ^ 2 ≤ gradNoise dims lam V cG F := by
      unfold gradNoise
      rw [← hgs, ← hv]
      set n := nrm (dims i) R (st.W i)
      have a1 : (m + (gs + lam) * n) ^ 2 ≤ 2 * (m ^ 2 + (gs + lam) ^ 2 * n ^ 2) := by nlinarith [sq_nonneg (m - (gs + lam) * n)]
      have a2 : (gs + lam) ^ 2 * n ^ 2 ≤ (gs + lam) ^ 2 * (F / lam) := mul_le_mul_of_nonneg_left e2 (sq_nonneg _)
      rw [mul_pow]
      nlinarith [sq_nonneg cG, mul_le_mul_of_nonneg_left (a1.trans (mul_le_mul_of_nonneg_left (add_le_add hm2 a2) (by norm_num : (0:ℝ) ≤ 2))) (sq_nonneg cG)]
    have e4 := pow_le_pow_left₀ (nrm_nonneg _ _ _) e1 2
    rw [← nrm_sq] at hdec2
    rw [← nrm_sq]
    refine e4.trans ?_
    generalize cG * (m + (gs + lam) * nrm (dims i) R (st.W i)) = y at *
    generalize nrm (dims i) R G = z at *
    have hyz := sq_add_le z y
    linarith

theorem updateLoss_nonneg (hl : 0 < lam) {F : ℝ} (hF : 0 ≤ F) (d : ℝ) : 0 ≤ updateLoss dims lam V d F := by
  unfold updateLoss gramSize
  have : 0 ≤ ∑ idx ∈ Box dims, V idx ^ 2 := sum_nonneg fun _ _ => sq_nonneg _
  positivity

theorem gradNoise_nonneg (hl : 0 < lam) {F : ℝ} (hF : 0 ≤ F) (cG : ℝ) : 0 ≤ gradNoise dims lam V cG F := by
  unfold gradNoise gramSize
  have : 0 ≤ ∑ idx ∈ Box dims, V idx ^ 2 := sum_nonneg fun _ _ => sq_nonneg _
  positivity

/-- A run of rounded updates. -/
theorem rounded_run (h2 : 2 ≤ N) {eta c cG F : ℝ} {solve : Solver ℝ} (hsol : SolvesBack eta solve) (he : 0 ≤ eta) (hc : 0 ≤ c) (hcG : 0 ≤ cG)
    (hl : 0 < lam) {l : List (Fin N)} {st st' : AlsState N ℝ} (h : RoundedRun dims R lam solve V c c cG l st st')
    (hF : fullObj2 dims R lam V st.W + l.length * updateLoss dims lam V (normErr c eta) F ≤ F) (hF0 : 0 ≤ F)
    (hs : normErr c eta * (gramSize N lam F + lam) ≤ lam / 2) :
    fullObj2 dims R lam V st'.W ≤ fullObj2 dims R lam V st.W + l.length * updateLoss dims lam V (normErr c eta) F ∧
      (∀ j ∉ l, st'.G j = st.G j) ∧
      ∑ j ∈ l.toFinset, frob (dims j) R (st'.G j) (st'.G j) ≤ 2 * (gramSize N lam F + R * lam) *
        (fullObj2 dims R lam V st.W - fullObj2 dims R lam V st'.W + l.length * updateLoss dims lam V (normErr c eta) F) +
          l.length * (2 * gradNoise dims lam V cG F) := by
  have hL := updateLoss_nonneg (dims := dims) (V := V) hl hF0 (normErr c eta)
  have hE := gradNoise_nonneg (dims := dims) (V := V) hl hF0 cG
  have hT : 0 ≤ gramSize N lam F + R * lam :=
    add_nonneg (pow_nonneg (div_nonneg hF0 hl.le) _) (mul_nonneg (Nat.cast_nonneg _) hl.le)
  induction h with
  | nil => simp
  | @cons i l st st1 st2 h1 h3 ih =>
    have hln : (((i :: l).length : ℕ) : ℝ) = l.length + 1 := by push_cast [List.length_cons]; ring
    rw [hln] at hF ⊢
    have hl0 : (0 : ℝ) ≤ l.length := Nat.cast_nonneg _
    obtain ⟨u1, u2, u3⟩ := rounded_update h2 hsol he hc hcG hl h1 (by nlinarith) hs
    obtain ⟨a1, a2, a3⟩ := ih (by nlinarith)
    have hoth : ∀ j, j ≠ i → st1.G j = st.G j := by
      intro j hj
      obtain ⟨_, _, _, _, _, _, _, hG⟩ := h1
      rw [hG, Function.update_of_ne hj]
    set L := updateLoss dims lam V (normErr c eta) F
    set E := gradNoise dims lam V cG F
    set T := gramSize N lam F + R * lam
    refine ⟨by linarith, fun j hj => ?_, ?_⟩
    · rw [List.mem_cons, not_or] at hj
      rw [a2 j hj.2, hoth j hj.1]
    · clear_value L E T
      generalize fullObj2 dims R lam V st.W = p at *
      generalize fullObj2 dims R lam V st1.W = q at *
      generalize fullObj2 dims R lam V st2.W = s at *
      by_cases hi : i ∈ l
      · rw [List.toFinset_cons, insert_eq_of_mem (List.mem_toFinset.2 hi)]
        have := mul_nonneg (mul_nonneg (by norm_num : (0:ℝ) ≤ 2) hT) (show 0 ≤ p - q + L by linarith)
        linarith
      · rw [List.toFinset_cons, sum_insert (by simpa using hi), a2 i hi]
        linarith

end Spec
