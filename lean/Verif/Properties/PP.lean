import Verif.Proofs.PPUpdate
import Verif.Properties.Solve
import Verif.Properties.Build

/-! # C26, C27, C29: pairwise perturbation for CP -/

namespace Properties

open Model Finset

/-- The key under which a set of contracted modes is stored: their letters, ascending. -/
def keyWithout (N : ℕ) (out : ℕ → Bool) : Key := ((List.range N).filter fun m => !out m).map letter

section C26

variable {K : Type} [CommRing K] {N : ℕ} {dims : Fin N → ℕ} {R : ℕ} {V : Tensor K} {W : List (Tensor K)}

theorem keyWithout_one (hN : N ≤ 31) (i : Fin N) : keyWithout N (fun m => decide (m = i.1)) = exceptOne (allLetters N) i.1 := by
  rw [exceptOne_lab hN]
  unfold keyWithout
  have : (List.range N).filter (fun m => !decide (m = i.1)) = (ex1 i).map Fin.val := by
    refine List.Pairwise.eq_of_mem_iff (r := (· < ·)) (List.pairwise_lt_range.filter _) ?_ ?_
    · rw [List.pairwise_map]
      exact ((List.pairwise_lt_finRange N).sublist (ex1_sub i)).imp fun h => h
    · intro m
      simp only [List.mem_filter, List.mem_range, Bool.not_eq_eq_eq_not, Bool.not_true, decide_eq_false_iff_not, List.mem_map,
        mem_ex1]
      constructor
      · rintro ⟨h1, h2⟩
        exact ⟨⟨m, h1⟩, fun e => h2 (congrArg Fin.val e), rfl⟩
      · rintro ⟨a, ha, rfl⟩
        exact ⟨a.2, fun e => ha (Fin.ext e)⟩
  rw [this, List.map_map]
  rfl

theorem keyWithout_two (hN : N ≤ 31) {i j : Fin N} (hij : i < j) :
    keyWithout N (fun m => decide (m = i.1 ∨ m = j.1)) = exceptTwo (allLetters N) i.1 j.1 := by
  rw [exceptTwo_lab hN]
  unfold keyWithout
  have : (List.range N).filter (fun m => !decide (m = i.1 ∨ m = j.1)) = (ex2 i j).map Fin.val := by
    refine List.Pairwise.eq_of_mem_iff (r := (· < ·)) (List.pairwise_lt_range.filter _) ?_ ?_
    · rw [List.pairwise_map]
      exact ((List.pairwise_lt_finRange N).sublist (ex2_sub hij)).imp fun h => h
    · intro m
      simp only [List.mem_filter, List.mem_range, Bool.not_eq_eq_eq_not, Bool.not_true, decide_eq_false_iff_not, List.mem_map,
        mem_ex2 hij, not_or]
      constructor
      · rintro ⟨h1, h2, h3⟩
        exact ⟨⟨m, h1⟩, ⟨fun e => h2 (congrArg Fin.val e), fun e => h3 (congrArg Fin.val e)⟩, rfl⟩
      · rintro ⟨a, ha, rfl⟩
        exact ⟨a.2, fun e => ha.1 (Fin.ext e), fun e => ha.2 (Fin.ext e)⟩
  rw [this, List.map_map]
  rfl

theorem pairOp_eq {i j : Fin N} (hij : i ≠ j) (V : (Fin N → ℕ) → K) (W : Fin N → ℕ → ℕ → K) (y : Fin N → ℕ) (r : ℕ) :
    Spec.partialMttkrp dims V W [i, j].toFinset y r = Spec.pairOp dims V W i j (y i) (y j) r := by
  unfold Spec.partialMttkrp Spec.pairOp
  have h : ([i, j] : List (Fin N)).toFinsetᶜ = (univ.erase i).erase j := by
    ext m; simp [and_comm]
  rw [h]
  simp

theorem valid_pair {V : (Fin N → ℕ) → K} {W : Fin N → ℕ → ℕ → K} {T : Tensor K} {i j : Fin N} (hij : i ≠ j)
    (h : Valid dims R V W T [i, j]) : T.lens = [dims i, dims j, R] ∧
      ∀ x < dims i, ∀ y < dims j, ∀ r < R, T.val [x, y, r] = Spec.pairOp dims V W i j x y r := by
  refine ⟨h.1, fun x hx y hy r hr => ?_⟩
  have := h.2 (fun m => if m = i then x else y) (by
    intro m hm
    simp only [List.mem_cons, List.not_mem_nil, or_false] at hm
    rcases hm with rfl | rfl
    · simpa using hx
    · simpa [hij.symm] using hy) r hr
  rw [pairOp_eq hij] at this
  simpa [hij.symm] using this

/-- **C26.** Orders 3 to 9, any edge lengths, whichever way the comparison of string literals goes: the operators of a PP
phase are built, the one for mode `i` is the exact MTTKRP, the one for modes `i < j` the exact pairwise operator of the
factors passed. -/
theorem C26_operators_exact (h3 : 3 ≤ N) (h9 : N ≤ 9) (same : Bool) (hS : Shaped dims R V W) :
    ∃ ops, ppOperators same N V W = .ok ops ∧
      (∀ i : Fin N, ∃ T, ops.lookup (keyWithout N fun m => decide (m = i.1)) = some T ∧ T.lens = [dims i, R] ∧
        ∀ x < dims i, ∀ r < R, T.val [x, r] = Spec.mttkrp dims (arr V N) (mats W) i x r) ∧
      ∀ i j : Fin N, i < j → ∃ T, ops.lookup (keyWithout N fun m => decide (m = i.1 ∨ m = j.1)) = some T ∧
        T.lens = [dims i, dims j, R] ∧ ∀ x < dims i, ∀ y < dims j, ∀ r < R,
          T.val [x, y, r] = Spec.pairOp dims (arr V N) (mats W) i j x y r := by
  obtain ⟨ops, h1, h2, h4⟩ := ppOperators_ok h3 h9 same hS
  refine ⟨ops, h1, fun i => ?_, fun i j hij => ?_⟩
  · obtain ⟨T, hT, hG⟩ := h2 i
    have hv := hG.2
    rw [compl_ex1] at hv
    obtain ⟨a, b⟩ := valid_single hv
    exact ⟨T, by rw [keyWithout_one (by omega)]; exact hT, a, b⟩
  · obtain ⟨T, hT, hG⟩ := h4 i j hij
    have hv := hG.2
    rw [compl_ex2 hij] at hv
    obtain ⟨a, b⟩ := valid_pair hij.ne hv
    exact ⟨T, by rw [keyWithout_two (by omega) hij]; exact hT, a, b⟩

/-- **C26 (any map content).** Order at most 31, any nonempty ascending set `ks` of at most 8 modes, any map all of whose
entries for ascending mode sets are exact contractions: `Build_mttkrp_map` succeeds, its entry for `ks` is the exact
contraction along `ks`, and all entries stay exact. -/
theorem C26_build_any_map (hN : N ≤ 31) (same : Bool) (hS : Shaped dims R V W) {ks : List (Fin N)}
    (hs : ks.Sublist (List.finRange N)) (hne : ks ≠ []) (h8 : ks.length ≤ 8) {cache : Cache K}
    (hc : ∀ ks' : List (Fin N), ks'.Sublist (List.finRange N) → ks' ≠ [] → ∀ T,
      cache.lookup (ks'.map fun m => letter m.1) = some T → PPGood dims R V W ks' T) :
    ∃ cache' T, buildMttkrpMap same N V W (ks.map fun m => letter m.1) cache = .ok cache' ∧
      cache'.lookup (ks.map fun m => letter m.1) = some T ∧
      (∀ y : Fin N → ℕ, (∀ m ∉ ks, y m < dims m) → ∀ r < R,
        T.val (((List.finRange N).filter (· ∉ ks)).map y ++ [r]) =
          Spec.partialMttkrp dims (arr V N) (mats W) (univ.filter (· ∉ ks)) y r) ∧
      ∀ ks' : List (Fin N), ks'.Sublist (List.finRange N) → ks' ≠ [] → ∀ T,
        cache'.lookup (ks'.map fun m => letter m.1) = some T → PPGood dims R V W ks' T := by
  obtain ⟨c', h1, h2, ⟨T, h3, h4⟩, _⟩ := buildNode_ok hN (Good := PPGood dims R V W)
    (fun m => ppFromRoot_ok hN same hS m) (fun ks m hs _ Tp hp => ppFromParent_ok hN hS ks m hs Tp hp) _ ks cache rfl hs hne
    h8 hc
  refine ⟨c', T, h1, h3, ?_, h2⟩
  intro y hy r hr
  have := h4.2.2 y (fun m hm => hy m (by simpa [mem_compl'] using hm)) r hr
  refine Eq.trans this ?_
  congr 1
  ext m
  simp [mem_compl']

/-- **C26 (violation).** At orders 1 and 2 and from order 10 on, building the operators overflows the 8-byte key buffer. -/
theorem C26_overflow (h : (1 ≤ N ∧ N ≤ 2) ∨ 10 ≤ N) (same : Bool) (hS : Shaped dims R V W) :
    ppOperators same N V W = .error .ub := ppOperators_overflow h same hS

end C26

section C27

variable {K : Type} [CommRing K] {N : ℕ} {dims : Fin N → ℕ} {R : ℕ} {V : Tensor K} {Winit dW : List (Tensor K)}

/-- **C27.** Orders 3 to 9: the right-hand side a PP phase uses for mode `i` is the first-order expansion, and the exact
MTTKRP at the displaced factors differs from it exactly by the terms with two or more displacements. -/
theorem C27_first_order (h3 : 3 ≤ N) (h9 : N ≤ 9) (same : Bool) (hS : Shaped dims R V Winit) (hD : Shaped dims R V dW)
    (i : Fin N) : ∃ ops M, ppOperators same N V Winit = .ok ops ∧ ppM N ops dW i.1 = .ok M ∧ M.lens = [dims i, R] ∧
      ∀ x < dims i, ∀ r < R,
        mat M x r = Spec.ppMttkrp dims (arr V N) (mats Winit) (mats dW) i x r ∧
        Spec.mttkrp dims (arr V N) (Spec.displace (mats Winit) (mats dW)) i x r = mat M x r +
          ∑ S ∈ (univ.erase i).powerset with 2 ≤ S.card,
            Spec.mttkrp dims (arr V N) (Spec.mix (mats Winit) (mats dW) S) i x r := by
  obtain ⟨ops, h1, h2⟩ := ppOperators_ok h3 h9 same hS
  obtain ⟨M, m1, _, m3, m4⟩ := ppM_ok h2 hD i
  refine ⟨ops, M, h1, m1, m3, fun x hx r hr => ⟨m4 x hx r hr, ?_⟩⟩
  rw [m4 x hx r hr]
  exact Spec.mttkrp_displace_eq _ _ _ _ _

/-- **C27 (exact case).** If at most one mode other than `i` is displaced, the right-hand side is the exact MTTKRP at the
displaced factors. -/
theorem C27_exact (h3 : 3 ≤ N) (h9 : N ≤ 9) (same : Bool) (hS : Shaped dims R V Winit) (hD : Shaped dims R V dW)
    (i j0 : Fin N) (h0 : ∀ j, j ≠ i → j ≠ j0 → ∀ y < dims j, ∀ r < R, mats dW j y r = 0) :
    ∃ ops M, ppOperators same N V Winit = .ok ops ∧ ppM N ops dW i.1 = .ok M ∧ M.lens = [dims i, R] ∧
      ∀ x < dims i, ∀ r < R,
        mat M x r = Spec.mttkrp dims (arr V N) (Spec.displace (mats Winit) (mats dW)) i x r := by
  obtain ⟨ops, M, h1, h2, h4, h5⟩ := C27_first_order h3 h9 same hS hD i
  refine ⟨ops, M, h1, h2, h4, fun x hx r hr => ?_⟩
  rw [(h5 x hx r hr).1]
  exact (Spec.ppMttkrp_exact (j0 := j0) (fun j hj1 hj2 y hy => h0 j hj1 hj2 y hy r hr) x).symm

/-- **C27 (order of the error).** Shrinking all displacements by `t` shrinks the error term of a set `S` of modes by
`t ^ |S|`; as only sets of two or more modes occur, the error is of second order. -/
theorem C27_error_order (t : K) (W D : Fin N → ℕ → ℕ → K) (A : (Fin N → ℕ) → K) (i : Fin N) (x r : ℕ) :
    Spec.mttkrp dims A (Spec.displace W fun j y r => t * D j y r) i x r =
      Spec.ppMttkrp dims A W (fun j y r => t * D j y r) i x r + t ^ 2 *
        ∑ S ∈ (univ.erase i).powerset with 2 ≤ S.card, t ^ (S.card - 2) * Spec.mttkrp dims A (Spec.mix W D S) i x r := by
  rw [Spec.mttkrp_displace_eq, mul_sum]
  congr 1
  refine sum_congr rfl fun S hS => ?_
  rw [mem_filter, mem_powerset] at hS
  rw [Spec.mttkrp_mix_scale t W D hS.1, ← mul_assoc, ← pow_add]
  congr 2
  omega

end C27

/-! Non-vacuity: the example problem of order 4 with nonzero displacements. -/

example : ∃ ops M, ppOperators true 4 exVR exFacR.W = .ok ops ∧ ppM 4 ops exFacR.W 2 = .ok M ∧ M.lens = [1, 2] ∧
    ∀ x < 1, ∀ r < 2, mat M x r = Spec.ppMttkrp ![2, 3, 1, 4] (arr exVR 4) (mats exFacR.W) (mats exFacR.W) 2 x r := by
  obtain ⟨ops, M, h1, h2, h3, h4⟩ := C27_first_order (by norm_num) (by norm_num) true exShapedR exShapedR 2
  exact ⟨ops, M, h1, h2, h3, fun x hx r hr => (h4 x hx r hr).1⟩

end Properties
