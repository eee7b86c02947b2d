import Verif.Proofs.TuckerSweep
import Verif.Properties.Legacy
import Mathlib.Tactic.IntervalCases

/-! # C33, C34, C35: TTMc, the HOSVD core and the Tucker dimension tree -/

namespace Properties

open Model

section

variable {K : Type} [CommRing K] {N : ℕ} {dims rk : Fin N → ℕ} {V : Tensor K} {W : List (Tensor K)}

/-- **C33.** For every order 2..10, all mode lengths, all ranks and all contents, `TTMc(Y, V, W, i)` runs without fault and
leaves in `Y` the product of `V` with every factor but the `i`-th. -/
theorem C33_ttmc (h2 : 2 ≤ N) (hN : N ≤ 10) (hS : TuckShaped dims rk V W) (i : Fin N) (Y0 : Tensor K) :
    ∃ Y, ttmc Y0 V W i.1 = .ok Y ∧ Y.lens = List.ofFn (fun j => if j = i then dims j else rk j) ∧
      ∀ z : Fin N → ℕ, (∀ j, z j < if j = i then dims j else rk j) →
        arr Y N z = Spec.multiTTM dims (arr V N) (mats W) {i} z := by
  obtain ⟨Y, h1, h3, _⟩ := ttmc_loop hN hS (i.1 : ℤ) Y0
  obtain ⟨-, h4, h5⟩ := h3 ⟨if i.1 = 0 then 1 else 0, by split <;> omega, by split <;> omega⟩
  rw [keepOf_self] at h4 h5
  have e : klens dims rk {i} = fun j => if j = i then dims j else rk j := by
    funext j; simp [klens]
  rw [e] at h4 h5
  exact ⟨Y, h1, h4, h5⟩

/-- **C33.** With `i = -1` all modes are contracted, for every order 1..10. -/
theorem C33_ttmc_all (h1 : 1 ≤ N) (hN : N ≤ 10) (hS : TuckShaped dims rk V W) (Y0 : Tensor K) :
    ∃ Y, ttmc Y0 V W (-1) = .ok Y ∧ Y.lens = List.ofFn rk ∧
      ∀ z : Fin N → ℕ, (∀ j, z j < rk j) → arr Y N z = Spec.multiTTM dims (arr V N) (mats W) ∅ z := by
  obtain ⟨Y, h1, h3, _⟩ := ttmc_loop hN hS (-1) Y0
  obtain ⟨-, h4, h5⟩ := h3 ⟨0, by omega, by omega⟩
  rw [keepOf_neg] at h4 h5
  have e : klens dims rk ∅ = rk := by funext j; simp [klens]
  rw [e] at h4 h5
  exact ⟨Y, h1, h4, h5⟩

/-- **C33 (violated at order 1).** With one mode, `TTMc(Y, V, W, 0)` does not touch `Y` at all: it is not set to `V`. -/
theorem C33_order_one {dims rk : Fin 1 → ℕ} (hS : TuckShaped dims rk V W) (Y0 : Tensor K) : ttmc Y0 V W 0 = .ok Y0 := by
  obtain ⟨Y, h1, _, h3⟩ := ttmc_loop (by omega) hS 0 Y0
  rw [h1, h3 (by intro j hj; omega)]

/-- **C33 (violated from order 11 on).** The rank label is the label of mode 10; the contraction aborts whenever the rank of
the first contracted mode differs from the length of mode 10. -/
theorem C33_label_collision (hN : 11 ≤ N) (hN2 : N ≤ 256) (hS : TuckShaped dims rk V W) (i : ℤ) (Y0 : Tensor K)
    (h : rk ⟨if i = 0 then 1 else 0, by split <;> omega⟩ ≠ dims ⟨10, by omega⟩) : ttmc Y0 V W i = .error .abort :=
  ttmc_abort hN hN2 hS i Y0 h

/-- **C34.** For orders 1..10, `get_core_tensor` and `TTMc` with `i = -1` return the same tensor. -/
theorem C34_core_is_ttmc (h1 : 1 ≤ N) (hN : N ≤ 10) (hS : TuckShaped dims rk V W) (Y0 : Tensor K) :
    ∃ C, getCoreTensor V W (List.ofFn rk) = .ok C ∧ ttmc Y0 V W (-1) = .ok C := by
  obtain ⟨C, c1, c2, c3⟩ := getCoreTensor_ok h1 (by omega) hS
  obtain ⟨Y, y1, y2, _⟩ := ttmc_loop hN hS (-1) Y0
  obtain ⟨y2, y3⟩ := y2 ⟨0, by omega, by omega⟩
  rw [keepOf_neg] at y3
  have := y3.unique c3 y2 c2
  subst this
  exact ⟨Y, c1, y1⟩

/-- **C34.** For orders 1..18, `get_core_tensor` returns `V` multiplied by all transposed factors. -/
theorem C34_core_exact (h1 : 1 ≤ N) (hN : N ≤ 18) (hS : TuckShaped dims rk V W) :
    ∃ C, getCoreTensor V W (List.ofFn rk) = .ok C ∧ C.lens = List.ofFn rk ∧
      ∀ z : Fin N → ℕ, (∀ j, z j < rk j) → arr C N z = Spec.multiTTM dims (arr V N) (mats W) ∅ z := by
  obtain ⟨C, c1, c2, c3, c4⟩ := getCoreTensor_ok h1 (by omega) hS
  have e : klens dims rk ∅ = rk := by funext j; simp [klens]
  rw [e] at c3 c4
  exact ⟨C, c1, c3, c4⟩

/-- **C34.** `hosvd` as a whole: with an SVD of the right shape, every factor is the matrix of left singular vectors of the
Gram matrix of an unfolding of the input, and the core is the one `TTMc` computes from them. -/
theorem C34_hosvd {V : Tensor ℝ} (h1 : 1 ≤ N) (hN : N ≤ 18) (hV : V.lens = List.ofFn dims) (hr : ∀ j, rk j ≤ dims j)
    {k : Kern ℝ} (hk : SvdShape k) :
    ∃ C F, hosvd k V (List.ofFn rk) = .ok (C, F) ∧ TuckShaped dims rk V F ∧
      (∀ i : Fin N, ∃ M : Tensor ℝ, M.lens = [dims i, dims i] ∧
        (∀ x < dims i, ∀ y < dims i, mat M x y = Spec.unfoldGram dims (arr V N) i x y) ∧
        F[i.1]? = some (k.svd M (rk i)).U) ∧
      C.lens = List.ofFn rk ∧
      (∀ z : Fin N → ℕ, (∀ j, z j < rk j) → arr C N z = Spec.multiTTM dims (arr V N) (mats F) ∅ z) ∧
      (N ≤ 10 → ∀ Y0, ttmc Y0 V F (-1) = .ok C) := by
  have hlen : V.lens.length = N := by rw [hV]; simp
  have hT : TVal V dims (arr V N) := ⟨hV, fun _ _ => rfl⟩
  have hu : ∀ i : Fin N, ∃ M, unroll V i.1 = .ok M ∧ M.lens = [dims i, dims i] ∧
      ∀ x < dims i, ∀ y < dims i, mat M x y = Spec.unfoldGram dims (arr V N) i x y := fun i => by
    obtain ⟨M, m1, _, m2, m3⟩ := unroll_ok hN hT i
    exact ⟨M, m1, m2, m3⟩
  choose M m1 m2 m3 using hu
  have hF : getFactorMatrices k V (List.ofFn rk) = .ok (List.ofFn fun i : Fin N => (k.svd (M i) (rk i)).U) := by
    unfold getFactorMatrices
    rw [hlen]
    have h := mapM_ok (l := List.range N) (f := fun (i : ℕ) => do
        let M ← unroll V i
        let r ← rd (List.ofFn rk) i
        pure (k.svd M r).U) (g := fun i => if h : i < N then (k.svd (M ⟨i, h⟩) (rk ⟨i, h⟩)).U else ⟨[], fun _ => 0⟩) (by
      intro i hi
      have hi := List.mem_range.1 hi
      have a := m1 ⟨i, hi⟩
      have b := rd_ofFn rk ⟨i, hi⟩
      simp only at a b
      simp only [bind, Except.bind, pure, Except.pure]
      rw [a]
      simp only
      rw [b, dif_pos hi])
    rw [h]
    congr 1
    apply List.ext_getElem
    · simp
    · intro n h1 h2
      simp at h1
      simp [h1]
  have hS : TuckShaped dims rk V (List.ofFn fun i : Fin N => (k.svd (M i) (rk i)).U) := by
    refine ⟨hV, by simp, ?_⟩
    intro j T hT
    rw [List.getElem?_ofFn] at hT
    simp only [j.2, dif_pos, Option.some.injEq] at hT
    rw [← hT]
    exact hk _ _ _ (m2 j) (hr j)
  obtain ⟨C, c1, c2, c3⟩ := C34_core_exact h1 hN hS
  refine ⟨C, _, ?_, hS, ?_, c2, c3, ?_⟩
  · unfold hosvd
    simp only [bind, Except.bind, pure, Except.pure]
    rw [hF]
    simp only
    rw [c1]
  · intro i
    refine ⟨M i, m2 i, m3 i, ?_⟩
    simp
  · intro h10 Y0
    obtain ⟨C', a, b⟩ := C34_core_is_ttmc h1 h10 hS Y0
    rw [c1] at a
    cases a
    exact b

/-- **C35.** For every order 4, 6..31 and every mode, the dimension tree of the Tucker code yields (from an empty map) exactly
the product of the input with the current factors of all other modes. -/
theorem C35_tree_exact (h4 : 4 ≤ N) (h5 : N ≠ 5) (hN : N ≤ 31) (hS : TuckShaped dims rk V W) (i : Fin N) :
    ∃ Y cache, tuckY N (constructDT 0 (N - 1) {}) V W [] i.1 = .ok (Y, cache) ∧
      Y.lens = List.ofFn (fun j => if j = i then dims j else rk j) ∧
      ∀ z : Fin N → ℕ, (∀ j, z j < if j = i then dims j else rk j) →
        arr Y N z = Spec.multiTTM dims (arr V N) (mats W) {i} z := by
  obtain ⟨Y, c, h1, _, ⟨h3, h6⟩, _⟩ := tuckY_ok h4 h5 hN hS i (DInv.nil _ _)
  have e : klens dims rk {i} = fun j => if j = i then dims j else rk j := by
    funext j; simp [klens]
  rw [e] at h3 h6
  exact ⟨Y, c, h1, h3, h6⟩

end

section Sweeps

variable {N : ℕ} {dims rk : Fin N → ℕ} {V : Tensor ℝ} {W : List (Tensor ℝ)}

/-- **C35.** A whole sweep of `alsTucker_DT` (any SVD of the right shape, orders 4, 6..18): mode after mode, the factor becomes
the left singular vectors of the Gram matrix of the unfolded exact TTMc with the factors current at that time, and the core
stored at the end is the input multiplied by all the updated factors. -/
theorem C35_sweep_exact (h4 : 4 ≤ N) (h5 : N ≠ 5) (hN : N ≤ 18) (hr : ∀ j, rk j ≤ dims j) (hS : TuckShaped dims rk V W)
    {k : Kern ℝ} (hk : SvdShape k) :
    ∃ W' C, tuckSweepDT k V (List.ofFn rk) W = .ok (W', C) ∧ TuckShaped dims rk V W' ∧ HooiRun k dims rk V W W' N ∧
      C.lens = List.ofFn rk ∧
      ∀ z : Fin N → ℕ, (∀ j, z j < rk j) → arr C N z = Spec.multiTTM dims (arr V N) (mats W') ∅ z := by
  obtain ⟨W', C, h1, h2, h3, _, h6, h7⟩ := tuckSweepDT_ok h4 h5 hN hr hS hk
  have e : klens dims rk ∅ = rk := by funext j; simp [klens]
  rw [e] at h6 h7
  exact ⟨W', C, h1, h2, h3, h6, h7⟩

/-- **C35.** For orders 4, 6..10 a sweep of `alsTucker_DT` gives the same factors as a sweep of `alsTucker` (which uses `TTMc`
for every mode), and its core is what `TTMc` with `i = -1` returns for them. -/
theorem C35_tree_eq_direct (h4 : 4 ≤ N) (h5 : N ≠ 5) (hN : N ≤ 10) (hr : ∀ j, rk j ≤ dims j) (hS : TuckShaped dims rk V W)
    {k : Kern ℝ} (hk : SvdShape k) (Y0 : Tensor ℝ) :
    ∃ W' C, tuckSweep k V (List.ofFn rk) W = .ok W' ∧ ttmc Y0 V W' (-1) = .ok C ∧
      tuckSweepDT k V (List.ofFn rk) W = .ok (W', C) := by
  obtain ⟨W', C, h1, h2, h3, h6, h7⟩ := tuckSweepDT_ok h4 h5 (by omega) hr hS hk
  obtain ⟨W2, g1, g2, g3⟩ := tuckSweep_ok (by omega) hN hr hS hk
  have := h3.unique le_rfl g3
  subst this
  obtain ⟨Y, y1, y2, _⟩ := ttmc_loop hN h2 (-1) Y0
  obtain ⟨y2, y3⟩ := y2 ⟨0, by omega, by omega⟩
  rw [keepOf_neg] at y3
  have := y3.unique h7 y2 h6
  subst this
  exact ⟨W', Y, g1, y1, h1⟩

end Sweeps

section Violations

variable {K : Type} [CommRing K]

/-- **C35 (violated at order 5).** With five modes the node of modes 0 and 1 is computed from the input by contracting mode 2
only; already the first mode update aborts unless the ranks of modes 3 and 4 equal their lengths. -/
theorem C35_order5_abort {dims rk : Fin 5 → ℕ} {V : Tensor K} {W : List (Tensor K)} (hS : TuckShaped dims rk V W)
    (h : rk 3 ≠ dims 3 ∨ rk 4 ≠ dims 4) : tuckY 5 (constructDT 0 4 {}) V W [] 0 = .error .abort := by
  have s2 : Sub 0 4 (0, 1) (0, 2) (2, 2) := .inL (by omega) (.left (by omega))
  have s3 : Sub 0 4 (0, 0) (0, 1) (1, 1) := .inL (by omega) (.inL (by omega) (.left (by omega)))
  obtain ⟨p2, b2⟩ := mapGet_tree (N := 5) (by omega) s2
  obtain ⟨p3, b3⟩ := mapGet_tree (N := 5) (by omega) s3
  have hset : ivSet 5 (2, 2) ⊆ Finset.univ := Finset.subset_univ _
  obtain ⟨T, t1, t2, -⟩ := ttmLoop_ok (by omega) hS (TValid.input (rk := rk) (mats W) hS.lensV) (b := (2, 2)) (by norm_num) hset
  have hmap : tuckMapDT 5 (constructDT 0 (5 - 1) {}) V W 6 (ivStr (0, 1)) [] = .ok [(ivStr (0, 1), T)] := by
    unfold tuckMapDT dtNode
    rw [if_neg (by simp), if_pos (by rw [strOf_length]; omega)]
    simp only [bind, Except.bind, pure, Except.pure]
    rw [b2, t1]
  obtain ⟨W1, w1, w2, _⟩ := tdecode_rd (by omega) hS (k := 1) (by omega)
  unfold tuckY
  have hl := lensY_ok hS 0
  simp only [Fin.val_zero] at hl
  simp only [bind, Except.bind, pure, Except.pure]
  rw [hl]
  simp only [show (4 : ℕ) = 5 - 1 from rfl]
  have e0 : [letter 0] = ivStr (0, 0) := by simp [ivStr, strOf_self]
  rw [e0, p3, b3, if_pos (by simp), hmap]
  simp only
  have i0 : rd (ivStr (0, 1)) 0 = .ok (letter 0) := rfl
  have i1 : rd (ivStr (0, 1)) 1 = .ok (letter 1) := rfl
  rw [i0, i1]
  simp only
  have hlk : List.lookup (ivStr (0, 1)) [(ivStr (0, 1), T)] = some T := by simp [List.lookup]
  rw [hlk]
  simp only
  rw [if_pos (by simp [ivStr, strOf_self])]
  simp only [if_true]
  rw [w1]
  simp only
  have hT : T.lens = [dims 0, dims 1, rk 2, dims 3, dims 4] := by
    rw [t2]
    simp [List.ofFn_succ, klens, mem_ivSet]
  have hY : List.ofFn (klens dims rk {0}) = [dims 0, rk 1, rk 2, rk 3, rk 4] := by
    simp [List.ofFn_succ, klens]
  have hd : (decode (letter 1)).toNat = 1 := rfl
  rw [hY, hd]
  have hal : allLetters 5 = [letter 0, letter 1, letter 2, letter 3, letter 4] := rfl
  have ha : ∀ m : ℕ, m = 3 ∨ m = 4 → ∀ a b, (m, a, b) ∈ [(3, rk 3, dims 3), (4, rk 4, dims 4)] → a ≠ b →
      einsum [dims 0, rk 1, rk 2, rk 3, rk 4] ((allLetters 5).set 1 star)
        [(T, allLetters 5), (W1, [letter 1, star])] = .error .abort := by
    intro m hm a b hab hne
    refine einsum_abort (l := letter m) (m := a) (n := b) (by simp [hal]) ?_ hne ?_ ?_
    · intro o ho
      simp only [List.mem_cons, List.not_mem_nil, or_false] at ho
      rcases ho with rfl | rfl
      · simp [hal, hT]
      · simp [w2]
    · apply List.mem_append_left
      simp only [hal, List.set_cons_succ, List.set_cons_zero, List.zip_cons_cons, List.mem_cons]
      simp only [List.mem_cons, List.not_mem_nil, or_false, Prod.mk.injEq] at hab
      rcases hab with ⟨rfl, rfl, rfl⟩ | ⟨rfl, rfl, rfl⟩ <;> simp
    · apply List.mem_append_right
      simp only [List.flatMap_cons, opTable, hal, hT, List.zip_cons_cons, List.mem_append, List.mem_cons]
      simp only [List.mem_cons, List.not_mem_nil, or_false, Prod.mk.injEq] at hab
      rcases hab with ⟨rfl, rfl, rfl⟩ | ⟨rfl, rfl, rfl⟩ <;> simp
  rcases h with h | h
  · rw [ha 3 (.inl rfl) _ _ (by simp) h]
  · rw [ha 4 (.inr rfl) _ _ (by simp) h]

/-- **C35 (violated at order 3).** `ttmc_map_DT` called for the string of all modes, as `alsTucker_DT` does for the last mode
of an order-3 tensor, recurses without bound. -/
theorem C35_order3_diverges (V : Tensor K) (W : List (Tensor K)) (cache : Cache K)
    (h1 : cache.lookup [] = none) (h2 : cache.lookup [letter 0, letter 1, letter 2] = none) (fuel : ℕ) :
    tuckMapDT 3 (constructDT 0 2 {}) V W fuel [letter 0, letter 1, letter 2] cache = .error .diverge := by
  have hk : ∀ k : Key, (∀ n p b, Sub 0 2 n p b → k ≠ ivStr n) → (constructDT 0 2 {}).parent.lookup k = none := by
    intro k hk
    rw [(constructDT_other (by omega) (by omega) hk {}).1]
    rfl
  have e1 : (constructDT 0 2 {}).parent.lookup [] = none := by
    apply hk
    intro n p b h hh
    have := congrArg List.length hh
    rw [strOf_length] at this
    have := h.node_le
    simp at this ⊢
    simp at *
    omega
  have e2 : (constructDT 0 2 {}).parent.lookup [letter 0, letter 1, letter 2] = none := by
    apply hk
    intro n p b h hh
    have := congrArg List.length hh
    rw [strOf_length] at this
    have := h.node_le
    simp at *
    omega
  cases fuel with
  | zero => rfl
  | succ fuel =>
    unfold tuckMapDT dtNode
    rw [if_neg (by simp [h2]), if_neg (by simp)]
    simp only [mapGet, e2, Option.getD_none, h1, Option.isNone_none, if_true, bind, Except.bind]
    rw [dtNode_empty_diverges (by omega) e1 fuel cache h1]

/-- The last mode of an order-3 tensor does not finish with any map that holds no entry for the empty string and the string of
all modes (the code never stores one before). -/
theorem tuck_order3_mode2 (V : Tensor K) (W : List (Tensor K)) (cache : Cache K) (h1 : cache.lookup [] = none)
    (h2 : cache.lookup [letter 0, letter 1, letter 2] = none) (r : Tensor K × Cache K) :
    tuckY 3 (constructDT 0 2 {}) V W cache 2 ≠ .ok r := by
  have s2 : Sub 0 2 (2, 2) (0, 2) (0, 1) := .right (by omega)
  obtain ⟨p2, b2⟩ := mapGet_tree (N := 3) (by omega) s2
  simp only [show (3 : ℕ) - 1 = 2 from rfl] at p2 b2
  unfold tuckY
  simp only [bind, Except.bind, pure, Except.pure]
  cases lensY 3 V W 2 with
  | error e => simp
  | ok lens =>
    simp only
    have e0 : [letter 2] = ivStr (2, 2) := by simp [ivStr, strOf_self]
    have e1 : ivStr (0, 2) = [letter 0, letter 1, letter 2] := rfl
    rw [e0, p2, b2, e1, if_pos (by rw [h2]; rfl)]
    rw [C35_order3_diverges V W cache h1 h2]
    simp

/-- **C35 (violated at order 3).** Consequently a sweep of `alsTucker_DT` on an order-3 tensor never completes, whatever the
tensor, the factors, the ranks and the SVD. -/
theorem C35_order3_no_sweep (k : Kern ℝ) (V : Tensor ℝ) (hV : V.lens.length = 3) (clens : List ℕ) (W : List (Tensor ℝ))
    (r : List (Tensor ℝ) × Tensor ℝ) : tuckSweepDT k V clens W ≠ .ok r := by
  have s0 : Sub 0 2 (0, 0) (0, 1) (1, 1) := .inL (by omega) (.left (by omega))
  have s1 : Sub 0 2 (1, 1) (0, 1) (0, 0) := .inL (by omega) (.right (by omega))
  have p0 := (mapGet_tree (N := 3) (by omega) s0).1
  have p1 := (mapGet_tree (N := 3) (by omega) s1).1
  simp only [ivStr, strOf_self] at p0 p1
  have key : ∀ (s s' : List (Tensor ℝ) × Cache ℝ × Tensor ℝ) (i : ℕ), i < 2 →
      tuckUpdateDT 3 (constructDT 0 (3 - 1) {}) k V clens s i = .ok s' →
      (∀ k, k ≠ strOf 0 1 → s.2.1.lookup k = none) → ∀ k, k ≠ strOf 0 1 → s'.2.1.lookup k = none := by
    intro s s' i hi h hc k' hk'
    have hp : mapGet (constructDT 0 (3 - 1) {}).parent [letter i] = strOf 0 1 := by
      interval_cases i
      · exact p0
      · exact p1
    unfold tuckUpdateDT at h
    simp only [bind, Except.bind, pure, Except.pure] at h
    cases hM : tuckY 3 (constructDT 0 (3 - 1) {}) V s.1 s.2.1 i with
    | error e => rw [hM] at h; simp at h
    | ok r =>
      rw [hM] at h
      simp only at h
      have hs' : s'.2.1 = r.2 := by
        revert h
        repeat' split
        all_goals intro h
        all_goals first
          | (simp only [Except.ok.injEq] at h; rw [← h])
          | (exact absurd h (by simp))
      rw [hs']
      unfold tuckY at hM
      simp only [bind, Except.bind, pure, Except.pure, hp] at hM
      cases hl : lensY 3 V s.1 i with
      | error e => rw [hl] at hM; simp at hM
      | ok lens =>
        rw [hl] at hM
        simp only at hM
        have hcache : ∀ c, (if (s.2.1.lookup (strOf 0 1)).isNone then
            tuckMapDT 3 (constructDT 0 (3 - 1) {}) V s.1 (3 + 1) (strOf 0 1) s.2.1 else .ok s.2.1) = .ok c →
            c.lookup k' = none := by
          intro c hc'
          by_cases hn : (s.2.1.lookup (strOf 0 1)).isNone
          · rw [if_pos hn] at hc'
            unfold tuckMapDT dtNode at hc'
            rw [if_neg (by rw [Option.isNone_iff_eq_none] at hn; rw [hn]; simp), if_pos (by rw [strOf_length]; omega)] at hc'
            simp only [bind, Except.bind] at hc'
            cases hT : ttmLoop 3 s.1 (mapGet (constructDT 0 (3 - 1) {}).sibling (strOf 0 1)) V with
            | error e => rw [hT] at hc'; simp at hc'
            | ok T =>
              rw [hT] at hc'
              simp only [pure, Except.pure, Except.ok.injEq] at hc'
              rw [← hc', lookup_cons_ne hk']
              exact hc k' hk'
          · rw [if_neg hn] at hc'
            simp only [Except.ok.injEq] at hc'
            rw [← hc']; exact hc k' hk'
        cases hc' : (if (s.2.1.lookup (strOf 0 1)).isNone then
            tuckMapDT 3 (constructDT 0 (3 - 1) {}) V s.1 (3 + 1) (strOf 0 1) s.2.1 else .ok s.2.1) with
        | error e => rw [hc'] at hM; simp at hM
        | ok c =>
          have hck := hcache c hc'
          rw [hc'] at hM
          simp only at hM
          have : r.2 = c := by
            revert hM
            repeat' split
            all_goals intro hM
            all_goals first
              | (simp only [Except.ok.injEq] at hM; rw [← hM])
              | (exact absurd hM (by simp))
          rw [this]; exact hck
  have last : ∀ s s' : List (Tensor ℝ) × Cache ℝ × Tensor ℝ, (∀ k, k ≠ strOf 0 1 → s.2.1.lookup k = none) →
      tuckUpdateDT 3 (constructDT 0 (3 - 1) {}) k V clens s 2 ≠ .ok s' := by
    intro s s' hs
    have hne : ∀ k : Key, k.length ≠ 2 → s.2.1.lookup k = none := fun k hk =>
      hs k fun e => hk (by rw [e, strOf_length])
    unfold tuckUpdateDT
    simp only [bind, Except.bind]
    cases hY : tuckY 3 (constructDT 0 (3 - 1) {}) V s.1 s.2.1 2 with
    | error e => simp
    | ok r => exact absurd hY (tuck_order3_mode2 V s.1 s.2.1 (hne _ (by simp)) (hne _ (by simp)) r)
  intro h
  unfold tuckSweepDT at h
  simp only [hV, show List.range 3 = [0, 1, 2] from rfl, List.foldlM_cons, List.foldlM_nil, bind, Except.bind] at h
  cases h0 : tuckUpdateDT 3 (constructDT 0 (3 - 1) {}) k V clens (W, [], ⟨[], fun _ => 0⟩) 0 with
  | error e => rw [h0] at h; simp at h
  | ok s0 =>
    rw [h0] at h
    simp only at h
    cases h1 : tuckUpdateDT 3 (constructDT 0 (3 - 1) {}) k V clens s0 1 with
    | error e => rw [h1] at h; simp at h
    | ok s1 =>
      rw [h1] at h
      simp only at h
      cases h2 : tuckUpdateDT 3 (constructDT 0 (3 - 1) {}) k V clens s1 2 with
      | error e => rw [h2] at h; simp at h
      | ok s2 => exact last s1 s2 (key _ _ 1 (by omega) h1 (key _ _ 0 (by omega) h0 (by simp))) h2

end Violations

end Properties
