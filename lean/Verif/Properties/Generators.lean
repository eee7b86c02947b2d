import Verif.Proofs.GenCol

/-! # C39-C43: test tensors, reshaping, orthogonalisation -/

namespace Properties

open Model Finset

variable {K : Type}

/-! ## C39 -/

/-- **C39**. `identitiy_tensor(2d, s)` succeeds and is the product of Kronecker deltas: entry
`[i₁, j₁, ..., i_d, j_d]` is `∏ₖ δ(iₖ, jₖ)`. -/
theorem C39_identity [CommSemiring K] {d s : ℕ} (h1 : 1 ≤ d) (hd : d ≤ 79) :
    ∃ I, identTensor K (2 * d) s = .ok I ∧ I.lens = List.replicate (2 * d) s ∧
      ∀ idx : ℕ → ℕ, (∀ j < 2 * d, idx j < s) → I.val ((List.range (2 * d)).map idx) = Spec.identity d idx := by
  obtain ⟨I, h, h2, h3⟩ := identTensor_ok (K := K) (s := s) h1 (by omega : 2 * d ≤ 256)
  exact ⟨I, h, h2, h3⟩

/-- **C39**. `laplacian_tensor(V, 2d, s)`, `d >= 2`, adds to `V` the sum over `k` of `I ⊗ ... ⊗ D ⊗ ... ⊗ I` with
`D = tridiag(-1, 2, -1)`, on any number of MPI ranks. -/
theorem C39_laplacian [CommRing K] {np d s : ℕ} (hnp : 1 ≤ np) (h2 : 2 ≤ d) (hd : d ≤ 79) {V : Tensor K}
    (hV : V.lens = List.replicate (2 * d) s) :
    ∃ L, laplacianGen 1 np V (2 * d) s = .ok L ∧ L.lens = V.lens ∧
      ∀ idx : ℕ → ℕ, (∀ j < 2 * d, idx j < s) → L.val ((List.range (2 * d)).map idx) =
        V.val ((List.range (2 * d)).map idx) + Spec.laplacian (Spec.tridiag (-1) (-1)) d idx := by
  obtain ⟨L, h, h3, h4⟩ := laplacianGen_ok (K := K) 1 (s := s) hnp h2 (by omega)
    (V := V) (f := fun idx => V.val ((List.range (2 * d)).map idx)) ⟨hV, fun _ _ => rfl⟩
  exact ⟨L, h, by rw [h3, hV], h4⟩

/-- **C39**. `random_laplacian_tensor` is the same with `D = tridiag(-1, 2, -2)`; in particular it contains no
randomness and `D` is not symmetric. -/
theorem C39_random_laplacian [CommRing K] {np d s : ℕ} (hnp : 1 ≤ np) (h2 : 2 ≤ d) (hd : d ≤ 79) {V : Tensor K}
    (hV : V.lens = List.replicate (2 * d) s) :
    ∃ L, laplacianGen 2 np V (2 * d) s = .ok L ∧ L.lens = V.lens ∧
      ∀ idx : ℕ → ℕ, (∀ j < 2 * d, idx j < s) → L.val ((List.range (2 * d)).map idx) =
        V.val ((List.range (2 * d)).map idx) + Spec.laplacian (Spec.tridiag (-1) (-2)) d idx := by
  obtain ⟨L, h, h3, h4⟩ := laplacianGen_ok (K := K) 2 (s := s) hnp h2 (by omega)
    (V := V) (f := fun idx => V.val ((List.range (2 * d)).map idx)) ⟨hV, fun _ _ => rfl⟩
  exact ⟨L, h, by rw [h3, hV], h4⟩

/-- **C39** fails for `d = 1`: the index string of the order-0 identity is too short for the order-2 tensor returned. -/
theorem C39_order_two [CommRing K] (c : K) {np s : ℕ} (hnp : 1 ≤ np) (V : Tensor K) :
    laplacianGen c np V 2 s = .error .ub := laplacianGen_two c hnp V

/-- **C39** fails for odd orders `2d + 1 >= 5`, silently: the identity of order `2d - 1` the code asks for has only `2d - 2` modes,
so the first `d - 1` terms do not depend on the last index at all (they are the Laplacian's terms repeated along it), and the last
term couples modes `2d - 1` and `2d` and ignores mode `2d - 2`. -/
theorem C39_odd_order [CommRing K] (c : K) {np d s : ℕ} (hnp : 1 ≤ np) (h2 : 2 ≤ d) (hd : d ≤ 79) {V : Tensor K}
    (hV : V.lens = List.replicate (2 * d + 1) s) :
    ∃ L, laplacianGen c np V (2 * d + 1) s = .ok L ∧ L.lens = V.lens ∧
      ∀ idx : ℕ → ℕ, (∀ j < 2 * d + 1, idx j < s) → L.val ((List.range (2 * d + 1)).map idx) =
        V.val ((List.range (2 * d + 1)).map idx) +
        (∑ k ∈ range (d - 1), Spec.tridiag (-1) (-c) (idx (2 * k)) (idx (2 * k + 1)) *
          ∏ m ∈ (range d).erase k, Spec.delta (idx (2 * m)) (idx (2 * m + 1))) +
        Spec.tridiag (-1) (-c) (idx (2 * d - 1)) (idx (2 * d)) *
          ∏ m ∈ range (d - 1), Spec.delta (idx (2 * m)) (idx (2 * m + 1)) := by
  obtain ⟨L, h, h3, h4⟩ := laplacianGen_odd c (s := s) hnp h2 (by omega)
    (V := V) (f := fun idx => V.val ((List.range (2 * d + 1)).map idx)) ⟨hV, fun _ _ => rfl⟩
  exact ⟨L, h, by rw [h3, hV], h4⟩

/-! ## C40 -/

/-- **C40**. However the data of `X` is distributed over the MPI ranks, `fold_unfold(X, Y)` into a tensor with the same number
of entries gives `Y[idx'] = X[idx]` for equal column-major positions: nothing lost, nothing moved. -/
theorem C40_fold [AddCommMonoid K] {X Y : Tensor K} {parts : List (List (ℕ × K))}
    (hp : parts.flatten.Perm (allPairs X)) (hsize : X.lens.prod = Y.lens.prod) :
    ∃ Y', foldUnfold parts Y = .ok Y' ∧ Y'.lens = Y.lens ∧
      ∀ idx idx', fits X.lens idx = true → fits Y.lens idx' = true → gidx X.lens idx = gidx Y.lens idx' →
        Y'.val idx' = X.val idx := by
  obtain ⟨Y', h1, _, h3, h4, _⟩ := foldUnfold_ok hp hsize.le
  exact ⟨Y', h1, h3, h4⟩

/-- **C40**. Folding `V0[i₁, j₁, i₂, j₂, ...]` (all edges of length `s`) into a tensor of half the order gives
`V[i₁ + s j₁, i₂ + s j₂, ...]`, as in run.cxx for tensor `p`. -/
theorem C40_fold_pairs [AddCommMonoid K] {s d : ℕ} {X Y : Tensor K} {parts : List (List (ℕ × K))}
    (hp : parts.flatten.Perm (allPairs X)) (hX : X.lens = List.replicate (2 * d) s)
    (hY : Y.lens = List.replicate d (s * s)) :
    ∃ Y', foldUnfold parts Y = .ok Y' ∧ Y'.lens = Y.lens ∧
      ∀ idx : ℕ → ℕ, (∀ j < 2 * d, idx j < s) →
        Y'.val ((List.range d).map fun k => idx (2 * k) + s * idx (2 * k + 1)) = X.val ((List.range (2 * d)).map idx) := by
  have hsize : X.lens.prod = Y.lens.prod := by
    rw [hX, hY, List.prod_replicate, List.prod_replicate, pow_mul, sq]
  obtain ⟨Y', h1, h2, h3⟩ := C40_fold hp hsize
  refine ⟨Y', h1, h2, ?_⟩
  intro idx hidx
  refine h3 _ _ (by rw [hX]; exact fits_replicate hidx) ?_ ?_
  · rw [hY]
    refine fits_replicate (idx := fun k => idx (2 * k) + s * idx (2 * k + 1)) ?_
    intro k hk
    have h1 := hidx (2 * k) (by omega)
    have h2 := hidx (2 * k + 1) (by omega)
    calc idx (2 * k) + s * idx (2 * k + 1) < s + s * idx (2 * k + 1) := by omega
      _ = s * (idx (2 * k + 1) + 1) := by ring
      _ ≤ s * s := Nat.mul_le_mul_left _ h2
  · rw [hX, hY, gidx_fold]

/-- **C40**. Folding back restores every entry. -/
theorem C40_roundtrip [AddCommMonoid K] {X Y Z : Tensor K} {parts parts' : List (List (ℕ × K))}
    (hp : parts.flatten.Perm (allPairs X)) (hsize : X.lens.prod = Y.lens.prod) (hZ : Z.lens = X.lens) {Y' : Tensor K}
    (hY' : foldUnfold parts Y = .ok Y') (hp' : parts'.flatten.Perm (allPairs Y')) :
    ∃ Z', foldUnfold parts' Z = .ok Z' ∧ Z'.lens = X.lens ∧ ∀ idx, fits X.lens idx = true → Z'.val idx = X.val idx := by
  obtain ⟨Y1, h1, h2, h3⟩ := C40_fold hp hsize
  rw [h1] at hY'
  cases hY'
  obtain ⟨Z', z1, z2, z3⟩ := C40_fold (Y := Z) hp' (by rw [h2, hZ, hsize])
  refine ⟨Z', z1, by rw [z2, hZ], ?_⟩
  intro idx hidx
  obtain ⟨idx', f1, f2⟩ := gidx_surj Y.lens (show gidx X.lens idx < Y.lens.prod by rw [← hsize]; exact gidx_lt hidx)
  rw [z3 idx' idx (by rw [h2]; exact f1) (by rw [hZ]; exact hidx) (by rw [h2, hZ, f2])]
  exact h3 idx idx' hidx f1 f2.symm

/-- **C40**. A target with fewer entries is written out of bounds (run.cxx with tensor `p` and odd `dim`). -/
theorem C40_too_small [AddCommMonoid K] {X Y : Tensor K} {parts : List (List (ℕ × K))}
    (hp : parts.flatten.Perm (allPairs X)) (hlt : Y.lens.prod < X.lens.prod) :
    foldUnfold parts Y = .error .ub := foldUnfold_ub hp hlt

/-! ## C41 -/

/-- **C41**. On any number of ranks `unit_tensor` writes ones exactly at the positions `[i, j, k, 0, ...]` with
`i + k ≡ j (mod s)` and leaves all other entries alone. -/
theorem C41_unit [AddCommMonoid K] [One K] {np s : ℕ} (hnp : 1 ≤ np) (hs : 1 ≤ s) {rest : List ℕ}
    (hrest : ∀ n ∈ rest, 0 < n) {V : Tensor K} (hV : V.lens = s :: s :: s :: rest) :
    ∃ T, unitTensor np V s = .ok T ∧ T.lens = V.lens ∧
      ∀ i j k tl, fits V.lens (i :: j :: k :: tl) = true →
        T.val (i :: j :: k :: tl) =
          if i + k ≡ j [MOD s] ∧ (∀ x ∈ tl, x = 0) then 1 else V.val (i :: j :: k :: tl) := by
  obtain ⟨T, h1, _, h3, h4⟩ := unitTensor_ok hnp hs hrest hV
  refine ⟨T, h1, h3, ?_⟩
  intro i j k tl hf
  rw [h4 i j k tl hf]
  rw [hV] at hf
  simp only [fits, Bool.and_eq_true, decide_eq_true_eq] at hf
  have hlen := fits_length hf.2.2.2
  have e1 : i = (j + k * (s - 1)) % s ↔ i + k ≡ j [MOD s] := by
    have hk : j + k * (s - 1) + k = j + s * k := by
      obtain ⟨t, rfl⟩ : ∃ t, s = t + 1 := ⟨s - 1, by omega⟩
      simp only [Nat.add_sub_cancel]; ring
    constructor
    · intro h
      have h' : i ≡ j + k * (s - 1) [MOD s] := by
        rw [h]; exact Nat.mod_modEq _ _
      have h2 := h'.add_right k
      rw [hk] at h2
      exact h2.trans (by simp [Nat.ModEq])
    · intro h
      have h2 : i + k ≡ j + k * (s - 1) + k [MOD s] := by
        rw [hk]
        exact h.trans (by simp [Nat.ModEq])
      have h3 := Nat.ModEq.add_right_cancel' k h2
      have : i % s = (j + k * (s - 1)) % s := h3
      rwa [Nat.mod_eq_of_lt hf.1] at this
  have e2 : tl = List.replicate rest.length 0 ↔ ∀ x ∈ tl, x = 0 := by
    rw [List.eq_replicate_iff]
    exact ⟨fun h => h.2, fun h => ⟨hlen.symm, h⟩⟩
  simp only [e1, e2]

/-- **C41**. Applied to a zero tensor of order 3, the ones form a Latin square: every pair of coordinates determines exactly
one third coordinate, and exactly `s²` entries are one. -/
theorem C41_latin [AddCommMonoid K] [One K] [NeZero (1 : K)] {np s : ℕ} (hnp : 1 ≤ np) (hs : 1 ≤ s) :
    ∃ T, unitTensor np (zeroT K [s, s, s]) s = .ok T ∧ T.lens = [s, s, s] ∧
      (∀ i < s, ∀ j < s, ∀ k < s, T.val [i, j, k] = 0 ∨ T.val [i, j, k] = 1) ∧
      (∀ i < s, ∀ j < s, ∃! k, k < s ∧ T.val [i, j, k] = 1) ∧
      (∀ i < s, ∀ k < s, ∃! j, j < s ∧ T.val [i, j, k] = 1) ∧
      (∀ j < s, ∀ k < s, ∃! i, i < s ∧ T.val [i, j, k] = 1) := by
  obtain ⟨T, h1, h2, h3⟩ := C41_unit (K := K) hnp hs (rest := []) (by simp) (V := zeroT K [s, s, s]) rfl
  have hv : ∀ i < s, ∀ j < s, ∀ k < s, T.val [i, j, k] = if i + k ≡ j [MOD s] then 1 else 0 := by
    intro i hi j hj k hk
    rw [h3 i j k [] (by simp [zeroT, fits, hi, hj, hk])]
    simp [zeroT]
  have hone : ∀ i < s, ∀ j < s, ∀ k < s, T.val [i, j, k] = 1 ↔ i + k ≡ j [MOD s] := by
    intro i hi j hj k hk
    rw [hv i hi j hj k hk]
    split_ifs with h
    · simp [h]
    · simp [h, (NeZero.ne (1 : K)).symm]
  have huniq : ∀ a < s, ∀ b < s, a ≡ b [MOD s] → a = b := by
    intro a ha b hb h
    have : a % s = b % s := h
    rwa [Nat.mod_eq_of_lt ha, Nat.mod_eq_of_lt hb] at this
  have hsub : ∀ a < s, ∀ b, a + (b + (s - a)) ≡ b [MOD s] := by
    intro a ha b
    rw [show a + (b + (s - a)) = b + s by omega]
    simp [Nat.ModEq]
  refine ⟨T, h1, h2, ?_, ?_, ?_, ?_⟩
  · intro i hi j hj k hk
    rw [hv i hi j hj k hk]
    split_ifs <;> simp
  · intro i hi j hj
    refine ⟨(j + (s - i)) % s, ⟨Nat.mod_lt _ (by omega), ?_⟩, ?_⟩
    · rw [hone i hi j hj _ (Nat.mod_lt _ (by omega))]
      exact ((Nat.mod_modEq _ _).add_left i).trans (hsub i hi j)
    · rintro k ⟨hk, h⟩
      rw [hone i hi j hj k hk] at h
      refine huniq _ hk _ (Nat.mod_lt _ (by omega)) ?_
      exact (Nat.ModEq.add_left_cancel' i (h.trans (hsub i hi j).symm)).trans (Nat.mod_modEq _ _).symm
  · intro i hi k hk
    refine ⟨(i + k) % s, ⟨Nat.mod_lt _ (by omega), ?_⟩, ?_⟩
    · rw [hone i hi _ (Nat.mod_lt _ (by omega)) k hk]
      exact (Nat.mod_modEq _ _).symm
    · rintro j ⟨hj, h⟩
      rw [hone i hi j hj k hk] at h
      exact huniq _ hj _ (Nat.mod_lt _ (by omega)) (h.symm.trans (Nat.mod_modEq _ _).symm)
  · intro j hj k hk
    refine ⟨(j + (s - k)) % s, ⟨Nat.mod_lt _ (by omega), ?_⟩, ?_⟩
    · rw [hone _ (Nat.mod_lt _ (by omega)) j hj k hk, Nat.add_comm]
      exact ((Nat.mod_modEq _ _).add_left k).trans (hsub k hk j)
    · rintro i ⟨hi, h⟩
      rw [hone i hi j hj k hk, Nat.add_comm] at h
      refine huniq _ hi _ (Nat.mod_lt _ (by omega)) ?_
      exact (Nat.ModEq.add_left_cancel' k (h.trans (hsub k hk j).symm)).trans (Nat.mod_modEq _ _).symm

/-! ## C42 -/

/-- **C42**. After `Gram_Schmidt(A, B)` with `B` nonzero (`B·B ≠ 0`), `A` is orthogonal to `B` and has changed only by a
multiple of `B`. -/
theorem C42_gram_schmidt [Field K] {n : ℕ} {A B : Tensor K} (hA : A.lens = [n]) (hB : B.lens = [n])
    (hnz : ∑ x ∈ range n, B.val [x] * B.val [x] ≠ 0) :
    ∃ A', gramSchmidt A B = .ok A' ∧ A'.lens = [n] ∧ ∑ x ∈ range n, A'.val [x] * B.val [x] = 0 ∧
      ∃ c : K, ∀ x < n, A'.val [x] = A.val [x] - c * B.val [x] := by
  obtain ⟨A', h1, _, h3, h4⟩ := gramSchmidt_ok hA hB
  refine ⟨A', h1, h3, ?_, ⟨_, h4⟩⟩
  have : ∑ x ∈ range n, A'.val [x] * B.val [x] = ∑ x ∈ range n, A.val [x] * B.val [x] -
      (∑ y ∈ range n, A.val [y] * B.val [y]) / (∑ y ∈ range n, B.val [y] * B.val [y]) *
        ∑ x ∈ range n, B.val [x] * B.val [x] := by
    rw [Finset.mul_sum, ← Finset.sum_sub_distrib]
    refine Finset.sum_congr rfl fun x hx => ?_
    rw [h4 x (Finset.mem_range.1 hx)]
    ring
  rw [this, div_mul_cancel₀ _ hnz, sub_self]

/-- Over the reals `B·B ≠ 0` says that some entry of `B` is nonzero. -/
theorem C42_gram_schmidt_real {n : ℕ} {A B : Tensor ℝ} (hA : A.lens = [n]) (hB : B.lens = [n])
    (hnz : ∃ x < n, B.val [x] ≠ 0) :
    ∃ A', gramSchmidt A B = .ok A' ∧ A'.lens = [n] ∧ ∑ x ∈ range n, A'.val [x] * B.val [x] = 0 ∧
      ∃ c : ℝ, ∀ x < n, A'.val [x] = A.val [x] - c * B.val [x] := by
  refine C42_gram_schmidt hA hB fun h0 => ?_
  obtain ⟨x, hx, hne⟩ := hnz
  have := (Finset.sum_eq_zero_iff_of_nonneg fun y _ => mul_self_nonneg (B.val [y])).1 h0 x (Finset.mem_range.2 hx)
  exact hne (mul_self_eq_zero.1 this)

/-! ## C43 -/

/-- **C43**. If `Gen_collinearity` returns, for whatever random stream, the result is the weighted sum of the outer products of
vectors from the stream, and within every mode each pair of nonzero vectors has its collinearity in the window. -/
theorem C43_window {N : ℕ} (h2 : 2 ≤ N) (hN : N ≤ 18) {dims : Fin N → ℕ} {R fuel : ℕ} {cmin cmax : ℝ}
    {rnd : ℕ → ℕ → ℝ} {X : Tensor ℝ} (h : genCollinearity cmin cmax rnd (List.ofFn dims) R fuel = .ok X) :
    ∃ a : Fin N → ℕ → ℕ → ℝ,
      (∀ j, ∀ i < R, ∃ c, a j i = rnd c) ∧
      (∀ j i k, k < i → i < R → (∃ x < dims j, a j i x ≠ 0) → (∃ x < dims j, a j k x ≠ 0) →
        cmin ≤ colOf (dims j) (a j i) (a j k) ∧ colOf (dims j) (a j i) (a j k) ≤ cmax) ∧
      X.lens = List.ofFn dims ∧
      ∀ idx ∈ Spec.Box dims,
        arr X N idx = ∑ i ∈ range R, (0.2 + 0.6 / R * ((i : ℝ) + 1)) * ∏ j : Fin N, a j i (idx j) := by
  unfold genCollinearity at h
  rw [mapM_chr (by simp; omega)] at h
  simp only [bind, Except.bind] at h
  cases hv : colVectors cmin cmax rnd (List.ofFn dims) R fuel with
  | error e => rw [hv] at h; simp at h
  | ok r =>
    rw [hv] at h
    simp only [] at h
    have hok := colVectors_partial hv
    rw [List.length_ofFn] at hok
    obtain ⟨a, a1, a2, a3⟩ := hok.funs
    obtain ⟨X', x1, x2, x3⟩ := colSum_ok h2 hN hok.1 a1
    rw [x1] at h
    cases h
    exact ⟨a, a2, fun j i k hk hi h1 h2 => a3 j i k hk hi ⟨h1, h2⟩, x2, x3⟩

/-- **C43**. With an empty window, two or more terms and a stream of nonzero vectors the generator never returns: every
amount of fuel is used up. -/
theorem C43_empty_window {N : ℕ} (h1 : 1 ≤ N) (hN : N ≤ 18) {dims : Fin N → ℕ} {R fuel : ℕ} (hR : 2 ≤ R)
    {cmin cmax : ℝ} (hw : cmax < cmin) {rnd : ℕ → ℕ → ℝ} (hnz : ∀ c, ∃ x < dims ⟨0, h1⟩, rnd c x ≠ 0) :
    genCollinearity cmin cmax rnd (List.ofFn dims) R fuel = .error .diverge := by
  unfold genCollinearity
  rw [mapM_chr (by simp; omega)]
  simp only [bind, Except.bind]
  have hd : (List.ofFn dims).getD 0 0 = dims ⟨0, h1⟩ := by
    rw [List.getD_eq_getElem?_getD, List.getElem?_ofFn, dif_pos (by omega)]
    rfl
  rw [colVectors_diverge hR (by simpa using h1)]
  intro c c'
  rw [hd]
  refine ⟨⟨hnz c, hnz c'⟩, ?_⟩
  by_contra hc
  push Not at hc
  linarith

/-- **C43**. The same for a window disjoint from `[0, 1]`, the range of collinearities of nonnegative vectors
(`fill_random(0, 1)` produces only those). -/
theorem C43_unreachable_window {N : ℕ} (h1 : 1 ≤ N) (hN : N ≤ 18) {dims : Fin N → ℕ} {R fuel : ℕ} (hR : 2 ≤ R)
    {cmin cmax : ℝ} (hw : 1 < cmin ∨ cmax < 0) {rnd : ℕ → ℕ → ℝ} (hpos : ∀ c x, 0 ≤ rnd c x)
    (hnz : ∀ c, ∃ x < dims ⟨0, h1⟩, rnd c x ≠ 0) :
    genCollinearity cmin cmax rnd (List.ofFn dims) R fuel = .error .diverge := by
  unfold genCollinearity
  rw [mapM_chr (by simp; omega)]
  simp only [bind, Except.bind]
  have hd : (List.ofFn dims).getD 0 0 = dims ⟨0, h1⟩ := by
    rw [List.getD_eq_getElem?_getD, List.getElem?_ofFn, dif_pos (by omega)]
    rfl
  rw [colVectors_diverge hR (by simpa using h1)]
  intro c c'
  rw [hd]
  refine ⟨⟨hnz c, hnz c'⟩, ?_⟩
  obtain ⟨u0, u1⟩ := colOf_unit (n := dims ⟨0, h1⟩) (a := rnd c) (b := rnd c') (fun x _ => hpos c x) (fun x _ => hpos c' x)
  rcases hw with h | h
  · left; linarith
  · right; linarith

/-- **C43**. With a window containing `[0, 1]` it returns after the first draw of every vector. -/
theorem C43_returns {N : ℕ} (h2 : 2 ≤ N) (hN : N ≤ 18) {dims : Fin N → ℕ} {R fuel : ℕ} (hf : 1 ≤ fuel)
    {cmin cmax : ℝ} (h0 : cmin ≤ 0) (h1 : 1 ≤ cmax) {rnd : ℕ → ℕ → ℝ} (hpos : ∀ c x, 0 ≤ rnd c x) :
    ∃ X, genCollinearity cmin cmax rnd (List.ofFn dims) R fuel = .ok X := by
  unfold genCollinearity
  rw [mapM_chr (by simp; omega)]
  simp only [bind, Except.bind]
  obtain ⟨r, hr⟩ := colVectors_accept (cmin := cmin) (cmax := cmax) (rnd := rnd) (lens := List.ofFn dims) (R := R) hf (by
    intro j _ c c' _
    obtain ⟨u0, u1⟩ := colOf_unit (n := (List.ofFn dims).getD j 0) (a := rnd c) (b := rnd c') (fun x _ => hpos c x)
      (fun x _ => hpos c' x)
    constructor <;> linarith)
  rw [hr]
  have hok := colVectors_partial hr
  rw [List.length_ofFn] at hok
  obtain ⟨a, a1, _, _⟩ := hok.funs
  obtain ⟨X', x1, _, _⟩ := colSum_ok h2 hN hok.1 a1
  exact ⟨X', x1⟩

/-- **C43**, the exception: zero vectors have collinearity NaN, pass every test, and make the generator return even
for an empty window. -/
theorem C43_zero_vectors_pass {N : ℕ} (h2 : 2 ≤ N) (hN : N ≤ 18) {dims : Fin N → ℕ} {R fuel : ℕ} (hf : 1 ≤ fuel)
    (cmin cmax : ℝ) : ∃ X, genCollinearity cmin cmax (fun _ _ => 0) (List.ofFn dims) R fuel = .ok X := by
  unfold genCollinearity
  rw [mapM_chr (by simp; omega)]
  simp only [bind, Except.bind]
  obtain ⟨r, hr⟩ := colVectors_accept (cmin := cmin) (cmax := cmax) (rnd := fun _ _ => 0) (lens := List.ofFn dims)
    (R := R) hf (by
      intro j _ c c' h
      obtain ⟨⟨x, _, hx⟩, _⟩ := h
      exact absurd rfl hx)
  rw [hr]
  have hok := colVectors_partial hr
  rw [List.length_ofFn] at hok
  obtain ⟨a, a1, _, _⟩ := hok.funs
  obtain ⟨X', x1, _, _⟩ := colSum_ok h2 hN hok.1 a1
  exact ⟨X', x1⟩

/-! ## Non-vacuity -/

/-- The 3-dimensional Laplacian of edge length 4 on 5 ranks. -/
example : ∃ L, laplacianGen (1 : ℚ) 5 (zeroT ℚ (List.replicate 6 4)) 6 4 = .ok L ∧
    L.lens = List.replicate 6 4 ∧
    L.val ((List.range 6).map fun j => if j = 0 then 1 else 0) = -1 := by
  obtain ⟨L, h1, h2, h3⟩ := C39_laplacian (K := ℚ) (np := 5) (d := 3) (s := 4) (by omega) (by omega) (by omega)
    (V := zeroT ℚ (List.replicate 6 4)) rfl
  refine ⟨L, h1, h2, ?_⟩
  rw [h3 (fun j => if j = 0 then 1 else 0) (by intro j _; split_ifs <;> omega)]
  simp [zeroT, Spec.laplacian, Spec.tridiag, Spec.delta, Finset.sum_range_succ]

/-- Two ranks holding interleaved parts of a 2x3 matrix, folded into a vector of length 6. -/
example : ∃ Y', foldUnfold [[(4, (5 : ℚ)), (0, 1)], [(1, 2), (5, 6), (3, 4), (2, 3)]] (zeroT ℚ [6]) = .ok Y' ∧
    Y'.val [4] = 5 := by
  have hX : ([[(4, (5 : ℚ)), (0, 1)], [(1, 2), (5, 6), (3, 4), (2, 3)]] : List (List (ℕ × ℚ))).flatten.Perm
      (allPairs (⟨[2, 3], fun idx => ((gidx [2, 3] idx : ℕ) : ℚ) + 1⟩ : Tensor ℚ)) := by
    have : allPairs (⟨[2, 3], fun idx => ((gidx [2, 3] idx : ℕ) : ℚ) + 1⟩ : Tensor ℚ) =
        [(0, 1), (2, 3), (4, 5), (1, 2), (3, 4), (5, 6)] := by
      simp only [allPairs, boxList, List.range_succ, List.range_zero, List.nil_append, List.flatMap_cons,
        List.flatMap_nil, List.map_cons, List.map_nil, List.cons_append, List.append_nil, gidx]
      norm_num
    rw [this]
    decide
  obtain ⟨Y', h1, _, h3⟩ := C40_fold (Y := zeroT ℚ [6]) hX (by simp [zeroT])
  refine ⟨Y', h1, ?_⟩
  rw [h3 [0, 2] [4] (by simp [fits]) (by simp [fits, zeroT]) (by simp [gidx, zeroT])]
  norm_num [gidx]

example : ∃ T, unitTensor 3 (zeroT ℚ [4, 4, 4]) 4 = .ok T ∧ ∃! k, k < 4 ∧ T.val [3, 1, k] = 1 := by
  obtain ⟨T, h1, _, _, h4, _⟩ := C41_latin (K := ℚ) (np := 3) (s := 4) (by omega) (by omega)
  exact ⟨T, h1, h4 3 (by omega) 1 (by omega)⟩

/-- A stream of nonzero, nonnegative vectors, so that the hypotheses of the non-termination theorems hold. -/
example (fuel : ℕ) : genCollinearity 0.9 0.5 (fun c x => (c : ℝ) + x + 1) (List.ofFn ![2, 3, 4]) 3 fuel = .error .diverge :=
  C43_empty_window (N := 3) (by omega) (by omega) (by omega) (by norm_num) fun c =>
    ⟨0, by simp, by positivity⟩

example : ∃ X, genCollinearity 0 1 (fun c x => (c : ℝ) + x + 1) (List.ofFn ![2, 3, 4]) 3 1 = .ok X :=
  C43_returns (N := 3) (by omega) (by omega) (by omega) (by norm_num) (by norm_num) fun c x => by positivity

example : ∃ A', gramSchmidt (vecT 3 fun x => (x : ℝ)) (vecT 3 fun _ => (1 : ℝ)) = .ok A' ∧
    ∑ x ∈ range 3, A'.val [x] * (vecT 3 fun _ => (1 : ℝ)).val [x] = 0 := by
  obtain ⟨A', h1, _, h3, _⟩ := C42_gram_schmidt_real (n := 3) (A := vecT 3 fun x => (x : ℝ)) (B := vecT 3 fun _ => (1 : ℝ))
    rfl rfl ⟨0, by omega, by simp [vecT, fits]⟩
  exact ⟨A', h1, h3⟩

end Properties
