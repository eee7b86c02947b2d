import Verif.Proofs.HooiNear
import Verif.Properties.Round
import Verif.Properties.Hooi

/-! # C80: rounding errors of the Tucker computations

As C68, for `TTMc`, `hosvd`, the sweeps of `alsTucker` and `alsTucker_DT`, the residual they print, and the operators and right-hand
sides of `alsTucker_PP`.  Every tensor-times-matrix product contracts at most two modes at once, hence at most `b²` terms when `b` bounds
the edge lengths and ranks; a Gram matrix of an unfolding sums at most `b^(N-1)` terms. -/

namespace Properties

open Model Finset Function

variable {N : ℕ} {dims rk : Fin N → ℕ}

/-- Relative error of a Gram matrix of a tensor that was itself computed by `N - 1` products. -/
noncomputable def gramBound (eps : ℝ) (b N : ℕ) : ℝ := (1 + eps) ^ (2 * ((b * b + 1) * (N - 1)) + (b ^ (N - 1) + 1)) - 1

theorem gramBound_eq (eps : ℝ) (b N : ℕ) :
    ((1 + ((1 + eps) ^ (b * b + 1) - 1)) ^ (N - 1)) * ((1 + ((1 + eps) ^ (b * b + 1) - 1)) ^ (N - 1)) *
      (1 + ((1 + eps) ^ (b ^ (N - 1) + 1) - 1)) = 1 + gramBound eps b N := by
  unfold gramBound
  rw [add_sub_cancel, add_sub_cancel, add_sub_cancel, ← pow_mul, ← pow_add, ← pow_add]
  congr 1
  ring

/-- `T` approximates the product of `V` with all factors outside `keep`, entry by entry, relative to the absolute values. -/
def TtmWithin (d : ℝ) (dims rk : Fin N → ℕ) (V : Tensor ℝ) (W : List (Tensor ℝ)) (keep : Finset (Fin N)) (T : Tensor ℝ) : Prop :=
  T.lens = List.ofFn (Spec.ttmShape dims rk keep) ∧ ∀ z : Fin N → ℕ, (∀ j, z j < Spec.ttmShape dims rk keep j) →
    |arr T N z - Spec.multiTTM dims (arr V N) (mats W) keep z| ≤
      d * Spec.multiTTM dims (Spec.absArr (arr V N)) (Spec.absMats (mats W)) keep z

theorem TtmWithin.of {eps : ℝ} {b : ℕ} {V : Tensor ℝ} {W : List (Tensor ℝ)} {keep : Finset (Fin N)} {T : Tensor ℝ} {n : ℕ}
    (h : TNear (accU ((1 + eps) ^ (b * b + 1) - 1) keep) dims rk (arr V N) (Spec.absArr (arr V N)) (mats W) keep T) (hn : N - keep.card = n) :
    TtmWithin (errBound eps (b * b) n) dims rk V W keep T := by
  refine ⟨h.lens, fun z hz => ?_⟩
  have := h.val hz
  unfold accU at this
  rwa [hn, errBound_eq] at this

/-- The sweep `W → W'` with rounding: the modes are updated in order, and each new factor is what the SVD returns for some matrix within
`d` of the Gram matrix of the unfolding that the exact algorithm would use for the factors at that moment. -/
def RoundedHooi (d : ℝ) (k : Kern ℝ) (dims rk : Fin N → ℕ) (V : Tensor ℝ) (W W' : List (Tensor ℝ)) : Prop :=
  ∃ st : ℕ → List (Tensor ℝ), st 0 = W ∧ st N = W' ∧ ∀ i : Fin N, ∃ M : Tensor ℝ, M.lens = [dims i, dims i] ∧
    (∀ x < dims i, ∀ y < dims i,
      |mat M x y - Spec.unfoldGram (Spec.ttmShape dims rk {i}) (Spec.multiTTM dims (arr V N) (mats (st i.1)) {i}) i x y| ≤
        d * Spec.unfoldGram (Spec.ttmShape dims rk {i})
          (Spec.multiTTM dims (Spec.absArr (arr V N)) (Spec.absMats (mats (st i.1))) {i}) i x y) ∧
    st (i.1 + 1) = (st i.1).set i.1 (k.svd M (rk i)).U

theorem roundedHooi_iff {cG : ℝ} {k : Kern ℝ} {V : Tensor ℝ} {W W' : List (Tensor ℝ)} :
    RoundedHooi cG k dims rk V W W' ↔ HooiRunNear (1 + cG) k dims rk V W W' N := by
  have hi : ∀ i : Fin N, klens dims rk {i} i = dims i := fun i => by simp [klens]
  unfold RoundedHooi HooiRunNear HooiNear GramNear
  simp only [add_sub_cancel_left, hi, and_assoc]
  constructor
  · rintro ⟨st, a, b, c⟩
    exact ⟨st, a, b, fun i _ => c i⟩
  · rintro ⟨st, a, b, c⟩
    exact ⟨st, a, b, fun i => c i i.2⟩

section

variable {eps : ℝ} {P : Arith} {b : ℕ} {V : Tensor ℝ} {W : List (Tensor ℝ)}

/-- **C80 (`TTMc`).** Orders 2 to 10: the product with all factors but the `i`-th, each entry within `errBound` of `N - 1` products. -/
theorem C80_ttmc (he : 0 ≤ eps) (hP : FlEval eps P) (h2 : 2 ≤ N) (hN : N ≤ 10) (hb : 1 ≤ b) (hd : ∀ j, dims j ≤ b) (hr : ∀ j, rk j ≤ b)
    (hS : TuckShaped dims rk V W) (i : Fin N) (Y0 : Tensor ℝ) :
    ∃ Y, ttmcR P Y0 V W i.1 = .ok Y ∧ TtmWithin (errBound eps (b * b) (N - 1)) dims rk V W {i} Y := by
  obtain ⟨Y, y1, y2⟩ := ttmcR_ok (hP.roundOk he (b * b)) (errU_nonneg he _) hb hd hr hN hS le_rfl (RelT.exact V) i.1
    ⟨if i.1 = 0 then 1 else 0, by split <;> omega, by split <;> omega⟩ Y0
  rw [keepOf_self, one_mul] at y2
  exact ⟨Y, y1, TtmWithin.of y2 (by simp)⟩

/-- **C80 (core).** `TTMc` with `i = -1` and `get_core_tensor`: within `errBound` of `N` products. -/
theorem C80_core (he : 0 ≤ eps) (hP : FlEval eps P) (h1 : 1 ≤ N) (hN : N ≤ 10) (hb : 1 ≤ b) (hd : ∀ j, dims j ≤ b) (hr : ∀ j, rk j ≤ b)
    (hS : TuckShaped dims rk V W) (Y0 : Tensor ℝ) :
    (∃ C, ttmcR P Y0 V W (-1) = .ok C ∧ TtmWithin (errBound eps (b * b) N) dims rk V W ∅ C) ∧
      ∃ C, getCoreTensorR P V W (List.ofFn rk) = .ok C ∧ TtmWithin (errBound eps (b * b) N) dims rk V W ∅ C := by
  refine ⟨?_, ?_⟩
  · obtain ⟨Y, y1, y2⟩ := ttmcR_ok (hP.roundOk he (b * b)) (errU_nonneg he _) hb hd hr hN hS le_rfl (RelT.exact V) (-1)
      ⟨0, by omega, by omega⟩ Y0
    rw [keepOf_neg, one_mul] at y2
    exact ⟨Y, y1, TtmWithin.of y2 (by simp)⟩
  · obtain ⟨C, c1, c2⟩ := getCoreTensorR_ok hP (hP.roundOk he (b * b)) (errU_nonneg he _) hb hd hr (by omega) hS
    exact ⟨C, c1, TtmWithin.of c2 (by simp)⟩

/-- **C80 (`hosvd`).** Orders 1 to 18: each factor is what the SVD returns for a matrix within `errBound` of one contraction of
`b^(N-1)` terms of the Gram matrix of the unfolding; the core belongs to these factors within `errBound` of `N` products. -/
theorem C80_hosvd (he : 0 ≤ eps) (hP : FlEval eps P) (hN : N ≤ 18) (hb : 1 ≤ b) (hd : ∀ j, dims j ≤ b)
    (hr : ∀ j, rk j ≤ dims j) (hV : V.lens = List.ofFn dims) {k : Kern ℝ} (hk : SvdShape k) :
    ∃ C F, hosvdR P k V (List.ofFn rk) = .ok (C, F) ∧ TuckShaped dims rk V F ∧
      (∀ i : Fin N, ∃ M : Tensor ℝ, M.lens = [dims i, dims i] ∧
        (∀ x < dims i, ∀ y < dims i, |mat M x y - Spec.unfoldGram dims (arr V N) i x y| ≤
          errBound eps (b ^ (N - 1)) 1 * Spec.unfoldGram dims (Spec.absArr (arr V N)) i x y) ∧
        F[i.1]? = some (k.svd M (rk i)).U) ∧
      TtmWithin (errBound eps (b * b) N) dims rk V F ∅ C := by
  have hlen : V.lens.length = N := by rw [hV]; simp
  have hrb : ∀ j, rk j ≤ b := fun j => (hr j).trans (hd j)
  have hu : ∀ i : Fin N, ∃ M, unrollR P V i.1 = .ok M ∧ GramNear (1 * 1 * (1 + ((1 + eps) ^ (b ^ (N - 1) + 1) - 1))) dims (arr V N)
      (arr (absT V) N) i M := fun i =>
    unrollR_ok (A := absT V) (hP.roundOk he (b ^ (N - 1))) (errU_nonneg he _) hb hN hd le_rfl ⟨hV, fun _ _ => rfl⟩ ⟨hV, fun _ _ => rfl⟩ (RelT.exact V) i
  choose M m1 m2 using hu
  have hF : getFactorMatricesR P k V (List.ofFn rk) = .ok (List.ofFn fun i : Fin N => (k.svd (M i) (rk i)).U) := by
    unfold getFactorMatricesR
    rw [hlen]
    have h := mapM_ok (l := List.range N) (f := fun (i : ℕ) => do
        let M ← unrollR P V i
        let r ← rd (List.ofFn rk) i
        pure (k.svd M r).U) (g := fun i => if h : i < N then (k.svd (M ⟨i, h⟩) (rk ⟨i, h⟩)).U else ⟨[], fun _ => 0⟩) (by
      intro i hi
      have hi := List.mem_range.1 hi
      have a := m1 ⟨i, hi⟩
      have b := rd_ofFn rk ⟨i, hi⟩
      simp only at a b
      simp only [bind, Except.bind, pure, Except.pure]
      rw [a]
      simp only
      rw [b, dif_pos hi])
    rw [h]
    congr 1
    apply List.ext_getElem
    · simp
    · intro n h1 h2
      simp at h1
      simp [h1]
  have hS : TuckShaped dims rk V (List.ofFn fun i : Fin N => (k.svd (M i) (rk i)).U) := by
    refine ⟨hV, by simp, ?_⟩
    intro j T hT
    rw [List.getElem?_ofFn] at hT
    simp only [j.2, dif_pos, Option.some.injEq] at hT
    rw [← hT]
    exact hk _ _ _ (m2 j).1 (hr j)
  obtain ⟨C, c1, c2⟩ := getCoreTensorR_ok hP (hP.roundOk he (b * b)) (errU_nonneg he _) hb hd hrb hN hS
  refine ⟨C, _, ?_, hS, ?_, TtmWithin.of c2 (by simp)⟩
  · unfold hosvdR
    simp only [bind, Except.bind, pure, Except.pure]
    rw [hF]
    simp only
    rw [c1]
  · intro i
    refine ⟨M i, (m2 i).1, fun x hx y hy => ?_, by simp⟩
    have := (m2 i).2 x hx y hy
    rw [one_mul, one_mul, arr_abs] at this
    rw [← errBound_eq, pow_one]
    exact this

/-- **C80 (`alsTucker`).** Orders 2 to 10: a sweep in floating-point arithmetic is a sweep whose Gram matrices carry at most the stated
error for the factors at hand: errors do not build up from mode to mode or sweep to sweep. -/
theorem C80_sweep (he : 0 ≤ eps) (hP : FlEval eps P) (h2 : 2 ≤ N) (hN : N ≤ 10) (hb : 1 ≤ b) (hd : ∀ j, dims j ≤ b)
    (hr : ∀ j, rk j ≤ dims j) (hS : TuckShaped dims rk V W) {k : Kern ℝ} (hk : SvdShape k) :
    ∃ W', tuckSweepR P k V (List.ofFn rk) W = .ok W' ∧ TuckShaped dims rk V W' ∧
      RoundedHooi (gramBound eps b N) k dims rk V W W' := by
  obtain ⟨W', w1, w2, w3⟩ := tuckSweepR_ok (hP.roundOk he (b * b)) (hP.roundOk he (b ^ (N - 1))) (errU_nonneg he _) (errU_nonneg he _) hb hd hr
    h2 hN hS hk
  rw [gramBound_eq, ← roundedHooi_iff] at w3
  exact ⟨W', w1, w2, w3⟩

/-- **C80 (`alsTucker_DT`).** The same through the dimension tree (orders 4, 6 to 18): reusing tree nodes costs no accuracy; and the core
stored at the end of the sweep belongs to the new factors within `errBound` of `N` products. -/
theorem C80_sweep_dt (he : 0 ≤ eps) (hP : FlEval eps P) (h4 : 4 ≤ N) (h5 : N ≠ 5) (hN : N ≤ 18) (hb : 1 ≤ b) (hd : ∀ j, dims j ≤ b)
    (hr : ∀ j, rk j ≤ dims j) (hS : TuckShaped dims rk V W) {k : Kern ℝ} (hk : SvdShape k) :
    ∃ W' C, tuckSweepDTR P k V (List.ofFn rk) W = .ok (W', C) ∧ TuckShaped dims rk V W' ∧
      RoundedHooi (gramBound eps b N) k dims rk V W W' ∧ TtmWithin (errBound eps (b * b) N) dims rk V W' ∅ C := by
  obtain ⟨W', C, w1, w2, w3, w4⟩ := tuckSweepDTR_ok (hP.roundOk he (b * b)) (hP.roundOk he (b ^ (N - 1))) (errU_nonneg he _) (errU_nonneg he _) hb
    hd hr h4 h5 hN hS hk
  rw [gramBound_eq, ← roundedHooi_iff] at w3
  exact ⟨W', C, w1, w2, w3, TtmWithin.of w4 (by simp)⟩

theorem sqrt_scale (s : Finset (Fin N → ℕ)) {c : ℝ} (hc : 0 ≤ c) (f : (Fin N → ℕ) → ℝ) :
    c * Real.sqrt (∑ z ∈ s, f z ^ 2) = Real.sqrt (∑ z ∈ s, (c * f z) ^ 2) := by
  conv_lhs => rw [← Real.sqrt_sq hc]
  rw [← Real.sqrt_mul (sq_nonneg _), Finset.mul_sum]
  simp only [mul_pow]

theorem sqrt_near (s : Finset (Fin N → ℕ)) {c : ℝ} (hc : 0 ≤ c) {f g a : (Fin N → ℕ) → ℝ} (h : ∀ z ∈ s, |f z - g z| ≤ c * a z) :
    |Real.sqrt (∑ z ∈ s, f z ^ 2) - Real.sqrt (∑ z ∈ s, g z ^ 2)| ≤ c * Real.sqrt (∑ z ∈ s, a z ^ 2) := by
  refine (sqrt_sum_triangle _ _ _).trans ?_
  rw [sqrt_scale s hc]
  refine Real.sqrt_le_sqrt (sum_le_sum fun z hz => ?_)
  rw [← sq_abs]
  exact pow_le_pow_left₀ (abs_nonneg _) (h z hz) 2

/-- **C80 (the check).** What the Tucker drivers print (orders 1 to 10; norms taken exactly): the core norm is within `errBound` of `N`
products times the norm of the core of the absolute values, so the printed change of the core norm is off by at most that; the printed
residual is off by at most `errBound` of `2N + 1` operations times `‖ |V| + [[|C|; |W|]] ‖`. -/
theorem C80_check (he : 0 ≤ eps) (hP : FlEval eps P) (h1 : 1 ≤ N) (hN : N ≤ 10) (hb : 1 ≤ b) (hd : ∀ j, dims j ≤ b) (hr : ∀ j, rk j ≤ b)
    (hS : TuckShaped dims rk V W) (core corePrev : Tensor ℝ) :
    ∃ C dn dV, tuckCheckR P V core corePrev W = .ok (C, dn, dV) ∧ TtmWithin (errBound eps (b * b) N) dims rk V W ∅ C ∧
      |dn - abs (Real.sqrt (Spec.coreNormSq dims rk (arr V N) (mats W)) - norm2 corePrev)| ≤ errBound eps (b * b) N *
        Real.sqrt (Spec.coreNormSq dims rk (Spec.absArr (arr V N)) (Spec.absMats (mats W))) ∧
      |dV - Real.sqrt (Spec.tuckErrSq dims rk (arr V N) (mats W))| ≤ errBound eps (b * b) (2 * N + 1) *
        Real.sqrt (∑ idx ∈ Spec.Box dims, (|arr V N idx| + Spec.tuckRecon rk (Spec.multiTTM dims (Spec.absArr (arr V N))
          (Spec.absMats (mats W)) ∅) (Spec.absMats (mats W)) idx) ^ 2) := by
  have hlen : V.lens.length = N := by rw [hS.lensV]; simp
  have hu := errU_nonneg he (b * b)
  have hR := hP.roundOk he (b * b)
  set u := (1 + eps) ^ (b * b + 1) - 1 with hudef
  obtain ⟨C, c1, c2⟩ := ttmcR_ok hR hu hb hd hr hN hS le_rfl (RelT.exact V) (-1) ⟨0, by omega, by omega⟩ core
  rw [keepOf_neg, one_mul] at c2
  obtain ⟨CE, CA, e, a, rel⟩ := id c2
  have ek : klens dims rk ∅ = rk := by funext j; simp [klens]
  have ek' : klens rk dims ∅ = dims := by funext j; simp [klens]
  have ht : ∀ j : Fin N, ∃ T : Tensor ℝ, (do let F ← rd W (j.1 : ℤ); transposeTR P F) = .ok T ∧ T.lens = [rk j, dims j] ∧
      ∀ x < dims j, ∀ r < rk j, mat T r x = mats W j x r := by
    intro j
    obtain ⟨M, a, _, b, c⟩ := tmats_get hS j
    obtain ⟨T, t1, _, t3, t4⟩ := transposeT_ok b
    refine ⟨T, ?_, t3, fun x hx r hr => by rw [t4 x hx r hr, c]⟩
    simp only [bind, Except.bind]
    rw [a]
    exact transposeTR_ok hP b t1
  choose T t1 t2 t3 using ht
  have hT : ((List.range N).mapM fun (i : ℕ) => do transposeTR P (← rd W i)) = .ok (List.ofFn T) := by
    rw [mapM_ok (g := fun i => if h : i < N then T ⟨i, h⟩ else ⟨[], fun _ => 0⟩)]
    · congr 1
      apply List.ext_getElem
      · simp
      · intro n h1 h2
        simp at h1
        simp [h1]
    · intro i hi
      have hi := List.mem_range.1 hi
      rw [dif_pos hi]
      exact t1 ⟨i, hi⟩
  have hCE : CE.lens = List.ofFn rk := by rw [e.1, ek]
  have hS' : TuckShaped rk dims CE (List.ofFn T) := ⟨hCE, by simp, by
    intro j M hM
    rw [List.getElem?_ofFn] at hM
    simp only [j.2, dif_pos, Option.some.injEq] at hM
    rw [← hM]
    exact t2 j⟩
  have hmT : ∀ j : Fin N, mats (N := N) (List.ofFn T) j = mat (T j) := by
    intro j
    funext x r
    simp [mats]
  obtain ⟨D, d1, d2⟩ := ttmcR_ok hR hu hb hr hd hN hS' (accU_one hu _) rel (-1) ⟨0, by omega, by omega⟩ ⟨V.lens, fun _ => 0⟩
  rw [keepOf_neg] at d2
  have hDl := d2.lens
  rw [ek'] at hDl
  have hacc : accU u (∅ : Finset (Fin N)) = (1 + u) ^ N := by simp [accU]
  have hrec : ∀ idx : Fin N → ℕ, (∀ j, idx j < dims j) → Spec.multiTTM rk (arr CE N) (mats (List.ofFn T)) ∅ idx =
      Spec.tuckRecon rk (Spec.multiTTM dims (arr V N) (mats W) ∅) (mats W) idx := by
    intro idx hidx
    unfold Spec.tuckRecon
    conv_lhs => unfold Spec.multiTTM
    simp only [notMem_empty, IsEmpty.forall_iff, implies_true, filter_true, compl_empty]
    refine sum_congr rfl fun z hz => ?_
    have hz := Spec.mem_Box.1 hz
    rw [e.2 z (by rw [ek]; exact hz)]
    congr 1
    refine prod_congr rfl fun j _ => ?_
    rw [hmT, t3 j _ (hidx j) _ (hz j)]
  have hrecA : ∀ idx : Fin N → ℕ, (∀ j, idx j < dims j) → Spec.multiTTM rk (arr CA N) (Spec.absMats (mats (List.ofFn T))) ∅ idx =
      Spec.tuckRecon rk (Spec.multiTTM dims (Spec.absArr (arr V N)) (Spec.absMats (mats W)) ∅) (Spec.absMats (mats W)) idx := by
    intro idx hidx
    unfold Spec.tuckRecon
    conv_lhs => unfold Spec.multiTTM
    simp only [notMem_empty, IsEmpty.forall_iff, implies_true, filter_true, compl_empty]
    refine sum_congr rfl fun z hz => ?_
    have hz := Spec.mem_Box.1 hz
    rw [a.2 z (by rw [ek]; exact hz)]
    congr 1
    refine prod_congr rfl fun j _ => ?_
    unfold Spec.absMats
    rw [hmT, t3 j _ (hidx j) _ (hz j)]
  have hz : zipT (fun a b : ℝ => a - b) D V = .ok ⟨D.lens, fun idx => if fits D.lens idx = true then D.val idx - V.val idx else 0⟩ := by
    unfold zipT
    rw [if_pos (by rw [hS.lensV, hDl])]
  obtain ⟨E, e1, e2, e3⟩ := hR.zp_ok (f := fun a b => a - b) ⟨1, -1, by simp, by simp, fun a b => by ring⟩ hz
  have hEl : E.lens = List.ofFn dims := by rw [e2]; exact hDl
  have hb0 : ∀ n, 0 ≤ errBound eps (b * b) n := fun n => sub_nonneg.2 (one_le_pow₀ (by linarith))
  have hent : ∀ idx ∈ Spec.Box dims, |arr E N idx - (Spec.tuckRecon rk (Spec.multiTTM dims (arr V N) (mats W) ∅) (mats W) idx - arr V N idx)| ≤
      errBound eps (b * b) (2 * N + 1) * (|arr V N idx| + Spec.tuckRecon rk (Spec.multiTTM dims (Spec.absArr (arr V N))
          (Spec.absMats (mats W)) ∅) (Spec.absMats (mats W)) idx) := by
    intro idx hidx
    have hidx := Spec.mem_Box.1 hidx
    have q1 := e3 (List.ofFn idx)
    simp only at q1
    rw [if_pos (by rw [hDl, fits_ofFn]; exact hidx)] at q1
    change |arr E N idx - (arr D N idx - arr V N idx)| ≤ _ * |arr D N idx - arr V N idx| at q1
    have q2 := d2.val (z := idx) (by rw [ek']; exact hidx)
    obtain ⟨DE, DA, f1, f2, f3⟩ := d2
    have q3 := (f3.2.2 (List.ofFn idx)).1
    change |arr DE N idx| ≤ arr DA N idx at q3
    rw [f1.2 idx (by rw [ek']; exact hidx), f2.2 idx (by rw [ek']; exact hidx)] at q3
    rw [hrec idx hidx, hrecA idx hidx] at q2 q3
    rw [hacc, ← pow_add] at q2
    have hc : (1 : ℝ) ≤ (1 + u) ^ (N + N) := one_le_pow₀ (by linarith)
    have := Spec.add_rel hu hc (E2 := -arr V N idx) (A2 := |arr V N idx|) (b := -arr V N idx) (v := arr E N idx) q3
      (by rw [abs_neg]) q2 (by
        rw [sub_self, abs_zero]
        exact mul_nonneg (by linarith) (abs_nonneg _)) (by simpa [sub_eq_add_neg] using q1)
    rw [mul_comm (1 + _), ← pow_succ, show N + N + 1 = 2 * N + 1 by omega, hudef, errBound_eq, ← sub_eq_add_neg, add_comm (Spec.tuckRecon _ _ _ _) |_|] at this
    exact this
  have hC : TtmWithin (errBound eps (b * b) N) dims rk V W ∅ C := TtmWithin.of (by rw [hudef] at c2; exact c2) (by simp)
  have hCl : C.lens = List.ofFn rk := by rw [c2.lens, ek]
  refine ⟨C, abs (norm2 C - norm2 corePrev), norm2 E, ?_, hC, ?_, ?_⟩
  · unfold tuckCheckR
    simp only [bind, Except.bind, pure, Except.pure]
    rw [c1]
    simp only
    rw [hlen]
    simp only [bind, Except.bind] at hT
    rw [hT]
    simp only
    rw [d1]
    simp only
    rw [e1]
  · have n1 : |norm2 C - Real.sqrt (Spec.coreNormSq dims rk (arr V N) (mats W))| ≤ errBound eps (b * b) N *
        Real.sqrt (Spec.coreNormSq dims rk (Spec.absArr (arr V N)) (Spec.absMats (mats W))) := by
      rw [norm2, sqNorm_eq hCl]
      unfold Spec.coreNormSq Spec.sumSq
      exact sqrt_near _ (hb0 _) fun z hz => hC.2 z (by
        intro j
        have := Spec.mem_Box.1 hz j
        simpa [Spec.ttmShape] using this)
    refine (abs_abs_sub_abs_le _ _).trans ?_
    rw [sub_sub_sub_cancel_right]
    exact n1
  · rw [norm2, sqNorm_eq hEl]
    have : Spec.tuckErrSq dims rk (arr V N) (mats W) = ∑ idx ∈ Spec.Box dims,
        (Spec.tuckRecon rk (Spec.multiTTM dims (arr V N) (mats W) ∅) (mats W) idx - arr V N idx) ^ 2 :=
      sum_congr rfl fun idx _ => by ring
    rw [this]
    exact sqrt_near _ (hb0 _) hent

/-- **C80 (pairwise perturbation).** Orders 3 to 9: the operators of `alsTucker_PP_sub` carry the error of the products they are made of,
and the approximated product of each mode is within `errBound` of `2(N-1)` operations of the exact first-order expression. -/
theorem C80_pp (he : 0 ≤ eps) (hP : FlEval eps P) (h3 : 3 ≤ N) (h9 : N ≤ 9) (hb : 1 ≤ b) (hd : ∀ j, dims j ≤ b) (hr : ∀ j, rk j ≤ b)
    {Winit dW : List (Tensor ℝ)} (hS : TuckShaped dims rk V Winit) (hD : TuckShaped dims rk V dW) :
    ∃ ops, tuckOperatorsR P N V Winit = .ok ops ∧
      (∀ i : Fin N, ∃ T, ops.lookup (exceptOne (allLetters N) i.1) = some T ∧
        TtmWithin (errBound eps (b * b) (N - 1)) dims rk V Winit {i} T) ∧
      (∀ i j : Fin N, i < j → ∃ T, ops.lookup (exceptTwo (allLetters N) i.1 j.1) = some T ∧
        TtmWithin (errBound eps (b * b) (N - 2)) dims rk V Winit {i, j} T) ∧
      ∀ i : Fin N, ∃ Y, tuckPPYR P N ops dW i.1 = .ok Y ∧ Y.lens = List.ofFn (Spec.ttmShape dims rk {i}) ∧
        ∀ z : Fin N → ℕ, (∀ m, z m < Spec.ttmShape dims rk {i} m) →
          |arr Y N z - Spec.ppTTM dims (arr V N) (mats Winit) (mats dW) i z| ≤ errBound eps (b * b) (2 * (N - 1)) *
            Spec.ppTTM dims (Spec.absArr (arr V N)) (Spec.absMats (mats Winit)) (Spec.absMats (mats dW)) i z := by
  have hu := errU_nonneg he (b * b)
  have hR := hP.roundOk he (b * b)
  obtain ⟨ops, o1, o2⟩ := tuckOperatorsR_ok hR hu hb hd hr h3 h9 hS
  refine ⟨ops, o1, fun i => ?_, fun i j hij => ?_, fun i => ?_⟩
  · obtain ⟨T, a, c⟩ := o2.1 i
    unfold TPPNear at c
    rw [keep_ex1] at c
    exact ⟨T, a, TtmWithin.of c (by simp)⟩
  · obtain ⟨T, a, c⟩ := o2.2 i j hij
    unfold TPPNear at c
    rw [keep_ex2 hij] at c
    exact ⟨T, a, TtmWithin.of c (by rw [Finset.card_pair hij.ne])⟩
  · obtain ⟨Y, y1, y2, y3⟩ := tuckPPYR_ok hR hu hb hd hr (by omega) o2 hD i
    refine ⟨Y, y1, y2, fun z hz => ?_⟩
    rw [← errBound_eq]
    exact y3 z hz

/-! ### the objective -/

/-- How much a sweep can lose: proportional to the relative errors of the Gram matrices and of the SVD. -/
noncomputable def lossPerSweep (eps eta : ℝ) (b : ℕ) (dims rk : Fin N → ℕ) (V : (Fin N → ℕ) → ℝ) : ℝ :=
  4 * ((1 + gramBound eps b N) * (1 + eta) - 1) * ((∑ i : Fin N, ∏ j ∈ univ.erase i, rk j : ℕ) : ℝ) * (∑ idx ∈ Spec.Box dims, |V idx|) ^ 2

/-- What rounded sweeps `Ws 0, Ws 1, …` guarantee: after the first sweep all factors have orthonormal columns, and no sweep decreases the
squared core norm, or increases the squared error, by more than `loss`. -/
def AlmostMonotone (loss : ℝ) (dims rk : Fin N → ℕ) (V : Tensor ℝ) (Ws : ℕ → List (Tensor ℝ)) : Prop :=
  (∀ n, TuckShaped dims rk V (Ws n)) ∧
  (∀ n, 1 ≤ n → ∀ j : Fin N, Spec.Orthonormal (dims j) (rk j) (mats (Ws n) j)) ∧
  (∀ n, (1 ≤ n ∨ ∀ j : Fin N, Spec.Orthonormal (dims j) (rk j) (mats (Ws 0) j)) →
    Spec.coreNormSq dims rk (arr V N) (mats (Ws n)) ≤ Spec.coreNormSq dims rk (arr V N) (mats (Ws (n + 1))) + loss ∧
    Spec.tuckErrSq dims rk (arr V N) (mats (Ws (n + 1))) ≤ Spec.tuckErrSq dims rk (arr V N) (mats (Ws n)) + loss)

theorem almost_of {eta : ℝ} (he : 0 ≤ eps) (het : 0 ≤ eta) (hr : ∀ j, rk j ≤ dims j) {k : Kern ℝ} (hk : SvdBack eta k) {Ws : ℕ → List (Tensor ℝ)}
    (hs : ∀ n, TuckShaped dims rk V (Ws n)) (h : ∀ n, RoundedHooi (gramBound eps b N) k dims rk V (Ws n) (Ws (n + 1))) :
    AlmostMonotone (lossPerSweep eps eta b dims rk (arr V N)) dims rk V Ws := by
  have hc : 1 ≤ 1 + gramBound eps b N := by
    have : 0 ≤ gramBound eps b N := sub_nonneg.2 (one_le_pow₀ (by linarith))
    linarith
  have key := fun n => HooiRunNear.orth hc het hk hr (hs n) (roundedHooi_iff.1 (h n))
  have ho : ∀ n, 1 ≤ n → ∀ j : Fin N, Spec.Orthonormal (dims j) (rk j) (mats (Ws n) j) := by
    intro n hn j
    obtain ⟨m, rfl⟩ : ∃ m, n = m + 1 := ⟨n - 1, by omega⟩
    exact (key m).1 j
  refine ⟨hs, ho, fun n hn => ?_⟩
  have hn' : AllOrtho dims rk (Ws n) := by
    rcases Nat.eq_zero_or_pos n with rfl | hp
    · rcases hn with hn | hn
      · omega
      · exact hn
    · exact ho n hp
  have h2 := (key n).2 hn'
  refine ⟨h2, ?_⟩
  rw [C38_error_identity (key n).1, C38_error_identity hn']
  have : coreSq dims rk V (mats (Ws n)) ≤ coreSq dims rk V (mats (Ws (n + 1))) + lossPerSweep eps eta b dims rk (arr V N) := h2
  unfold coreSq at this
  unfold Spec.coreNormSq
  linarith

/-- **C80 (objective).** With a backward-stable SVD (relative error `eta`, exactly orthonormal columns), any number of sweeps of
`alsTucker` in floating-point arithmetic (orders 2 to 10) keeps the factors orthonormal, and no sweep increases the squared error by more
than `lossPerSweep`, which vanishes with `eps` and `eta` and does not depend on the factors or the number of sweeps. -/
theorem C80_objective {eta : ℝ} (he : 0 ≤ eps) (het : 0 ≤ eta) (hP : FlEval eps P) (h2 : 2 ≤ N) (hN : N ≤ 10) (hb : 1 ≤ b)
    (hd : ∀ j, dims j ≤ b) (hr : ∀ j, rk j ≤ dims j) (hS : TuckShaped dims rk V W) {k : Kern ℝ} (hk : SvdBack eta k) :
    ∃ Ws : ℕ → List (Tensor ℝ), Ws 0 = W ∧ (∀ n, iterM (tuckSweepR P k V (List.ofFn rk)) n W = .ok (Ws n)) ∧
      AlmostMonotone (lossPerSweep eps eta b dims rk (arr V N)) dims rk V Ws := by
  obtain ⟨Ws, w1, w2, w3⟩ := iterM_seq (step := tuckSweepR P k V (List.ofFn rk)) (P := TuckShaped dims rk V)
    (R := fun a c => RoundedHooi (gramBound eps b N) k dims rk V a c) (by
      intro W hS
      obtain ⟨W', a, c, d⟩ := C80_sweep he hP h2 hN hb hd hr hS hk.shape
      exact ⟨W', a, c, d⟩) hS
  exact ⟨Ws, w1, w2, almost_of he het hr hk (fun n => (w3 n).1) fun n => (w3 n).2⟩

/-- **C80 (objective, tree).** The same for `alsTucker_DT` (orders 4, 6 to 18). -/
theorem C80_objective_dt {eta : ℝ} (he : 0 ≤ eps) (het : 0 ≤ eta) (hP : FlEval eps P) (h4 : 4 ≤ N) (h5 : N ≠ 5) (hN : N ≤ 18) (hb : 1 ≤ b)
    (hd : ∀ j, dims j ≤ b) (hr : ∀ j, rk j ≤ dims j) (hS : TuckShaped dims rk V W) {k : Kern ℝ} (hk : SvdBack eta k) (C0 : Tensor ℝ) :
    ∃ (Ws : ℕ → List (Tensor ℝ)) (Cs : ℕ → Tensor ℝ), Ws 0 = W ∧
      (∀ n, iterM (fun s : List (Tensor ℝ) × Tensor ℝ => tuckSweepDTR P k V (List.ofFn rk) s.1) n (W, C0) = .ok (Ws n, Cs n)) ∧
      AlmostMonotone (lossPerSweep eps eta b dims rk (arr V N)) dims rk V Ws ∧
      ∀ n, 1 ≤ n → TtmWithin (errBound eps (b * b) N) dims rk V (Ws n) ∅ (Cs n) := by
  obtain ⟨f, w1, w2, w3⟩ := iterM_seq (s := (W, C0))
    (step := fun s : List (Tensor ℝ) × Tensor ℝ => tuckSweepDTR P k V (List.ofFn rk) s.1) (P := fun s => TuckShaped dims rk V s.1)
    (R := fun a c => RoundedHooi (gramBound eps b N) k dims rk V a.1 c.1 ∧ TtmWithin (errBound eps (b * b) N) dims rk V c.1 ∅ c.2) (by
      intro s hS
      obtain ⟨W', C, a, c, d, e⟩ := C80_sweep_dt he hP h4 h5 hN hb hd hr hS hk.shape
      exact ⟨(W', C), a, c, d, e⟩) hS
  refine ⟨fun n => (f n).1, fun n => (f n).2, by simp [w1], w2, almost_of he het hr hk (fun n => (w3 n).1) fun n => (w3 n).2.1, ?_⟩
  intro n hn
  obtain ⟨m, rfl⟩ : ∃ m, n = m + 1 := ⟨n - 1, by omega⟩
  exact (w3 m).2.2

/-- **C80 (meaning of the loss).** Without rounding errors nothing is lost. -/
theorem C80_loss_zero (b : ℕ) (V : (Fin N → ℕ) → ℝ) : lossPerSweep 0 0 b dims rk V = 0 := by
  simp [lossPerSweep, gramBound]

end

/-! Non-vacuity -/

example := C80_ttmc (by positivity) exFl (by norm_num) (by norm_num) (b := 4) (by norm_num) (by decide) (by decide) exTuckShaped 2 exTuckV
example := C80_core (by positivity) exFl (by norm_num) (by norm_num) (b := 4) (by norm_num) (by decide) (by decide) exTuckShaped exTuckV
example := C80_check (by positivity) exFl (by norm_num) (by norm_num) (b := 4) (by norm_num) (by decide) (by decide) exTuckShaped exTuckV exTuckV
example := C80_pp (by positivity) exFl (by norm_num) (by norm_num) (b := 4) (by norm_num) (by decide) (by decide) exTuckShaped exTuckShaped
example : ∃ k : Kern ℝ, SvdBack 0 k ∧ ∃ C F, hosvdR (seqArith exRnd) k exTuckV [1, 2, 1, 3] = .ok (C, F) := by
  obtain ⟨k, hb, _, hk⟩ := exists_svdBack
  obtain ⟨C, F, h, _⟩ := C80_hosvd (by positivity) exFl (by norm_num) (b := 4) (by norm_num) (by decide) exTuckRank exTuckShaped.lensV hk
  exact ⟨k, hb, C, F, h⟩
example : ∃ k : Kern ℝ, SvdBack 0 k ∧ ∃ W', tuckSweepR (seqArith exRnd) k exTuckV [1, 2, 1, 3] exTuckW = .ok W' := by
  obtain ⟨k, hb, _, hk⟩ := exists_svdBack
  obtain ⟨W', h, _⟩ := C80_sweep (by positivity) exFl (by norm_num) (by norm_num) (b := 4) (by norm_num) (by decide) exTuckRank exTuckShaped hk
  exact ⟨k, hb, W', h⟩
example : ∃ k : Kern ℝ, SvdBack 0 k ∧ ∃ W' C, tuckSweepDTR (seqArith exRnd) k exTuckV [1, 2, 1, 3] exTuckW = .ok (W', C) := by
  obtain ⟨k, hb, _, hk⟩ := exists_svdBack
  obtain ⟨W', C, h, _⟩ := C80_sweep_dt (by positivity) exFl (by norm_num) (by norm_num) (by norm_num) (b := 4) (by norm_num) (by decide) exTuckRank
    exTuckShaped hk
  exact ⟨k, hb, W', C, h⟩
example : ∃ k : Kern ℝ, ∃ Ws : ℕ → List (Tensor ℝ), (∀ n, iterM (tuckSweepR (seqArith exRnd) k exTuckV [1, 2, 1, 3]) n exTuckW = .ok (Ws n)) ∧
    AlmostMonotone (lossPerSweep (1 / 2 ^ 53) 0 4 ![2, 3, 1, 4] ![1, 2, 1, 3] (arr exTuckV 4)) ![2, 3, 1, 4] ![1, 2, 1, 3] exTuckV Ws := by
  obtain ⟨k, hb, _⟩ := exists_svdBack
  obtain ⟨Ws, _, h1, h2⟩ := C80_objective (by positivity) le_rfl exFl (by norm_num) (by norm_num) (b := 4) (by norm_num) (by decide) exTuckRank
    exTuckShaped hb
  exact ⟨k, Ws, h1, h2⟩
example : ∃ k : Kern ℝ, ∃ (Ws : ℕ → List (Tensor ℝ)) (Cs : ℕ → Tensor ℝ), ∀ n,
    iterM (fun s : List (Tensor ℝ) × Tensor ℝ => tuckSweepDTR (seqArith exRnd) k exTuckV [1, 2, 1, 3] s.1) n (exTuckW, exTuckV) = .ok (Ws n, Cs n) := by
  obtain ⟨k, hb, _⟩ := exists_svdBack
  obtain ⟨Ws, Cs, _, h1, _⟩ := C80_objective_dt (by positivity) le_rfl exFl (by norm_num) (by norm_num) (by norm_num) (b := 4) (by norm_num) (by decide)
    exTuckRank exTuckShaped hb exTuckV
  exact ⟨k, Ws, Cs, h1⟩

end Properties
