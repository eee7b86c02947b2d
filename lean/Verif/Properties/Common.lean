import Verif.Proofs.KRProduct
import Verif.Proofs.ApplyRankR
import Verif.Proofs.GaussSeidel
import Verif.Properties.LowRankBest

/-! # C60, C61, C62: the exported routines of common.cxx that no driver uses -/

namespace Properties

open Model Finset

section C60

variable {K : Type} [CommSemiring K] {Hlens : List ℕ} {W : List (Tensor K)} {index : List ℤ} {lensH : List ℕ} {m R : ℕ}
  {dims ix : ℕ → ℕ} {M : ℕ → Tensor K}

/-- **C60.** For one to ten matrices with any row counts, `KhatriRaoProduct` returns the array of order `m + 1` whose entries are
the products of the entries of the selected matrices. -/
theorem C60_khatri_rao_product (h : KRPArgs Hlens W index lensH m R dims ix M) (h10 : m ≤ 10) :
    ∃ T, khatriRaoProduct Hlens W index lensH = .ok T ∧ T.lens = (List.range m).map dims ++ [R] ∧
      ∀ x : ℕ → ℕ, (∀ t < m, x t < dims t) → ∀ r < R,
        T.val ((List.range m).map x ++ [r]) = ∏ t ∈ range m, mat (M t) (x t) r := by
  obtain ⟨T, h1, h2, h3⟩ := khatriRaoProduct_ok h h10
  exact ⟨T, h1, h2, h3⟩

/-- **C60 (violated for more matrices).** From eleven matrices on, the tenth and the eleventh index carry the same label: the
call aborts if the two lengths differ. -/
theorem C60_abort (h : KRPArgs Hlens W index lensH m R dims ix M) (hm : 11 ≤ m) (hne : dims 9 ≠ dims 10) :
    khatriRaoProduct Hlens W index lensH = .error .abort :=
  khatriRaoProduct_abort h hm hne

/-- **C60 (violated for more matrices).** With eleven matrices and equal lengths the call succeeds, but every entry whose tenth
and eleventh index differ is zero, whatever the matrices contain. -/
theorem C60_entries_lost (h : KRPArgs Hlens W index lensH 11 R dims ix M) (he : dims 9 = dims 10) :
    ∃ T, khatriRaoProduct Hlens W index lensH = .ok T ∧ T.lens = (List.range 11).map dims ++ [R] ∧
      ∀ (x : ℕ → ℕ) (r : ℕ), x 9 ≠ x 10 → T.val ((List.range 11).map x ++ [r]) = 0 :=
  khatriRaoProduct_eleven h he

/-- Three of four matrices, in a different order, one of them twice, rows 2, 3, 2 and two columns. -/
example : KRPArgs (K := ℤ) [0, 0, 0, 2] [⟨[3, 2], fun i => i.sum⟩, ⟨[5, 2], fun _ => 1⟩, ⟨[2, 2], fun i => 3 + i.sum⟩] [2, 0, 2]
    [2, 3, 2] 3 2 (fun t => if t = 1 then 3 else 2) (fun t => if t = 1 then 0 else 2)
    (fun t => if t = 1 then ⟨[3, 2], fun i => i.sum⟩ else ⟨[2, 2], fun i => 3 + i.sum⟩) where
  order := rfl
  last := rfl
  pos := by decide
  index_eq := by decide
  lens_eq := by decide
  mats := by
    intro t ht
    interval_cases t <;> rfl
  shape := by
    intro t ht
    interval_cases t <;> rfl

/-- Eleven matrices; `c` is the number of rows of the last one, so both the abort (`c ≠ 2`) and the silent loss (`c = 2`) occur. -/
example (c : ℕ) : KRPArgs (K := ℤ) (List.replicate 12 3) (List.replicate 10 ⟨[2, 3], fun _ => 1⟩ ++ [⟨[c, 3], fun _ => 1⟩])
    ((List.range 11).map fun t => (t : ℤ)) (List.replicate 10 2 ++ [c]) 11 3 (fun t => if t = 10 then c else 2) id
    (fun t => ⟨[if t = 10 then c else 2, 3], fun _ => 1⟩) where
  order := rfl
  last := rfl
  pos := by decide
  index_eq := rfl
  lens_eq := by simp [List.range_succ, List.replicate]
  mats := by
    intro t ht
    interval_cases t <;> rfl
  shape := by
    intro t ht
    rfl

end C60

section C61

variable {K : Type} [CommRing K] {N : ℕ}

/-- **C61.** Let the cached tensor be the product of `V` with `A` along `mode`.  After `apply_rankR_update` the cached tensor is the
product of `V` with `A + U diag(sigma) VT`, `U` has been overwritten by `U diag(sigma)` — and `A` holds the update
`U diag(sigma) VT` alone. -/
theorem C61_apply_rankR_update (hN : N ≤ 29) {dims : Fin N → ℕ} {R q : ℕ} {V : Tensor K} (hV : V.lens = List.ofFn dims)
    (i : Fin N) {u : LR K} (hu : LRShape u (dims i) q R) {A c : Tensor K} (hA : A.lens = [dims i, R])
    (hc : c.lens = List.ofFn (Function.update dims i R))
    (hcv : ∀ idx ∈ Spec.Box (Function.update dims i R), arr c N idx = Spec.ttm dims (arr V N) i (mat A) idx) :
    ∃ U' c' A', applyRankR u.U u.s u.VT A V c i.1 = .ok (U', c', A') ∧ c'.lens = c.lens ∧ A'.lens = [dims i, R] ∧
      (∀ x < dims i, ∀ k < q, mat U' x k = mat u.U x k * u.s.val [k]) ∧
      (∀ x < dims i, ∀ r < R, mat A' x r = ∑ k ∈ range q, mat u.U x k * u.s.val [k] * mat u.VT k r) ∧
      ∀ idx ∈ Spec.Box (Function.update dims i R), arr c' N idx =
        Spec.ttm dims (arr V N) i (fun x r => mat A x r + ∑ k ∈ range q, mat u.U x k * u.s.val [k] * mat u.VT k r) idx := by
  obtain ⟨U', c', A', h1, _, h3, h4, h5, h6, h7⟩ := applyRankR_ok hN hV i hu hA hc
  refine ⟨U', c', A', h1, h3, h4, h5, h6, fun idx hidx => ?_⟩
  rw [h7 idx hidx, hcv idx hidx]
  unfold Spec.ttm
  rw [← sum_add_distrib]
  exact sum_congr rfl fun x _ => by rw [lrDelta]; ring

/-- **C61 (violated).** The matrix and the cached tensor belong together after the call exactly if the product of `V` with the
old matrix was zero: the old matrix is dropped from `A` but kept in the cache. -/
theorem C61_coherent_iff (hN : N ≤ 29) {dims : Fin N → ℕ} {R q : ℕ} {V : Tensor K} (hV : V.lens = List.ofFn dims)
    (i : Fin N) {u : LR K} (hu : LRShape u (dims i) q R) {A c : Tensor K} (hA : A.lens = [dims i, R])
    (hc : c.lens = List.ofFn (Function.update dims i R))
    (hcv : ∀ idx ∈ Spec.Box (Function.update dims i R), arr c N idx = Spec.ttm dims (arr V N) i (mat A) idx) :
    ∃ U' c' A', applyRankR u.U u.s u.VT A V c i.1 = .ok (U', c', A') ∧
      ((∀ idx ∈ Spec.Box (Function.update dims i R), arr c' N idx = Spec.ttm dims (arr V N) i (mat A') idx) ↔
        ∀ idx ∈ Spec.Box (Function.update dims i R), Spec.ttm dims (arr V N) i (mat A) idx = 0) := by
  obtain ⟨U', c', A', h1, _, h3, h4, h5, h6, h7⟩ := applyRankR_ok hN hV i hu hA hc
  refine ⟨U', c', A', h1, forall₂_congr fun idx hidx => ?_⟩
  have hi : idx i < R := by
    rw [Spec.Box, Fintype.mem_piFinset] at hidx
    simpa using hidx i
  have e : Spec.ttm dims (arr V N) i (mat A') idx = Spec.ttm dims (arr V N) i (lrDelta q u) idx := by
    unfold Spec.ttm
    exact sum_congr rfl fun x hx => by rw [h6 x (mem_range.1 hx) _ hi]
  rw [h7 idx hidx, hcv idx hidx, e, add_eq_right]

/-- A matrix `V` and a factor for which the hypotheses hold and the caller's pair really is inconsistent afterwards. -/
example : ∃ U' c' A', applyRankR (K := ℤ) ⟨[2, 1], fun _ => 1⟩ ⟨[1], fun _ => 1⟩ ⟨[1, 1], fun _ => 1⟩ ⟨[2, 1], fun _ => 1⟩
      ⟨[2, 2], fun _ => 1⟩ ⟨[2, 1], fun _ => 2⟩ 1 = .ok (U', c', A') ∧
    ¬ ∀ idx ∈ Spec.Box (Function.update (fun _ : Fin 2 => 2) 1 1),
      arr c' 2 idx = Spec.ttm (fun _ => 2) (arr ⟨[2, 2], fun _ => 1⟩ 2) 1 (mat A') idx := by
  obtain ⟨U', c', A', h1, h2⟩ := C61_coherent_iff (K := ℤ) (N := 2) (by decide) (dims := fun _ => 2) (R := 1) (q := 1)
    (V := ⟨[2, 2], fun _ => 1⟩) rfl 1 (u := ⟨⟨[2, 1], fun _ => 1⟩, ⟨[1], fun _ => 1⟩, ⟨[1, 1], fun _ => 1⟩⟩) ⟨rfl, rfl, rfl⟩
    (A := ⟨[2, 1], fun _ => 1⟩) (c := ⟨[2, 1], fun _ => 2⟩) rfl rfl (by intro idx _; simp [arr, Spec.ttm, mat])
  refine ⟨U', c', A', h1, fun h => ?_⟩
  have := h2.1 h (fun _ => 0) (by rw [Spec.Box, Fintype.mem_piFinset]; decide)
  simp [arr, Spec.ttm, mat] at this

end C61

section C62

variable {n R : ℕ}

/-- **C62 (sweeps).** For every symmetric system matrix with nonzero diagonal, every right-hand side and start, and every number of
iterations, `Gauss_Seidel` runs without fault and every iteration is one Gauss-Seidel sweep. -/
theorem C62_sweeps {K : Type} [Field K] [CharZero K] {k : Kern K} {A F G : Tensor K} (hA : A.lens = [n, R]) (hF : F.lens = [n, R])
    (hG : G.lens = [R, R]) (hs : ∀ a < R, ∀ b < R, mat G a b = mat G b a) (hd : ∀ a < R, mat G a a ≠ 0)
    (hk : ∀ S : Tensor K, S.lens = [R, R] → SvdSpec R (k.svd S R) S) :
    ∃ T : ℕ → Tensor K, T 0 = A ∧ ∀ t, gaussSeidel k A F G t = .ok (T t) ∧ (T t).lens = [n, R] ∧
      ∀ x < n, ∀ j < R, ∑ l ∈ range R, (if l ≤ j then mat (T (t + 1)) x l else mat (T t) x l) * mat G l j = mat F x j :=
  gaussSeidel_ok hA hF hG hs hd hk

theorem posDef_diag {K : Type} [Field K] [LinearOrder K] [IsStrictOrderedRing K] {S : ℕ → ℕ → K} (h : Spec.PosDef R S) {a : ℕ}
    (ha : a < R) : 0 < S a a := by
  have := h.2 (fun k => if k = a then 1 else 0) ⟨a, ha, by simp⟩
  rw [sum_eq_single_of_mem a (mem_range.2 ha) fun b _ hb => sum_eq_zero fun c _ => by simp [hb],
    sum_eq_single_of_mem a (mem_range.2 ha) fun b _ hb => by simp [hb]] at this
  simpa using this

/-- **C62 (descent).** For a symmetric positive definite matrix every iteration decreases `tr(A Γ Aᵀ) - 2 tr(A Fᵀ)` strictly, unless
the iterate already solves `A Γ = F`; a solution is left unchanged. -/
theorem C62_descends {K : Type} [Field K] [LinearOrder K] [IsStrictOrderedRing K] {k : Kern K} {A F G : Tensor K}
    (hA : A.lens = [n, R]) (hF : F.lens = [n, R]) (hG : G.lens = [R, R]) (hp : Spec.PosDef R (mat G))
    (hk : ∀ S : Tensor K, S.lens = [R, R] → SvdSpec R (k.svd S R) S) :
    ∃ T : ℕ → Tensor K, T 0 = A ∧ ∀ t, gaussSeidel k A F G t = .ok (T t) ∧
      (Spec.quad n R (mat G) (mat F) (mat (T (t + 1))) < Spec.quad n R (mat G) (mat F) (mat (T t)) ∨
        Spec.Solves n R (mat (T t)) (mat G) (mat F) ∧ ∀ x < n, ∀ r < R, mat (T (t + 1)) x r = mat (T t) x r) := by
  have hd : ∀ a < R, 0 < mat G a a := fun a ha => posDef_diag hp ha
  obtain ⟨T, h0, h1⟩ := gaussSeidel_ok hA hF hG hp.1 (fun a ha => (hd a ha).ne') hk
  refine ⟨T, h0, fun t => ⟨(h1 t).1, ?_⟩⟩
  have hsw := (gsSweep_iff hp.1).1 (h1 t).2.2
  have hsym : (toM R R G).transpose = toM R R G := by
    funext a b; exact hp.1 b.1 b.2 a.1 a.2
  have hq := quadM_sweep hsym hsw
  by_cases he : toM n R (T (t + 1)) = toM n R (T t)
  · right
    constructor
    · rw [solves_iff]
      rw [he, sub_self, Matrix.zero_mul] at hsw
      exact (sub_eq_zero.1 hsw.symm).symm
    · intro x hx r hr
      exact congrFun (congrFun he ⟨x, hx⟩) ⟨r, hr⟩
  · left
    rw [quad_toM, quad_toM, hq]
    obtain ⟨x, j, hxj⟩ : ∃ x j, toM n R (T (t + 1)) x j ≠ toM n R (T t) x j := by
      by_contra hc
      push Not at hc
      exact he (funext fun x => funext fun j => hc x j)
    refine sub_lt_self _ ?_
    have hnn : ∀ x j, 0 ≤ toM R R G j j * (toM n R (T (t + 1)) x j - toM n R (T t) x j) ^ 2 := fun x j =>
      mul_nonneg (hd j.1 j.2).le (sq_nonneg _)
    refine sum_pos' (fun x _ => sum_nonneg fun j _ => hnn x j) ⟨x, mem_univ _, sum_pos' (fun j _ => hnn x j) ⟨j, mem_univ _, ?_⟩⟩
    have : toM n R (T (t + 1)) x j - toM n R (T t) x j ≠ 0 := sub_ne_zero.2 hxj
    exact mul_pos (hd j.1 j.2) (by positivity)

/-- **C62 (convergence).** For a symmetric positive definite matrix the results converge to the solution of `A Γ = F` as the number
of iterations grows, from every start. -/
theorem C62_converges {k : Kern ℝ} {A F G : Tensor ℝ}
    (hA : A.lens = [n, R]) (hF : F.lens = [n, R]) (hG : G.lens = [R, R]) (hp : Spec.PosDef R (mat G)) (hk : SvdTruncates k) :
    ∃ (T : ℕ → Tensor ℝ) (X : ℕ → ℕ → ℝ), (∀ t, gaussSeidel k A F G t = .ok (T t) ∧ (T t).lens = [n, R]) ∧
      (∀ x < n, ∀ r < R, ∑ j ∈ range R, X x j * mat G j r = mat F x r) ∧
      ∀ x < n, ∀ r < R, ∀ ε > 0, ∃ t0, ∀ t ≥ t0, |mat (T t) x r - X x r| < ε := by
  have hk' : ∀ S : Tensor ℝ, S.lens = [R, R] → SvdSpec R (k.svd S R) S := fun S hS =>
    (hk R R R S hS (by simp)).svdSpec
  obtain ⟨T, h0, h1⟩ := gaussSeidel_ok hA hF hG hp.1 (fun a ha => (posDef_diag hp ha).ne') hk'
  have hg := posDef_iff hp
  have hu : IsUnit (toM R R G).det := hg.det_pos.ne'.isUnit
  let X : Matrix (Fin n) (Fin R) ℝ := toM n R F * (toM R R G)⁻¹
  have hX : X * toM R R G = toM n R F := by
    simp only [X, Matrix.mul_assoc, Matrix.nonsing_inv_mul _ hu, Matrix.mul_one]
  have hlim := gs_converges hg hX (a := fun t => toM n R (T t)) fun t => (gsSweep_iff hp.1).1 (h1 t).2.2
  refine ⟨T, fun x r => if h : x < n ∧ r < R then X ⟨x, h.1⟩ ⟨r, h.2⟩ else 0, fun t => ⟨(h1 t).1, (h1 t).2.1⟩, ?_, ?_⟩
  · intro x hx r hr
    have := congrFun (congrFun hX ⟨x, hx⟩) ⟨r, hr⟩
    rw [Matrix.mul_apply] at this
    rw [sum_range]
    refine Eq.trans (sum_congr rfl fun j _ => ?_) this
    simp [hx, toM]
  · intro x hx r hr ε hε
    have h2 := tendsto_pi_nhds.1 (tendsto_pi_nhds.1 hlim ⟨x, hx⟩) ⟨r, hr⟩
    obtain ⟨t0, ht⟩ := Metric.tendsto_atTop.1 h2 ε hε
    refine ⟨t0, fun t h => ?_⟩
    have := ht t h
    rw [Real.dist_eq] at this
    simpa [hx, hr, toM] using this

/-- The kernel contract holds for some kernel, and the matrix `[[2,1],[1,2]]` is positive definite. -/
example : ∃ k : Kern ℝ, SvdTruncates k := by
  obtain ⟨k, hk, h, _⟩ := exists_lrKernOk
  exact ⟨k, h⟩

theorem exGamma_posDef : Spec.PosDef 2 (mat (⟨[2, 2], fun idx => if idx = [0, 0] ∨ idx = [1, 1] then 2 else 1⟩ : Tensor ℝ)) := by
  refine ⟨?_, ?_⟩
  · intro a ha b hb
    interval_cases a <;> interval_cases b <;> simp [mat]
  · rintro v ⟨a, ha, hv⟩
    simp only [sum_range_succ, range_zero, sum_empty, zero_add, mat]
    simp
    have hsq : 0 < v 0 ^ 2 + v 1 ^ 2 := by
      interval_cases a <;> positivity
    nlinarith [sq_nonneg (v 0 + v 1)]

end C62

end Properties
