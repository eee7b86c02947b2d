import Verif.Model.CPOpt
import Verif.Proofs.KhatriRao

namespace Model

open Finset

variable {K : Type} {N : ℕ}

/-- Expression with a single summed label. -/
theorem einsum_one [CommSemiring K] {d : Label → ℕ} {sc : List Label}
    {ops : List (Tensor K × List Label)} (h : ∀ o ∈ ops, o.1.lens = o.2.map d) (l : Label)
    (h1 : ∃ o ∈ ops, l ∈ o.2) (h2 : l ∉ sc) (h3 : ∀ o ∈ ops, ∀ l' ∈ o.2, l' ∉ sc → l' = l) :
    ∃ T, einsum (sc.map d) sc ops = .ok T ∧ Canon T ∧
      Rep T sc d fun env => ∑ x ∈ range (d l),
        (ops.map fun o => o.1.val (o.2.map (Function.update env l x))).prod := by
  obtain ⟨T, e1, e2, e3⟩ := einsum_rep (sc := sc) h
  refine ⟨T, e1, e2, e3.congr ?_⟩
  intro env _
  rw [exprVal, contracted_eq_single h1 h2 h3]
  rfl

/-- Environment for the labels `i`, `j`. -/
def envIJ (a b : ℕ) : Label → ℕ := fun l => if l = li then a else b

/-- Extents for matrices over the labels `i`, `j`, `k`. -/
def dIJK (a b c : ℕ) : Label → ℕ := fun l => if l = li then a else if l = lj then b else c

@[simp] theorem dIJK_i (a b c : ℕ) : dIJK a b c li = a := by simp [dIJK]
@[simp] theorem dIJK_j (a b c : ℕ) : dIJK a b c lj = b := by simp [dIJK, li, lj]
@[simp] theorem dIJK_k (a b c : ℕ) : dIJK a b c lk = c := by simp [dIJK, li, lj, lk]
@[simp] theorem envIJ_i (a b : ℕ) : envIJ a b li = a := by simp [envIJ]
@[simp] theorem envIJ_j (a b : ℕ) : envIJ a b lj = b := by simp [envIJ, li, lj]

theorem fits_two {n R x r : ℕ} : fits [n, R] [x, r] = true ↔ x < n ∧ r < R := by
  simp [fits]

theorem canon_mat [Zero K] {M : Tensor K} {n R : ℕ} (hc : Canon M) (hl : M.lens = [n, R])
    {f : ℕ → ℕ → K} (h : ∀ x < n, ∀ r < R, mat M x r = f x r) : mat M = Spec.clip n R f := by
  funext x r
  unfold Spec.clip
  split_ifs with hh
  · exact h x hh.1 r hh.2
  · apply hc
    rw [hl, Ne, fits_two]
    exact hh

/-- `AᵀB`-type product `C["ij"] = A["ki"]*B["kj"]`. -/
theorem einsum_gram [CommSemiring K] {A B : Tensor K} {n R R' : ℕ} (hA : A.lens = [n, R])
    (hB : B.lens = [n, R']) :
    ∃ T, einsum [R, R'] [li, lj] [(A, [lk, li]), (B, [lk, lj])] = .ok T ∧ Canon T ∧
      T.lens = [R, R'] ∧ ∀ a < R, ∀ b < R', mat T a b = ∑ x ∈ range n, mat A x a * mat B x b := by
  obtain ⟨T, e1, e2, e3⟩ := einsum_one (K := K) (d := dIJK R R' n) (sc := [li, lj])
    (ops := [(A, [lk, li]), (B, [lk, lj])]) (by simp [hA, hB]) lk (by simp)
    (by simp [li, lj, lk]) (by simp [li, lj, lk])
  refine ⟨T, by simpa using e1, e2, by simpa using e3.1, ?_⟩
  intro a ha b hb
  have := e3.2 (envIJ a b) (by simp [ha, hb])
  simp only [List.map_cons, List.map_nil, envIJ_i, envIJ_j, dIJK_k, List.prod_cons, List.prod_nil,
    mul_one, Function.update_self] at this
  rw [mat, this]
  refine Finset.sum_congr rfl fun x _ => ?_
  rw [Function.update_of_ne (by simp [li, lk]), Function.update_of_ne (by simp [lj, lk])]
  simp [mat]

/-- `S["ij"] = S["ij"] * (A["ki"]*B["kj"])`. -/
theorem einsum_had_gram [CommSemiring K] {S A B : Tensor K} {n R R' : ℕ} (hS : S.lens = [R, R'])
    (hA : A.lens = [n, R]) (hB : B.lens = [n, R']) :
    ∃ T, einsum [R, R'] [li, lj] [(S, [li, lj]), (A, [lk, li]), (B, [lk, lj])] = .ok T ∧ Canon T ∧
      T.lens = [R, R'] ∧ ∀ a < R, ∀ b < R',
        mat T a b = mat S a b * ∑ x ∈ range n, mat A x a * mat B x b := by
  obtain ⟨T, e1, e2, e3⟩ := einsum_one (K := K) (d := dIJK R R' n) (sc := [li, lj])
    (ops := [(S, [li, lj]), (A, [lk, li]), (B, [lk, lj])]) (by simp [hA, hB, hS]) lk (by simp)
    (by simp [li, lj, lk]) (by simp [li, lj, lk])
  refine ⟨T, by simpa using e1, e2, by simpa using e3.1, ?_⟩
  intro a ha b hb
  have := e3.2 (envIJ a b) (by simp [ha, hb])
  simp only [List.map_cons, List.map_nil, envIJ_i, envIJ_j, dIJK_k, List.prod_cons, List.prod_nil,
    mul_one, Function.update_self] at this
  rw [mat, this, Finset.mul_sum]
  refine Finset.sum_congr rfl fun x _ => ?_
  rw [Function.update_of_ne (by simp [li, lk]), Function.update_of_ne (by simp [lj, lk])]
  simp [mat]

/-- `C["ij"] = A["ik"]*B["kj"]`. -/
theorem einsum_matmul [CommSemiring K] {A B : Tensor K} {n m R : ℕ} (hA : A.lens = [n, m])
    (hB : B.lens = [m, R]) :
    ∃ T, einsum [n, R] [li, lj] [(A, [li, lk]), (B, [lk, lj])] = .ok T ∧ Canon T ∧
      T.lens = [n, R] ∧ ∀ a < n, ∀ b < R, mat T a b = ∑ x ∈ range m, mat A a x * mat B x b := by
  obtain ⟨T, e1, e2, e3⟩ := einsum_one (K := K) (d := dIJK n R m) (sc := [li, lj])
    (ops := [(A, [li, lk]), (B, [lk, lj])]) (by simp [hA, hB]) lk (by simp)
    (by simp [li, lj, lk]) (by simp [li, lj, lk])
  refine ⟨T, by simpa using e1, e2, by simpa using e3.1, ?_⟩
  intro a ha b hb
  have := e3.2 (envIJ a b) (by simp [ha, hb])
  simp only [List.map_cons, List.map_nil, envIJ_i, envIJ_j, dIJK_k, List.prod_cons, List.prod_nil,
    mul_one, Function.update_self] at this
  rw [mat, this]
  refine Finset.sum_congr rfl fun x _ => ?_
  rw [Function.update_of_ne (by simp [li, lk]), Function.update_of_ne (by simp [lj, lk])]
  simp [mat]

/-! ### lists of modes -/

/-- A list of naturals below `N` as a list of `Fin N`. -/
def toFins (l : List ℕ) (h : ∀ x ∈ l, x < N) : List (Fin N) := l.pmap Fin.mk h

theorem toFins_val (l : List ℕ) (h : ∀ x ∈ l, x < N) : (toFins l h).map Fin.val = l := by
  unfold toFins
  rw [List.map_pmap]
  simp

theorem toFins_nodup {l : List ℕ} (h : ∀ x ∈ l, x < N) (hn : l.Nodup) : (toFins l h).Nodup := by
  rw [← toFins_val l h] at hn
  exact hn.of_map _

theorem mem_toFins {l : List ℕ} {h : ∀ x ∈ l, x < N} {i : Fin N} : i ∈ toFins l h ↔ i.1 ∈ l := by
  unfold toFins
  rw [List.mem_pmap]
  constructor
  · rintro ⟨a, ha, rfl⟩; exact ha
  · intro hi; exact ⟨i.1, hi, rfl⟩

theorem mem_othersOf {i m : ℕ} (hi : i < N) : m ∈ othersOf N i ↔ m < N ∧ m ≠ i := by
  simp only [othersOf, List.mem_append, List.mem_range, List.mem_range'_1]
  omega

theorem othersOf_nodup (i : ℕ) : (othersOf N i).Nodup := by
  unfold othersOf
  rw [List.nodup_append]
  refine ⟨List.nodup_range, List.nodup_range', ?_⟩
  intro a ha b hb
  simp only [List.mem_range, List.mem_range'_1] at ha hb
  omega

theorem prod_index [CommMonoid K] {i : Fin N} {index : List ℕ} (hmem : ∀ m, m ∈ index ↔ m < N ∧ m ≠ i.1)
    (hnd : index.Nodup) (g : Fin N → K) :
    ∏ j ∈ univ.erase i, g j = ((toFins index fun _ h => ((hmem _).1 h).1).map g).prod := by
  rw [← List.prod_toFinset g (toFins_nodup _ hnd)]
  congr 1
  ext j
  simp only [Finset.mem_erase, Finset.mem_univ, and_true, List.mem_toFinset, mem_toFins, hmem]
  constructor
  · intro h; exact ⟨j.2, fun e => h (Fin.ext e)⟩
  · rintro ⟨_, h⟩ e; exact h (congrArg Fin.val e)

theorem prod_others [CommMonoid K] (i : Fin N) (g : Fin N → K) :
    ∏ j ∈ univ.erase i, g j =
      ((toFins (othersOf N i) fun _ h => ((mem_othersOf i.2).1 h).1).map g).prod :=
  prod_index (fun _ => mem_othersOf i.2) (othersOf_nodup _) g

variable [CommRing K]

theorem mats_get {dims : Fin N → ℕ} {R : ℕ} {V : Tensor K} {W : List (Tensor K)}
    (hS : Shaped dims R V W) (j : Fin N) :
    ∃ M, rd W ((j.1 : ℕ) : ℤ) = .ok M ∧ W[j.1]? = some M ∧ M.lens = [dims j, R] ∧
      (mats W j : ℕ → ℕ → K) = mat M := by
  obtain ⟨M, h1, h2⟩ := hS.get j
  exact ⟨M, rd_of h1, h1, h2, mats_eq j h1⟩

theorem regul_canon (R : ℕ) (lam : K) : Canon (regul R lam) := by
  intro idx h
  simp only [regul] at h ⊢
  rw [if_neg]
  rintro ⟨h1, _⟩
  exact h h1

theorem gramS_ok (h2 : 2 ≤ N) {dims : Fin N → ℕ} {R : ℕ} {V : Tensor K} {W : List (Tensor K)}
    (hS : Shaped dims R V W) (lam : K) (i : Fin N) {index : List ℕ} (hmem : ∀ m, m ∈ index ↔ m < N ∧ m ≠ i.1)
    (hnd : index.Nodup) :
    ∃ S, gramS index R lam W = .ok S ∧ Canon S ∧ S.lens = [R, R] ∧
      mat S = Spec.normalMat dims R lam (mats W) i := by
  have hlt : ∀ x ∈ index, x < N := fun _ h => ((hmem _).1 h).1
  -- the index list is nonempty
  obtain ⟨m0, rest, hidx⟩ : ∃ m0 rest, index = m0 :: rest := by
    cases h : index with
    | nil =>
      exfalso
      have : ∃ m, m < N ∧ m ≠ i.1 := by
        by_cases h0 : i.1 = 0
        · exact ⟨1, by omega, by omega⟩
        · exact ⟨0, by omega, by omega⟩
      obtain ⟨m, hm⟩ := this
      have := (hmem _).2 hm
      rw [h] at this
      simp at this
    | cons a l => exact ⟨a, l, rfl⟩
  have hm0 : m0 < N := hlt m0 (by rw [hidx]; simp)
  obtain ⟨W0, hr0, _, hl0, he0⟩ := mats_get hS ⟨m0, hm0⟩
  obtain ⟨S0, hS0, hc0, hls0, hv0⟩ := einsum_gram hl0 hl0
  -- loop
  obtain ⟨S1, hS1, hc1, hls1, hv1⟩ := foldlM_inv
    (f := fun S (m : ℕ) => do
      let Wm ← rd W m
      einsum [R, R] [li, lj] [(S, [li, lj]), (Wm, [lk, li]), (Wm, [lk, lj])])
    (P := fun done S => Canon S ∧ S.lens = [R, R] ∧ ∀ (h : ∀ x ∈ done, x < N), ∀ a < R, ∀ b < R,
      mat S a b = ((toFins done h).map fun j => Spec.gram (dims j) (mats W j) a b).prod)
    rest [m0] S0
    ⟨hc0, hls0, fun h a ha b hb => by
      rw [hv0 a ha b hb]
      simp [toFins, Spec.gram, he0]⟩
    (by
      rintro d x S hx ⟨t, ht⟩ ⟨hc, hls, hv⟩
      have hall : ∀ y ∈ d ++ [x], y < N := by
        intro y hy
        apply hlt
        rw [hidx, ← List.singleton_append, ht]
        simp only [List.mem_append, List.mem_singleton] at hy
        simp only [List.mem_append, List.mem_cons]
        tauto
      obtain ⟨Wm, hr, _, hl, he⟩ := mats_get hS ⟨x, hall x (by simp)⟩
      obtain ⟨T, hT, hTc, hTl, hTv⟩ := einsum_had_gram hls hl hl
      refine ⟨T, ?_, hTc, hTl, ?_⟩
      · simp only [bind, Except.bind]
        rw [hr]
        exact hT
      · intro h a ha b hb
        rw [hTv a ha b hb, hv (fun y hy => h y (by simp [hy])) a ha b hb]
        simp [toFins, Spec.gram, he])
  obtain ⟨S2, hz, hzc, hzl, hzv⟩ := zipT_ok (· + ·) (A := S1) (B := regul R lam) (by rw [hls1]; rfl)
  rw [hls1] at hzl hzv
  refine ⟨S2, ?_, hzc, hzl, ?_⟩
  · unfold gramS
    simp only [hidx]
    rw [show (0 : ℤ) = ((0 : ℕ) : ℤ) from rfl, rd_of (x := m0) (by simp)]
    simp only [bind, Except.bind]
    rw [hr0]
    simp only [hS0, List.drop_succ_cons, List.drop_zero]
    simp only [bind, Except.bind] at hS1
    rw [hS1]
    exact hz
  · rw [Spec.normalMat]
    apply canon_mat hzc hzl
    intro a ha b hb
    have := hv1 (fun y hy => hlt y (by rw [hidx]; exact hy)) a ha b hb
    rw [mat] at this
    rw [mat, hzv _ (fits_two.2 ⟨ha, hb⟩), this]
    unfold Spec.gramExcept
    beta_reduce
    rw [prod_index hmem hnd]
    congr 1
    · congr 2
      simp only [toFins, hidx]
      rfl
    · simp [regul, fits_two, ha, hb]

theorem updateS_ok (h2 : 2 ≤ N) {dims : Fin N → ℕ} {R : ℕ} {V : Tensor K} {W : List (Tensor K)}
    (hS : Shaped dims R V W) (lam : K) (i : Fin N) :
    ∃ S, updateS N R lam W i = .ok S ∧ Canon S ∧ S.lens = [R, R] ∧
      mat S = Spec.normalMat dims R lam (mats W) i :=
  gramS_ok h2 hS lam i (fun _ => mem_othersOf i.2) (othersOf_nodup _)

/-- The abstract state denoted by the model state. -/
def absF (N : ℕ) (f : Fac K) : Spec.AlsState N K := ⟨mats f.W, mats f.G⟩

theorem mats_set {W : List (Tensor K)} (hlen : W.length = N) (i : Fin N) (T : Tensor K) :
    (mats (W.set i.1 T) : Fin N → ℕ → ℕ → K) = Function.update (mats W) i (mat T) := by
  funext j
  by_cases h : j = i
  · subst h
    rw [Function.update_self]
    funext x r
    have hlt : j.1 < W.length := by rw [hlen]; exact j.2
    simp [mats, List.getElem?_set_self hlt]
  · rw [Function.update_of_ne h]
    funext x r
    have hne : i.1 ≠ j.1 := fun e => h (Fin.ext e.symm)
    simp [mats, List.getElem?_set_ne hne]

omit [CommRing K] in
theorem Shaped.set {dims : Fin N → ℕ} {R : ℕ} {V : Tensor K} {W : List (Tensor K)}
    (hS : Shaped dims R V W) (i : Fin N) {T : Tensor K} (hT : T.lens = [dims i, R]) :
    Shaped dims R V (W.set i.1 T) where
  lensV := hS.lensV
  count := by simp [hS.count]
  lensW := by
    intro j M h
    by_cases e : i = j
    · subst e
      have hlt : i.1 < W.length := by rw [hS.count]; exact i.2
      rw [List.getElem?_set_self hlt] at h
      cases h
      exact hT
    · have hne : i.1 ≠ j.1 := fun e' => e (Fin.ext e')
      rw [List.getElem?_set_ne hne] at h
      exact hS.lensW j M h

theorem mat_solveT (solve : Spec.Solver K) {M S : Tensor K} {n R : ℕ} (h : M.lens = [n, R]) :
    mat (solveT solve M S) = Spec.clip n R (solve n R (mat M) (mat S)) := by
  funext x r
  simp [mat, solveT, nrow, ncol, h]

/-- Gradient and solve, for an arbitrary right-hand side `m`. -/
theorem modeTail_ok {dims : Fin N → ℕ} {R : ℕ} {V : Tensor K} {f : Fac K}
    (hS : Shaped dims R V f.W) (hG : f.G.length = N) (lam : K) (solve : Spec.Solver K) (i : Fin N)
    {M S : Tensor K} {m : ℕ → ℕ → K} (hMc : Canon M) (hMl : M.lens = [dims i, R])
    (hM : ∀ x < dims i, ∀ r < R, mat M x r = m x r) (hSl : S.lens = [R, R])
    (hSv : mat S = Spec.normalMat dims R lam (mats f.W) i) :
    ∃ f', modeTail solve f i M S = .ok f' ∧ Shaped dims R V f'.W ∧ f'.G.length = N ∧
      absF N f' = Spec.modeUpdate dims R lam solve m (absF N f) i := by
  obtain ⟨Wi, hr, _, hl, he⟩ := mats_get hS i
  obtain ⟨T, hT, hTc, hTl, hTv⟩ := einsum_matmul hl hSl
  have hMm := canon_mat hMc hMl hM
  obtain ⟨g, hz, hzc, hzl, hzv⟩ := zipT_ok (fun a b : K => -a + b) (A := M) (B := T) (by rw [hMl, hTl])
  rw [hMl] at hzl hzv
  refine ⟨⟨f.W.set i.1 (solveT solve M S), f.G.set i.1 g⟩, ?_, ?_, by simp [hG], ?_⟩
  · unfold modeTail
    simp only [bind, Except.bind]
    rw [hr]
    simp only [hMl, hT]
    rw [hz]
    rfl
  · exact hS.set i (by simp [solveT, nrow, ncol, hMl])
  · unfold absF Spec.modeUpdate
    simp only [mats_set hS.count, mats_set hG]
    congr 1
    · congr 1
      rw [mat_solveT solve hMl, hMm, hSv]
    · congr 1
      apply canon_mat hzc hzl
      intro x hx r hr
      have h1 := hM x hx r hr
      have h2 := hTv x hx r hr
      simp only [mat] at h1 h2 ⊢
      rw [hzv _ (fits_two.2 ⟨hx, hr⟩), h1, h2]
      congr 1
      refine Finset.sum_congr rfl fun k _ => ?_
      rw [he, ← hSv]
      rfl

/-- Given the exact MTTKRP, the common tail of the steps is the specified ALS update. -/
theorem updateMode_ok (h2 : 2 ≤ N) {dims : Fin N → ℕ} {R : ℕ} {V : Tensor K} {f : Fac K}
    (hS : Shaped dims R V f.W) (hG : f.G.length = N) (lam : K) (solve : Spec.Solver K) (i : Fin N)
    {M : Tensor K} (hMc : Canon M) (hMl : M.lens = [dims i, R])
    (hM : ∀ x < dims i, ∀ r < R, mat M x r = Spec.mttkrp dims (arr V N) (mats f.W) i x r) :
    ∃ f', updateMode N R lam solve f i M = .ok f' ∧ Shaped dims R V f'.W ∧ f'.G.length = N ∧
      absF N f' = Spec.alsUpdate dims R lam solve (arr V N) (absF N f) i := by
  obtain ⟨S, hS1, hSc, hSl, hSv⟩ := updateS_ok h2 hS lam i
  obtain ⟨f', a1, a2, a3, a4⟩ := modeTail_ok hS hG lam solve i hMc hMl hM hSl hSv
  refine ⟨f', ?_, a2, a3, a4⟩
  unfold updateMode
  simp only [bind, Except.bind]
  rw [hS1]
  exact a1

end Model
