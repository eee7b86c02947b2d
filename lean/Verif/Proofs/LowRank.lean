import Verif.Model.LowRank
import Verif.Proofs.DTSteps
import Mathlib.Algebra.BigOperators.Group.Finset.Sigma

namespace Model

open Finset

variable {K : Type} {N : ℕ}

/-- Expression with two summed labels. -/
theorem einsum_pair [CommSemiring K] {d : Label → ℕ} {sc : List Label}
    {ops : List (Tensor K × List Label)} (h : ∀ o ∈ ops, o.1.lens = o.2.map d) (a b : Label)
    (hab : a ≠ b) (ha : ∃ o ∈ ops, a ∈ o.2) (ha' : a ∉ sc) (hb : ∃ o ∈ ops, b ∈ o.2) (hb' : b ∉ sc)
    (h3 : ∀ o ∈ ops, ∀ l' ∈ o.2, l' ∉ sc → l' = a ∨ l' = b) :
    ∃ T, einsum (sc.map d) sc ops = .ok T ∧ Canon T ∧
      Rep T sc d fun env => ∑ x ∈ range (d a), ∑ y ∈ range (d b),
        (ops.map fun o => o.1.val (o.2.map (Function.update (Function.update env a x) b y))).prod := by
  obtain ⟨T, e1, e2, e3⟩ := einsum_rep (sc := sc) h
  refine ⟨T, e1, e2, e3.congr ?_⟩
  intro env _
  have hnd := contracted_nodup sc ops
  have hma : a ∈ contracted sc ops := mem_contracted.2 ⟨ha, ha'⟩
  have hmb : b ∈ contracted sc ops := mem_contracted.2 ⟨hb, hb'⟩
  have hall : ∀ l' ∈ contracted sc ops, l' = a ∨ l' = b := by
    intro l' hl'
    obtain ⟨⟨o, ho, h⟩, hn⟩ := mem_contracted.1 hl'
    exact h3 o ho l' h hn
  have hp : (contracted sc ops).Perm [a, b] := by
    rw [List.perm_ext_iff_of_nodup hnd (by simp [hab])]
    intro l
    constructor
    · intro hl; simpa using hall l hl
    · intro hl
      simp only [List.mem_cons, List.not_mem_nil, or_false] at hl
      rcases hl with rfl | rfl <;> assumption
  have hc : contracted sc ops = [a, b] ∨ contracted sc ops = [b, a] := by
    have hlen := hp.length_eq
    generalize contracted sc ops = c at *
    match c, hlen with
    | [u, v], _ =>
      have hu := hall u (by simp)
      have hv := hall v (by simp)
      simp only [List.nodup_cons, List.mem_singleton] at hnd
      rcases hu with rfl | rfl <;> rcases hv with rfl | rfl
      · exact absurd rfl hnd.1
      · exact Or.inl rfl
      · exact Or.inr rfl
      · exact absurd rfl hnd.1
  rcases hc with hc | hc
  · rw [exprVal, hc]; rfl
  · rw [exprVal, hc]
    simp only [List.map_cons, List.map_nil, sumOver]
    rw [Finset.sum_comm]
    refine Finset.sum_congr rfl fun x _ => Finset.sum_congr rfl fun y _ => ?_
    rw [Function.update_comm hab]

section
variable [CommRing K]

/-- Shape and content of the triple `U`, `s`, `VT`. -/
structure LRShape (u : LR K) (n q R : ℕ) : Prop where
  U : u.U.lens = [n, q]
  s : u.s.lens = [q]
  VT : u.VT.lens = [q, R]

/-- The correction denoted by a triple. -/
def lrDelta (q : ℕ) (u : LR K) (x r : ℕ) : K :=
  ∑ k ∈ range q, mat u.U x k * u.s.val [k] * mat u.VT k r

theorem lrT_shape {q : ℕ} {lr : Spec.LowRank K} {M A S : Tensor K} {n R : ℕ} (h : M.lens = [n, R]) :
    LRShape (lrT q lr M A S) n q R := by
  constructor <;> simp [lrT, nrow, ncol, h]

theorem lrT_delta {q : ℕ} {lr : Spec.LowRank K} {M A S : Tensor K} {n R : ℕ} (h : M.lens = [n, R])
    {x r : ℕ} (hx : x < n) (hr : r < R) :
    lrDelta q (lrT q lr M A S) x r =
      Spec.lrProd q (lr n R (mat M) (Spec.clip n R (mat A)) (mat S)) x r := by
  unfold lrDelta Spec.lrProd
  refine Finset.sum_congr rfl fun k hk => ?_
  have hk := Finset.mem_range.1 hk
  simp [lrT, mat, nrow, ncol, h, Spec.clip, hx, hr, hk]

/-- `D["ij"] = U["ik"]*s["k"]*VT["kj"]`. -/
theorem einsum_usv {u : LR K} {n q R : ℕ} (hu : LRShape u n q R) :
    ∃ T, einsum [n, R] [li, lj] [(u.U, [li, lk]), (u.s, [lk]), (u.VT, [lk, lj])] = .ok T ∧ Canon T ∧
      T.lens = [n, R] ∧ ∀ a < n, ∀ b < R, mat T a b = lrDelta q u a b := by
  obtain ⟨T, e1, e2, e3⟩ := einsum_one (K := K) (d := dIJK n R q) (sc := [li, lj])
    (ops := [(u.U, [li, lk]), (u.s, [lk]), (u.VT, [lk, lj])]) (by simp [hu.U, hu.s, hu.VT]) lk (by simp)
    (by simp [li, lj, lk]) (by simp [li, lj, lk])
  refine ⟨T, by simpa using e1, e2, by simpa using e3.1, ?_⟩
  intro a ha b hb
  have := e3.2 (envIJ a b) (by simp [ha, hb])
  simp only [List.map_cons, List.map_nil, envIJ_i, envIJ_j, dIJK_k, List.prod_cons, List.prod_nil,
    mul_one, Function.update_self] at this
  rw [mat, this]
  refine Finset.sum_congr rfl fun x _ => ?_
  rw [Function.update_of_ne (by simp [li, lk]), Function.update_of_ne (by simp [lj, lk])]
  simp [mat, mul_assoc]

/-- The low-rank branch is the specified low-rank update. -/
theorem lrMode_ok (h2 : 2 ≤ N) {dims : Fin N → ℕ} {R : ℕ} {V : Tensor K} {f : Fac K}
    (hS : Shaped dims R V f.W) (hG : f.G.length = N) (lam : K) (q : ℕ) (lr : Spec.LowRank K) (i : Fin N)
    {M A : Tensor K} (hA : A.lens = [dims i, R]) (hMc : Canon M) (hMl : M.lens = [dims i, R])
    (hM : ∀ x < dims i, ∀ r < R, mat M x r = Spec.mttkrp dims (arr V N) (mats f.W) i x r) :
    ∃ f' u, lrMode N R lam q lr f i A M = .ok (f', u) ∧ Shaped dims R V f'.W ∧
      (f'.G.length = N ∧ (Shaped dims R V f.G → Shaped dims R V f'.G)) ∧
      absF N f' = Spec.lrUpdate dims R lam q lr (arr V N) (mat A) (absF N f) i ∧
      LRShape u (dims i) q R ∧
      (∀ x < dims i, ∀ r < R, mats f'.W i x r = mat A x r + lrDelta q u x r) := by
  obtain ⟨S, hS1, hSc, hSl, hSv⟩ := updateS_ok h2 hS lam i
  obtain ⟨Wi, hr, _, hl, he⟩ := mats_get hS i
  obtain ⟨T, hT, hTc, hTl, hTv⟩ := einsum_matmul hl hSl
  have hMm := canon_mat hMc hMl hM
  have hu := lrT_shape (q := q) (lr := lr) (A := A) (S := S) hMl
  obtain ⟨D, hD, hDc, hDl, hDv⟩ := einsum_usv hu
  obtain ⟨g, hz, hzc, hzl, hzv⟩ := zipT_ok (fun a b : K => -a + b) (A := M) (B := T) (by rw [hMl, hTl])
  rw [hMl] at hzl hzv
  obtain ⟨Wn, hw, hwc, hwl, hwv⟩ := zipT_ok (· + ·) (A := A) (B := D) (by rw [hA, hDl])
  rw [hA] at hwl hwv
  have hWn : ∀ x < dims i, ∀ r < R, mat Wn x r = mat A x r + lrDelta q (lrT q lr M A S) x r := by
    intro x hx r hr
    rw [← hDv x hx r hr]
    exact hwv _ (fits_two.2 ⟨hx, hr⟩)
  refine ⟨⟨f.W.set i.1 Wn, f.G.set i.1 g⟩, lrT q lr M A S, ?_, ?_, ⟨by simp [hG], fun h => h.set i hzl⟩, ?_, hu, ?_⟩
  · unfold lrMode
    simp only [bind, Except.bind]
    rw [hS1]
    simp only
    rw [hr]
    simp only [hMl, hT]
    rw [hz]
    simp only [hl, hD]
    rw [hw]
    rfl
  · exact hS.set i hwl
  · unfold absF Spec.lrUpdate
    simp only [mats_set hG, mats_set hS.count]
    congr 1
    · congr 1
      rw [← hMm, ← hSv]
      apply canon_mat hwc hwl
      intro x hx r hr
      rw [hWn x hx r hr, lrT_delta hMl hx hr]
    · congr 1
      rw [Spec.alsGrad]
      apply canon_mat hzc hzl
      intro x hx r hr
      have h1 := hM x hx r hr
      have h2 := hTv x hx r hr
      simp only [mat] at h1 h2 ⊢
      rw [hzv _ (fits_two.2 ⟨hx, hr⟩), h1, h2]
      congr 1
      refine Finset.sum_congr rfl fun k _ => ?_
      rw [he, ← hSv]
      rfl
  · intro x hx r hr
    simp only
    rw [mats_set hS.count, Function.update_self, hWn x hx r hr]

theorem scaleU_ok {u : LR K} {n q R : ℕ} (hu : LRShape u n q R) :
    ∃ u', scaleU u = .ok u' ∧ LRShape u' n q R ∧ u'.VT = u.VT ∧
      ∀ x < n, ∀ k < q, mat u'.U x k = mat u.U x k * u.s.val [k] := by
  obtain ⟨T, e1, e2, e3⟩ := einsum_two_nosum (K := K) (d := dIJK n q 0) (sc := [li, lj])
    (sa := [li, lj]) (sb := [lj]) (A := u.U) (B := u.s) (Rep.self (by simp [hu.U]))
    (Rep.self (by simp [hu.s])) (by simp) (by simp)
  refine ⟨{ u with U := T }, ?_, ⟨by simpa using e3.1, hu.s, hu.VT⟩, rfl, ?_⟩
  · unfold scaleU
    simp only [bind, Except.bind]
    rw [hu.U]
    simp only [List.map_cons, List.map_nil, dIJK_i, dIJK_j] at e1
    rw [e1]
    rfl
  · intro x hx k hk
    have := e3.2 (envIJ x k) (by simp [hx, hk])
    simpa [mat] using this

/-- `T` is the contraction of `V` with `A` along mode `left`, its modes in the order of the tree top. -/
def TopIs (dims : Fin N → ℕ) (R : ℕ) (V : (Fin N → ℕ) → K) (left : Fin N) (A : ℕ → ℕ → K)
    (T : Tensor K) : Prop :=
  T.lens = (nodeModes left (N - 2) (N - 2)).map dims ++ [R] ∧
  ∀ y : Fin N → ℕ, (∀ m, m ≠ left → y m < dims m) → ∀ r < R,
    T.val ((nodeModes left (N - 2) (N - 2)).map y ++ [r]) = Spec.contractMode dims V left A y r

theorem top_modes (h2 : 2 ≤ N) (left : Fin N) :
    (nodeModes left (N - 2) (N - 2)).toFinset = univ.erase left := by
  ext m
  simp only [List.mem_toFinset, Finset.mem_erase, Finset.mem_univ, and_true]
  rw [mem_nodeModes (le_refl _) (by omega)]
  have h1 := posOf_lt left m
  have h2 : posOf left m = N - 1 ↔ m = left := by
    constructor
    · intro h; rw [← modeAt_posOf left m, h, modeAt_last]
    · rintro rfl
      have := posOf_modeAt m (p := N - 1) (by omega)
      rwa [modeAt_last] at this
  rw [Ne, ← h2]
  omega

theorem mem_top (h2 : 2 ≤ N) (left m : Fin N) : m ∈ nodeModes left (N - 2) (N - 2) ↔ m ≠ left := by
  rw [← List.mem_toFinset, top_modes h2]; simp

theorem topIs_iff (h2 : 2 ≤ N) {dims : Fin N → ℕ} {R : ℕ} {V : (Fin N → ℕ) → K} {left : Fin N}
    {W : Fin N → ℕ → ℕ → K} {T : Tensor K} :
    Valid dims R V W T (nodeModes left (N - 2) (N - 2)) ↔ TopIs dims R V left (W left) T := by
  unfold Valid TopIs
  refine and_congr_right fun _ => ?_
  have key : ∀ y : Fin N → ℕ, (∀ m, m ≠ left → y m < dims m) → ∀ r,
      Spec.partialMttkrp dims V W (nodeModes left (N - 2) (N - 2)).toFinset y r =
      Spec.contractMode dims V left (W left) y r := by
    intro y hy r
    rw [top_modes h2, ← Spec.partialMttkrp_contract (Finset.mem_univ left), Spec.contractMode]
    refine Finset.sum_congr rfl fun x hx => ?_
    rw [Spec.partialMttkrp_univ]
    intro j
    by_cases e : j = left
    · subst e; simpa using hx
    · rw [Function.update_of_ne e]; exact hy j e
  constructor
  · intro h y hy r hr
    rw [h y (fun m hm => hy m ((mem_top h2 left m).1 hm)) r hr, key y hy]
  · intro h y hy r hr
    have hy' : ∀ m, m ≠ left → y m < dims m := fun m hm => hy m ((mem_top h2 left m).2 hm)
    rw [h y hy' r hr, key y hy']

theorem TopIs.congr {dims : Fin N → ℕ} {R : ℕ} {V : (Fin N → ℕ) → K} {left : Fin N}
    {A B : ℕ → ℕ → K} {T : Tensor K} (h : TopIs dims R V left A T)
    (hAB : ∀ x < dims left, ∀ r < R, A x r = B x r) : TopIs dims R V left B T := by
  refine ⟨h.1, fun y hy r hr => ?_⟩
  rw [h.2 y hy r hr]
  exact Finset.sum_congr rfl fun x hx => by rw [hAB x (Finset.mem_range.1 hx) r hr]

/-- Extents of the labels of a patch. -/
noncomputable def dPatch (hN : N ≤ 31) (dims : Fin N → ℕ) (R q : ℕ) (l : Label) : ℕ :=
  if l = amp then q else (idLab hN).d dims R l

theorem letter_ne_amp {j : ℕ} (h : j ≤ 30) : letter j ≠ amp := by
  rw [letter_eq h]; unfold amp
  change (_ : ℤ) ≠ _
  omega

theorem dPatch_lab (hN : N ≤ 31) (dims : Fin N → ℕ) (R q : ℕ) (j : Fin N) :
    dPatch hN dims R q (letter j.1) = dims j := by
  unfold dPatch
  rw [if_neg (letter_ne_amp (by omega))]
  exact (idLab hN).d_lab dims R j

theorem dPatch_star (hN : N ≤ 31) (dims : Fin N → ℕ) (R q : ℕ) : dPatch hN dims R q star = R := by
  unfold dPatch
  rw [if_neg (by decide)]
  exact (idLab hN).d_rk dims R

theorem dPatch_amp (hN : N ≤ 31) (dims : Fin N → ℕ) (R q : ℕ) : dPatch hN dims R q amp = q := by
  simp [dPatch]

open Classical in
/-- Environment with `y` on the mode letters and `r` elsewhere. -/
noncomputable def mkEnv (y : Fin N → ℕ) (r : ℕ) : Label → ℕ :=
  fun l => if h : ∃ m : Fin N, letter m.1 = l then y h.choose else r

omit [CommRing K] in
theorem mkEnv_letter (hN : N ≤ 31) (y : Fin N → ℕ) (r : ℕ) (m : Fin N) : mkEnv y r (letter m.1) = y m := by
  have h : ∃ k : Fin N, letter k.1 = letter m.1 := ⟨m, rfl⟩
  unfold mkEnv
  rw [dif_pos h, (idLab hN).inj (a₁ := h.choose) (a₂ := m) h.choose_spec]

theorem mkEnv_star (hN : N ≤ 31) (y : Fin N → ℕ) (r : ℕ) : mkEnv y r star = r := by
  have h : ¬ ∃ k : Fin N, letter k.1 = star := fun ⟨k, hk⟩ => letter_ne_star (by omega) hk
  unfold mkEnv
  rw [dif_neg h]

theorem seqInit_eq (h2 : 2 ≤ N) (left : Fin N) :
    (indexesOf N left.1).map letter ++ [star] =
      (nodeModes left (N - 2) (N - 2)).map (fun m => letter m.1) ++ [star] := by
  rw [indexesOf_eq, nodeModes, node_self, show N - 2 + 1 = N - 1 by omega]
  simp only [List.map_map]
  rfl

theorem seqV_map (hN : N ≤ 31) (left : Fin N) (y : Fin N → ℕ) (r x k : ℕ) :
    ((List.range N).map letter).map
      (Function.update (Function.update (mkEnv y r) (letter left.1) x) amp k) =
    List.ofFn (Function.update y left x) := by
  rw [range_letter, List.map_ofFn]
  congr 1
  funext m
  simp only [Function.comp]
  rw [Function.update_of_ne (letter_ne_amp (by omega))]
  by_cases e : m = left
  · subst e; simp
  · have hne : letter m.1 ≠ letter left.1 := fun h => e ((idLab hN).inj h)
    rw [Function.update_of_ne hne, Function.update_of_ne e, mkEnv_letter hN]

/-- The sum of a top and a correction is a top. -/
theorem topIs_add (h2 : 2 ≤ N) {dims : Fin N → ℕ} {R : ℕ} {V : (Fin N → ℕ) → K} {left : Fin N}
    {A B : ℕ → ℕ → K} {c D : Tensor K} (hc : TopIs dims R V left A c) (hD : TopIs dims R V left B D) :
    ∃ T, zipT (· + ·) c D = .ok T ∧ Canon T ∧ TopIs dims R V left (fun x r => A x r + B x r) T := by
  obtain ⟨T, h1, h3, h4, h5⟩ := zipT_ok (· + ·) (A := c) (B := D) (by rw [hc.1, hD.1])
  refine ⟨T, h1, h3, h4.trans hc.1, ?_⟩
  intro y hy r hr
  rw [h5, hc.2 y hy r hr, hD.2 y hy r hr]
  · unfold Spec.contractMode
    rw [← Finset.sum_add_distrib]
    exact Finset.sum_congr rfl fun x _ => by ring
  · rw [hc.1, fits_iff_getElem]
    refine ⟨by simp, ?_⟩
    intro p h1 h2'
    rw [List.getElem_append, List.getElem_append]
    simp only [List.length_map, List.getElem_map]
    split_ifs with h
    · apply hy
      rw [← mem_top h2 left]
      exact List.getElem_mem _
    · simpa using hr

theorem patchDT_ok (h2 : 2 ≤ N) (hN : N ≤ 31) {dims : Fin N → ℕ} {R q : ℕ} {V : Tensor K}
    (hV : V.lens = List.ofFn dims) {left : Fin N} {u : LR K} (hu : LRShape u (dims left) q R)
    {A : ℕ → ℕ → K} {c : Tensor K} (hc : TopIs dims R (arr V N) left A c) :
    ∃ u' c', patchDT N V left.1 u c = .ok (u', c') ∧ Canon c' ∧
      TopIs dims R (arr V N) left (fun x r => A x r + lrDelta q u x r) c' := by
  obtain ⟨u', s1, s2, s3, s4⟩ := scaleU_ok hu
  set ms := nodeModes left (N - 2) (N - 2) with hms
  set sc : List Label := ms.map (fun m => letter m.1) ++ [star] with hsc
  have hmem : ∀ m : Fin N, letter m.1 ∈ sc ↔ m ≠ left := by
    intro m
    rw [hsc, List.mem_append, List.mem_map]
    simp only [List.mem_singleton, letter_ne_star (show m.1 ≤ 30 by omega), or_false]
    rw [← mem_top h2 left]
    constructor
    · rintro ⟨k, hk, e⟩; exact (idLab hN).inj e ▸ hk
    · intro h; exact ⟨m, h, rfl⟩
  have hlens : sc.map (dPatch hN dims R q) = c.lens := by
    rw [hc.1, hsc, List.map_append, List.map_map]
    simp only [List.map_cons, List.map_nil, dPatch_star]
    congr 1
    exact List.map_congr_left fun m _ => dPatch_lab hN dims R q m
  have hampsc : amp ∉ sc := by
    rw [hsc, List.mem_append, List.mem_map]
    rintro (⟨m, _, h⟩ | h)
    · exact letter_ne_amp (by omega) h
    · simp [amp, star] at h
  obtain ⟨D, d1, d2, d3⟩ := einsum_pair (K := K) (d := dPatch hN dims R q) (sc := sc)
    (ops := [(V, (List.range N).map letter), (u'.U, [letter left.1, amp]), (u'.VT, [amp, star])])
    (by
      simp only [List.mem_cons, List.not_mem_nil, or_false, forall_eq_or_imp, forall_eq]
      refine ⟨?_, ?_, ?_⟩
      · rw [hV, range_letter, List.map_ofFn]
        congr 1
        funext m
        exact (dPatch_lab hN dims R q m).symm
      · simp [s2.U, dPatch_lab, dPatch_amp]
      · simp [s2.VT, dPatch_star, dPatch_amp])
    (letter left.1) amp (letter_ne_amp (by omega)) ⟨(u'.U, [letter left.1, amp]), by simp, by simp⟩
    (by rw [hmem]; simp) ⟨(u'.U, [letter left.1, amp]), by simp, by simp⟩ hampsc
    (by
      simp only [List.mem_cons, List.not_mem_nil, or_false, forall_eq_or_imp, forall_eq]
      refine ⟨?_, ?_, ?_⟩
      · intro l hl hn
        rw [range_letter, List.mem_ofFn] at hl
        obtain ⟨m, rfl⟩ := hl
        left
        by_contra hne
        exact hn ((hmem m).2 fun e => hne (by rw [e]))
      · exact ⟨fun _ => Or.inl trivial, fun _ => Or.inr trivial⟩
      · refine ⟨fun _ => Or.inr trivial, fun h => absurd (by simp [hsc]) h⟩)
  have hD : TopIs dims R (arr V N) left (lrDelta q u) D := by
    refine ⟨by rw [d3.1, hlens, hc.1], ?_⟩
    intro y hy r hr
    have henv := d3.2 (mkEnv y r) (by
      intro l hl
      rw [hsc, List.mem_append, List.mem_map] at hl
      rcases hl with ⟨m, hm, rfl⟩ | hl
      · rw [mkEnv_letter hN, dPatch_lab]
        exact hy m ((mem_top h2 left m).1 hm)
      · rw [List.mem_singleton.1 hl, mkEnv_star hN, dPatch_star]
        exact hr)
    have hidx : sc.map (mkEnv y r) = ms.map y ++ [r] := by
      rw [hsc, List.map_append, List.map_map]
      simp only [List.map_cons, List.map_nil, mkEnv_star hN]
      congr 1
      exact List.map_congr_left fun m _ => mkEnv_letter hN y r m
    rw [hidx] at henv
    rw [henv, dPatch_lab, dPatch_amp]
    unfold Spec.contractMode
    refine Finset.sum_congr rfl fun x hx => ?_
    unfold lrDelta
    rw [Finset.mul_sum]
    refine Finset.sum_congr rfl fun k hk => ?_
    simp only [List.map_cons, List.map_nil, List.prod_cons, List.prod_nil, mul_one]
    rw [seqV_map hN]
    rw [Function.update_self, Function.update_of_ne (letter_ne_amp (by omega)), Function.update_self,
      Function.update_of_ne (show star ≠ amp by decide),
      Function.update_of_ne (Ne.symm (letter_ne_star (show left.1 ≤ 30 by omega))), mkEnv_star hN]
    have := s4 x (Finset.mem_range.1 hx) k (Finset.mem_range.1 hk)
    simp only [mat] at this ⊢
    rw [this, s3]
    rfl
  obtain ⟨T, t1, t2, t3⟩ := topIs_add h2 hc hD
  refine ⟨u', T, ?_, t2, t3⟩
  unfold patchDT
  simp only [bind, Except.bind]
  rw [s1]
  simp only
  rw [seqInit_eq h2 left, ← hms, ← hsc, ← hlens, d1]
  simp only
  rw [t1]
  rfl

/-- `seq_temp`: the letters of `V` with `'&'` at mode `left`. -/
theorem seqTemp_eq (left : Fin N) :
    ((List.range N).map letter).set left.1 amp =
      List.ofFn (fun m : Fin N => if m = left then amp else letter m.1) := by
  rw [range_letter]
  apply List.ext_getElem
  · simp
  · intro k h1 h2
    rw [List.getElem_set]
    simp only [List.getElem_ofFn]
    by_cases e : left.1 = k
    · rw [if_pos e, if_pos (Fin.ext e.symm)]
    · rw [if_neg e, if_neg (fun h => e (congrArg Fin.val h).symm)]

theorem patchMSDT_ok (h2 : 2 ≤ N) (hN : N ≤ 31) {dims : Fin N → ℕ} {R q : ℕ} {V : Tensor K}
    (hV : V.lens = List.ofFn dims) {left : Fin N} {u : LR K} (hu : LRShape u (dims left) q R)
    {A : ℕ → ℕ → K} {c : Tensor K} (hc : TopIs dims R (arr V N) left A c) :
    ∃ u' c', patchMSDT N q V left.1 u c = .ok (u', c') ∧ Canon c' ∧
      TopIs dims R (arr V N) left (fun x r => A x r + lrDelta q u x r) c' := by
  obtain ⟨u', s1, s2, s3, s4⟩ := scaleU_ok hu
  set ms := nodeModes left (N - 2) (N - 2) with hms
  set sc : List Label := ms.map (fun m => letter m.1) ++ [star] with hsc
  set st : List Label := List.ofFn (fun m : Fin N => if m = left then amp else letter m.1) with hst
  have hmem : ∀ m : Fin N, letter m.1 ∈ sc ↔ m ≠ left := by
    intro m
    rw [hsc, List.mem_append, List.mem_map]
    simp only [List.mem_singleton, letter_ne_star (show m.1 ≤ 30 by omega), or_false]
    rw [← mem_top h2 left]
    constructor
    · rintro ⟨k, hk, e⟩; exact (idLab hN).inj e ▸ hk
    · intro h; exact ⟨m, h, rfl⟩
  have hlens : sc.map (dPatch hN dims R q) = c.lens := by
    rw [hc.1, hsc, List.map_append, List.map_map]
    simp only [List.map_cons, List.map_nil, dPatch_star]
    congr 1
    exact List.map_congr_left fun m _ => dPatch_lab hN dims R q m
  have hampsc : amp ∉ sc := by
    rw [hsc, List.mem_append, List.mem_map]
    rintro (⟨m, _, h⟩ | h)
    · exact letter_ne_amp (by omega) h
    · simp [amp, star] at h
  have hstlens : st.map (dPatch hN dims R q) = V.lens.set left.1 q := by
    rw [hV, hst, List.map_ofFn]
    apply List.ext_getElem
    · simp
    · intro k h1 h2'
      rw [List.getElem_set]
      simp only [List.getElem_ofFn, Function.comp]
      by_cases e : left.1 = k
      · rw [if_pos e, if_pos (Fin.ext e.symm), dPatch_amp]
      · rw [if_neg e, if_neg (fun h => e (congrArg Fin.val h).symm)]
        exact dPatch_lab hN dims R q ⟨k, by simpa using h1⟩
  have hleft : letter left.1 ∉ st := by
    rw [hst, List.mem_ofFn]
    rintro ⟨m, hm⟩
    by_cases e : m = left
    · rw [if_pos e] at hm; exact letter_ne_amp (by omega) hm.symm
    · rw [if_neg e] at hm; exact e ((idLab hN).inj hm)
  have hVrep : Rep V ((List.range N).map letter) (dPatch hN dims R q)
      (fun env => V.val (((List.range N).map letter).map env)) := by
    refine Rep.self ?_
    rw [hV, range_letter, List.map_ofFn]
    congr 1
    funext m
    exact (dPatch_lab hN dims R q m).symm
  obtain ⟨temp, p1, p2, p3⟩ := einsum_two (K := K) (d := dPatch hN dims R q) (sc := st)
    (sa := (List.range N).map letter) (sb := [letter left.1, amp]) hVrep
    (Rep.self (T := u'.U) (by simp [s2.U, dPatch_lab, dPatch_amp])) (letter left.1)
    (Or.inr (by simp)) hleft
    (by
      intro l hl hn
      rw [range_letter, List.mem_ofFn] at hl
      obtain ⟨m, rfl⟩ := hl
      by_contra hne
      apply hn
      rw [hst, List.mem_ofFn]
      exact ⟨m, by rw [if_neg fun e => hne (by rw [e])]⟩)
    (by
      intro l hl hn
      simp only [List.mem_cons, List.not_mem_nil, or_false] at hl
      rcases hl with rfl | rfl
      · rfl
      · exact absurd (by rw [hst, List.mem_ofFn]; exact ⟨left, by simp⟩) hn)
  obtain ⟨D, d1, d2, d3⟩ := einsum_two (K := K) (d := dPatch hN dims R q) (sc := sc)
    (sa := [amp, star]) (sb := st)
    (Rep.self (T := u'.VT) (by simp [s2.VT, dPatch_star, dPatch_amp])) p3 amp
    (Or.inl (by simp)) hampsc
    (by
      intro l hl hn
      simp only [List.mem_cons, List.not_mem_nil, or_false] at hl
      rcases hl with rfl | rfl
      · rfl
      · exact absurd (by simp [hsc]) hn)
    (by
      intro l hl hn
      rw [hst, List.mem_ofFn] at hl
      obtain ⟨m, rfl⟩ := hl
      by_cases e : m = left
      · rw [if_pos e]
      · rw [if_neg e] at hn
        exact absurd ((hmem m).2 e) hn)
  have hD : TopIs dims R (arr V N) left (lrDelta q u) D := by
    refine ⟨by rw [d3.1, hlens, hc.1], ?_⟩
    intro y hy r hr
    have henv := d3.2 (mkEnv y r) (by
      intro l hl
      rw [hsc, List.mem_append, List.mem_map] at hl
      rcases hl with ⟨m, hm, rfl⟩ | hl
      · rw [mkEnv_letter hN, dPatch_lab]
        exact hy m ((mem_top h2 left m).1 hm)
      · rw [List.mem_singleton.1 hl, mkEnv_star hN, dPatch_star]
        exact hr)
    have hidx : sc.map (mkEnv y r) = ms.map y ++ [r] := by
      rw [hsc, List.map_append, List.map_map]
      simp only [List.map_cons, List.map_nil, mkEnv_star hN]
      congr 1
      exact List.map_congr_left fun m _ => mkEnv_letter hN y r m
    rw [hidx] at henv
    rw [henv, dPatch_lab, dPatch_amp]
    unfold Spec.contractMode lrDelta
    simp only [Finset.mul_sum]
    rw [Finset.sum_comm]
    refine Finset.sum_congr rfl fun x hx => Finset.sum_congr rfl fun k hk => ?_
    rw [Function.update_comm (Ne.symm (letter_ne_amp (show left.1 ≤ 30 by omega)))]
    rw [seqV_map hN]
    simp only [List.map_cons, List.map_nil, Function.update_self]
    rw [Function.update_of_ne (letter_ne_amp (by omega)), Function.update_self,
      Function.update_of_ne (show star ≠ amp by decide), mkEnv_star hN]
    have := s4 x (Finset.mem_range.1 hx) k (Finset.mem_range.1 hk)
    simp only [mat] at this ⊢
    rw [this, s3]
    unfold arr
    ring
  obtain ⟨T, t1, t2, t3⟩ := topIs_add h2 hc hD
  refine ⟨u', T, ?_, t2, t3⟩
  unfold patchMSDT
  simp only [bind, Except.bind]
  rw [s1]
  simp only
  rw [seqTemp_eq left, ← hst, ← hstlens, p1]
  simp only
  rw [seqInit_eq h2 left, ← hms, ← hsc, ← hlens, d1]
  simp only
  rw [t1]
  rfl

end

end Model
