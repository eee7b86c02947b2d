import Verif.Model.Common
import Verif.Spec.Common
import Verif.Proofs.KhatriRao

/-! `KhatriRaoProduct` -/

namespace Model

open Finset

variable {K : Type} [CommSemiring K]

/-- Label extents during pass `j`. -/
def krpD (dims : ℕ → ℕ) (R j : ℕ) (l : Label) : ℕ :=
  if l = lk then R else if l = lj then dims j else dims (l - 97).toNat

theorem krpD_letter {dims : ℕ → ℕ} {R j t : ℕ} (ht : t < 9) : krpD dims R j (letter t) = dims t := by
  rw [letter_eq (by omega)]
  unfold krpD lk lj
  rw [if_neg, if_neg]
  · congr 1; omega
  · intro h; change (97 + (t : ℤ)) = 106 at h; omega
  · intro h; change (97 + (t : ℤ)) = 107 at h; omega

theorem mapM_rd {α : Type} {a : List α} {m : ℕ} (h : m ≤ a.length) :
    (List.range m).mapM (fun (t : ℕ) => rd a (t : ℤ)) = .ok (a.take m) := by
  induction m with
  | zero => simp [pure, Except.pure]
  | succ m ih =>
    rw [List.range_succ, List.mapM_append, ih (by omega)]
    simp only [List.mapM_cons, List.mapM_nil, rd_ok (show m < a.length by omega), bind, Except.bind, pure, Except.pure]
    rw [List.take_succ_eq_append_getElem (by omega)]

/-- `T` holds the Khatri-Rao product of `M 0, …, M (j-1)`. -/
def KRIs (dims : ℕ → ℕ) (R : ℕ) (M : ℕ → Tensor K) (j : ℕ) (T : Tensor K) : Prop :=
  T.lens = (List.range j).map dims ++ [R] ∧
  ∀ x : ℕ → ℕ, (∀ t < j, x t < dims t) → ∀ r < R,
    T.val ((List.range j).map x ++ [r]) = Spec.khatriRao j (fun t => mat (M t)) x r

theorem range_map_letter_rep {dims : ℕ → ℕ} {R j : ℕ} (hj : j ≤ 9) {M : ℕ → Tensor K} {T : Tensor K}
    (hT : KRIs dims R M j T) : Rep T ((List.range j).map letter ++ [lk]) (krpD dims R j)
      fun env => Spec.khatriRao j (fun t => mat (M t)) (fun t => env (letter t)) (env lk) := by
  constructor
  · rw [hT.1, List.map_append, List.map_map]
    congr 1
    · refine List.map_congr_left fun t ht => ?_
      rw [List.mem_range] at ht
      exact (krpD_letter (by omega)).symm
  · intro env henv
    rw [List.map_append, List.map_map]
    refine hT.2 (fun t => env (letter t)) (fun t ht => ?_) (env lk) ?_
    · have := henv (letter t) (by simp only [List.mem_append, List.mem_map, List.mem_range]; exact .inl ⟨t, ht, rfl⟩)
      rwa [krpD_letter (by omega)] at this
    · have := henv lk (by simp)
      simpa [krpD] using this

theorem krpStep_ok {W : List (Tensor K)} {index : List ℤ} {lensH : List ℕ} {dims : ℕ → ℕ} {R j m : ℕ} (hj : j ≤ 9) (hjm : j < m)
    {ix : ℕ → ℕ} {M : ℕ → Tensor K} (hI : index = (List.range m).map fun t => (ix t : ℤ))
    (hL : lensH = (List.range m).map dims) (hW : ∀ t < m, W[ix t]? = some (M t)) (hM : ∀ t < m, (M t).lens = [dims t, R])
    {front : Tensor K} (hT : KRIs dims R M j front) :
    ∃ T, krpStep W index lensH R front j = .ok T ∧ KRIs dims R M (j + 1) T := by
  have hn : front.lens.length - 1 = j := by simp [hT.1]
  have hWm : Rep (M j) [lj, lk] (krpD dims R j) fun env => mat (M j) (env lj) (env lk) := by
    constructor
    · rw [hM j hjm]; simp [krpD, lj, lk]
    · intro env _; rfl
  obtain ⟨T, e1, _, e3⟩ := einsum_two_nosum (sc := (List.range j).map letter ++ [lj, lk])
    (range_map_letter_rep hj hT) hWm (by intro l; simp only [List.mem_append, List.mem_cons]; tauto) (by simp)
  have hsc : ((List.range j).map letter ++ [lj, lk]).map (krpD dims R j) = (List.range (j + 1)).map dims ++ [R] := by
    rw [List.map_append, List.map_map, List.range_succ, List.map_append]
    have : (List.range j).map (krpD dims R j ∘ letter) = (List.range j).map dims := by
      refine List.map_congr_left fun t ht => ?_
      rw [List.mem_range] at ht
      exact krpD_letter (by omega)
    rw [this]
    simp [krpD, lj, lk]
  refine ⟨T, ?_, ?_, ?_⟩
  · unfold krpStep
    have h1 : rd index (j : ℤ) = .ok (ix j : ℤ) := by
      rw [hI, rd_ok (by simpa using hjm)]; simp
    have h2 : rd W (ix j : ℤ) = .ok (M j) := by
      have := hW j hjm
      simp [rd, this]
    have h3 : (List.range (j + 1)).mapM (fun (m : ℕ) => rd lensH (m : ℤ)) = .ok ((List.range (j + 1)).map dims) := by
      rw [mapM_rd (by rw [hL, List.length_map, List.length_range]; omega), hL, ← List.map_take]
      congr 2
      rw [List.take_range]
      congr 1; omega
    simp only [hn, h1, h2, h3, bind, Except.bind]
    rw [← hsc]
    exact e1
  · rw [e3.1, hsc]
  · intro x hx r hr
    -- environment
    let env : Label → ℕ := fun l => if l = lk then r else if l = lj then x j else x (l - 97).toNat
    have hl : ∀ t < j, env (letter t) = x t := by
      intro t ht
      exact krpD_letter (dims := x) (R := r) (by omega)
    have := e3.2 env (by
      intro l hl'
      simp only [List.mem_append, List.mem_map, List.mem_range, List.mem_cons, List.not_mem_nil, or_false] at hl'
      rcases hl' with ⟨t, ht, rfl⟩ | rfl | rfl
      · rw [hl t ht, krpD_letter (by omega)]; exact hx t (by omega)
      · simpa [env, krpD, lj, lk] using hx j (by omega)
      · simpa [env, krpD, lj, lk] using hr)
    have hidx : ((List.range j).map letter ++ [lj, lk]).map env = (List.range (j + 1)).map x ++ [r] := by
      rw [List.map_append, List.map_map, List.range_succ, List.map_append]
      have : (List.range j).map (env ∘ letter) = (List.range j).map x := by
        refine List.map_congr_left fun t ht => ?_
        rw [List.mem_range] at ht
        exact hl t ht
      rw [this]
      simp [env, lj, lk]
    rw [← hidx, this]
    simp only [Spec.khatriRao]
    rw [prod_range_succ]
    have he1 : env lj = x j := by simp [env, lj, lk]
    have he2 : env lk = r := by simp [env]
    rw [he1, he2]
    congr 1
    exact prod_congr rfl fun t ht => by rw [hl t (mem_range.1 ht)]

theorem krpFold_ok {W : List (Tensor K)} {index : List ℤ} {lensH : List ℕ} {dims : ℕ → ℕ} {R m : ℕ}
    {ix : ℕ → ℕ} {M : ℕ → Tensor K} (hI : index = (List.range m).map fun t => (ix t : ℤ))
    (hL : lensH = (List.range m).map dims) (hW : ∀ t < m, W[ix t]? = some (M t)) (hM : ∀ t < m, (M t).lens = [dims t, R])
    (j : ℕ) (hj : j + 1 ≤ m) (h10 : j + 1 ≤ 10) :
    ∃ T, (List.range' 1 j).foldlM (krpStep W index lensH R) (M 0) = .ok T ∧ KRIs dims R M (j + 1) T := by
  induction j with
  | zero =>
    refine ⟨M 0, rfl, ?_, ?_⟩
    · simp [hM 0 (by omega)]
    · intro x _ r _
      simp [Spec.khatriRao, mat]
  | succ j ih =>
    obtain ⟨T, h1, h2⟩ := ih (by omega) (by omega)
    obtain ⟨T', h3, h4⟩ := krpStep_ok (j := j + 1) (by omega) (by omega) hI hL hW hM h2
    refine ⟨T', ?_, h4⟩
    rw [List.range'_concat, List.foldlM_append, h1]
    simp only [bind, Except.bind, List.foldlM_cons, List.foldlM_nil, pure, Except.pure, Nat.one_mul]
    rw [Nat.add_comm 1 j, h3]

/-- The array arguments of `KhatriRaoProduct`: `m` indices into the array `W`, matrices with `dims t` rows and `R` columns, and an
output of order `m + 1` whose last edge length is `R`. -/
structure KRPArgs (Hlens : List ℕ) (W : List (Tensor K)) (index : List ℤ) (lensH : List ℕ) (m R : ℕ) (dims ix : ℕ → ℕ)
    (M : ℕ → Tensor K) : Prop where
  order : Hlens.length = m + 1
  last : Hlens[m]? = some R
  pos : 0 < m
  index_eq : index = (List.range m).map fun t => (ix t : ℤ)
  lens_eq : lensH = (List.range m).map dims
  mats : ∀ t < m, W[ix t]? = some (M t)
  shape : ∀ t < m, (M t).lens = [dims t, R]

variable {Hlens : List ℕ} {W : List (Tensor K)} {index : List ℤ} {lensH : List ℕ} {m R : ℕ} {dims ix : ℕ → ℕ} {M : ℕ → Tensor K}

theorem khatriRaoProduct_eq (h : KRPArgs Hlens W index lensH m R dims ix M) :
    khatriRaoProduct Hlens W index lensH = (List.range' 1 (m - 1)).foldlM (krpStep W index lensH R) (M 0) := by
  unfold khatriRaoProduct
  have h0 : rd Hlens ((Hlens.length : ℤ) - 1) = .ok R := by
    have : ((Hlens.length : ℤ) - 1) = (m : ℕ) := by rw [h.order]; push_cast; ring
    rw [this]
    simp [rd, h.last]
  have h1 : rd index 0 = .ok (ix 0 : ℤ) := by
    have := h.pos
    rw [h.index_eq]
    simp [rd, this]
  have h2 : rd W (ix 0 : ℤ) = .ok (M 0) := by
    have := h.mats 0 h.pos
    simp [rd, this]
  simp only [h0, h1, h2, bind, Except.bind]
  rw [h.order, show m + 1 - 2 = m - 1 by omega]

theorem khatriRaoProduct_ok (h : KRPArgs Hlens W index lensH m R dims ix M) (h10 : m ≤ 10) :
    ∃ T, khatriRaoProduct Hlens W index lensH = .ok T ∧ KRIs dims R M m T := by
  have := h.pos
  obtain ⟨T, h1, h2⟩ := krpFold_ok h.index_eq h.lens_eq h.mats h.shape (m - 1) (by omega) (by omega)
  rw [show m - 1 + 1 = m by omega] at h2
  exact ⟨T, by rw [khatriRaoProduct_eq h, h1], h2⟩

theorem foldlM_error {α β : Type} {f : α → β → Except Fault α} {l₁ l₂ : List β} {a b : α} {x : β} {e : Fault}
    (h1 : l₁.foldlM f a = .ok b) (h2 : f b x = .error e) : (l₁ ++ x :: l₂).foldlM f a = .error e := by
  rw [List.foldlM_append, h1]
  simp only [bind, Except.bind, List.foldlM_cons, h2]

/-- The eleventh pass, in which the label `'j'` stands for two modes. -/
theorem krpStep_ten {front : Tensor K} (hm : 10 < m) (h : KRPArgs Hlens W index lensH m R dims ix M) (hT : KRIs dims R M 10 front) :
    krpStep W index lensH R front 10 = einsum ((List.range 11).map dims ++ [R]) ((List.range 10).map letter ++ [lj, lk])
      [(front, (List.range 10).map letter ++ [lk]), (M 10, [lj, lk])] := by
  have hn : front.lens.length - 1 = 10 := by simp [hT.1]
  unfold krpStep
  have h1 : rd index ((10 : ℕ) : ℤ) = .ok (ix 10 : ℤ) := by
    rw [h.index_eq, rd_ok (by simpa using hm)]; simp
  have h2 : rd W (ix 10 : ℤ) = .ok (M 10) := by
    have := h.mats 10 hm
    simp [rd, this]
  have h3 : (List.range (10 + 1)).mapM (fun (m : ℕ) => rd lensH (m : ℤ)) = .ok ((List.range (10 + 1)).map dims) := by
    rw [mapM_rd (by rw [h.lens_eq, List.length_map, List.length_range]; omega), h.lens_eq, ← List.map_take]
    congr 2
    rw [List.take_range]
    congr 1; omega
  simp only [hn, h1, h2, h3, bind, Except.bind]

theorem khatriRaoProduct_abort (h : KRPArgs Hlens W index lensH m R dims ix M) (hm : 11 ≤ m) (hne : dims 9 ≠ dims 10) :
    khatriRaoProduct Hlens W index lensH = .error .abort := by
  obtain ⟨T, h1, h2⟩ := krpFold_ok h.index_eq h.lens_eq h.mats h.shape 9 (by omega) (by omega)
  have hsplit : List.range' 1 (m - 1) = List.range' 1 9 ++ 10 :: List.range' 11 (m - 11) := by
    have : m - 1 = 9 + ((m - 11) + 1) := by omega
    rw [this, ← List.range'_append, List.range'_succ (s := 1 + 1 * 9)]
  rw [khatriRaoProduct_eq h, hsplit]
  refine foldlM_error h1 ?_
  rw [krpStep_ten (by omega) h h2]
  refine einsum_abort (l := lj) (m := dims 9) (n := dims 10) (by simp) ?_ hne ?_ ?_
  · intro o ho
    simp only [List.mem_cons, List.not_mem_nil, or_false] at ho
    rcases ho with rfl | rfl
    · simp [h2.1]
    · simp [h.shape 10 (by omega)]
  · have : ((List.range 10).map letter ++ [lj, lk]).zip ((List.range 11).map dims ++ [R]) =
      [(letter 0, dims 0), (letter 1, dims 1), (letter 2, dims 2), (letter 3, dims 3), (letter 4, dims 4), (letter 5, dims 5),
       (letter 6, dims 6), (letter 7, dims 7), (letter 8, dims 8), (letter 9, dims 9), (lj, dims 10), (lk, R)] := rfl
    rw [this]
    have h9 : letter 9 = lj := by decide
    simp [h9]
  · have : ((List.range 10).map letter ++ [lj, lk]).zip ((List.range 11).map dims ++ [R]) =
      [(letter 0, dims 0), (letter 1, dims 1), (letter 2, dims 2), (letter 3, dims 3), (letter 4, dims 4), (letter 5, dims 5),
       (letter 6, dims 6), (letter 7, dims 7), (letter 8, dims 8), (letter 9, dims 9), (lj, dims 10), (lk, R)] := rfl
    rw [this]
    simp

/-- With eleven matrices, all entries with different tenth and eleventh index are lost. -/
theorem khatriRaoProduct_eleven (h : KRPArgs Hlens W index lensH 11 R dims ix M) (he : dims 9 = dims 10) :
    ∃ T, khatriRaoProduct Hlens W index lensH = .ok T ∧ T.lens = (List.range 11).map dims ++ [R] ∧
      ∀ (x : ℕ → ℕ) (r : ℕ), x 9 ≠ x 10 → T.val ((List.range 11).map x ++ [r]) = 0 := by
  obtain ⟨F, h1, h2⟩ := krpFold_ok h.index_eq h.lens_eq h.mats h.shape 9 (by omega) (by omega)
  have hl : ∀ t < 10, krpD dims R 10 (letter t) = dims t := by
    intro t ht
    rcases Nat.lt_or_ge t 9 with h9 | h9
    · exact krpD_letter h9
    · obtain rfl : t = 9 := by omega
      have : letter 9 = lj := by decide
      rw [this]
      simp [krpD, lj, lk, he]
  have hm : (List.range 10).map (krpD dims R 10 ∘ letter) = (List.range 10).map dims :=
    List.map_congr_left fun t ht => hl t (List.mem_range.1 ht)
  have hsc : ((List.range 10).map letter ++ [lj, lk]).map (krpD dims R 10) = (List.range 11).map dims ++ [R] := by
    rw [List.map_append, List.map_map, hm, List.range_succ (n := 10), List.map_append]
    simp [krpD, lj, lk]
  have he := einsum_eq (K := K) (d := krpD dims R 10) (sc := (List.range 10).map letter ++ [lj, lk])
    (ops := [(F, (List.range 10).map letter ++ [lk]), (M 10, [lj, lk])]) (by
      intro o ho
      simp only [List.mem_cons, List.not_mem_nil, or_false] at ho
      rcases ho with rfl | rfl
      · simp only
        rw [h2.1, List.map_append, List.map_map, hm]; simp [krpD]
      · simp [h.shape 10 (by omega), krpD, lj, lk])
  rw [hsc] at he
  refine ⟨⟨(List.range 11).map dims ++ [R], einsumVal ((List.range 11).map dims ++ [R]) ((List.range 10).map letter ++ [lj, lk]) [(F, (List.range 10).map letter ++ [lk]), (M 10, [lj, lk])]⟩, ?_, rfl, ?_⟩
  · rw [khatriRaoProduct_eq h, show List.range' 1 (11 - 1) = List.range' 1 9 ++ [10] from rfl, List.foldlM_append, h1]
    simp only [bind, Except.bind, List.foldlM_cons, List.foldlM_nil, pure, Except.pure]
    rw [krpStep_ten (by omega) h h2, he]
  · intro x r hx
    simp only [einsumVal]
    rw [if_neg]
    rintro ⟨_, hh⟩
    have h9 := congrArg (fun l => l[9]?) hh
    have h10 := congrArg (fun l => l[10]?) hh
    have e : letter 9 = lj := by decide
    simp [List.range_succ, e] at h9 h10
    exact hx (h9.symm.trans h10)

end Model
