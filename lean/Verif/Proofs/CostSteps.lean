import Verif.Proofs.CostTree

/-! Record of whole DT and MSDT steps. -/

namespace Model

open Spec (Tag Work termsOf storedOf countOf)

variable {K : Type} [CommRing K] {N : ℕ}

/-- What the MTTKRP of position `i` records. -/
def posW (dims : Fin N → ℕ) (R : ℕ) (left : Fin N) (i : ℕ) : List Work :=
  if i = 0 then (List.range (N - 2)).reverse.map fun a => nodeW dims R left a a
  else (List.range i).reverse.map fun a => nodeW dims R left a i

/-- The nodes cached before position `i`. -/
def Cached (N i : ℕ) (cache : Cache K) : Prop :=
  ∀ a b, a ≤ b → b < N - 1 → (Has cache a b ↔ a = N - 2 ∧ b = N - 2 ∨ 0 < i ∧ (a = b ∨ b < i))

theorem treeMC_runs (h3 : 3 ≤ N) (hN : N ≤ 31) {dims : Fin N → ℕ} {R : ℕ} {V : Tensor K} {W : List (Tensor K)}
    (hS : Shaped dims R V W) (left : Fin N) {tree : Tree} (ht : GoodTree (N - 1) tree) {i : ℕ} (hi : i < N - 1)
    {cache : Cache K} (hI : ShapeInv dims R left cache) (hC : Cached N i cache) :
    ∃ M cache', Runs (treeMC N tree V (indexesOf N left.1) W cache i) (M, cache') (posW dims R left i) ∧
      M.lens = [dims (modeAt left i), R] ∧ ShapeInv dims R left cache' ∧ Cached N (i + 1) cache' := by
  have hkey : vec2str [i] = vec2str (node 0 i) := by simp [node]
  obtain ⟨c1, hr, hI1, hC1, hsome⟩ : ∃ c1, Runs (if (cache.lookup (vec2str [i])).isNone then
      mttkrpMapDTC tree (indexesOf N left.1) V W (N + 1) (vec2str [i]) cache
      else pure cache) c1 (posW dims R left i) ∧ ShapeInv dims R left c1 ∧ Cached N (i + 1) c1 ∧ Has c1 0 i := by
    rw [hkey, if_pos (isNone_of_not_has (by
      rw [hC 0 i (by omega) hi]
      omega))]
    by_cases h0 : i = 0
    · subst h0
      obtain ⟨c1, a1, a2, a3⟩ := spine_runs hN hS left ht hI ((hC _ _ (le_refl _) (by omega)).2 (Or.inl ⟨rfl, rfl⟩))
        (N - 3) 0 (N + 1) (by omega) (by omega) (fun a _ h => by
          rw [hC a a (le_refl _) (by omega)]
          omega)
      refine ⟨c1, ?_, a2, ?_, ?_⟩
      · unfold posW
        rw [if_pos rfl, List.range_eq_range', show N - 2 = N - 3 + 1 by omega]
        exact a1
      · intro a b hab hb
        rw [a3 a b hab hb, hC a b hab hb]
        omega
      · rw [a3 0 0 (le_refl _) (by omega)]
        exact Or.inr ⟨by omega, rfl⟩
    · obtain ⟨c1, a1, a2, a3⟩ := right_runs hN hS left ht hi hI ((hC i i (le_refl _) hi).2 (by omega))
        (i - 1) 0 (N + 1) (by omega) (by omega) (fun a _ h => by
          rw [hC a i (by omega) hi]
          omega)
      refine ⟨c1, ?_, a2, ?_, ?_⟩
      · unfold posW
        rw [if_neg h0, List.range_eq_range']
        rw [show i - 1 + 1 = i by omega] at a1
        exact a1
      · intro a b hab hb
        rw [a3 a b hab hb, hC a b hab hb]
        omega
      · rw [a3 0 i (by omega) hi]
        exact Or.inr ⟨by omega, rfl⟩
  obtain ⟨M, hM⟩ := Option.isSome_iff_exists.1 hsome
  refine ⟨M, c1, ?_, ?_, hI1, hC1⟩
  · unfold treeMC
    rw [show posW dims R left i = posW dims R left i ++ [] by rw [List.append_nil]]
    refine hr.bind ?_
    simp only [hkey, hM]
    exact Runs.pure _
  · have := hI1 0 i (by omega) hi M hM
    simpa [nodeModes, node] using this

/-- What a step over the positions `0, …, c-1` records. -/
def stepW (dims : Fin N → ℕ) (R : ℕ) (left : Fin N) (c : ℕ) : List Work :=
  topW dims R left :: (List.range c).flatMap fun i => posW dims R left i ++ updW dims R (modeAt left i)

theorem treeLoopC_runs (h3 : 3 ≤ N) (hN : N ≤ 31) {dims : Fin N → ℕ} {R : ℕ} {V : Tensor K} {f : Fac K}
    (hS : Shaped dims R V f.W) (left : Fin N) {tree : Tree} (ht : GoodTree (N - 1) tree) (lam : K) (solve : Spec.Solver K)
    {c : ℕ} (hc : c ≤ N - 1) :
    ∃ r : Fac K × Cache K, Runs (do
        let cache ← mapInitC N V f.W left.1
        (List.range c).foldlM (treeUpdateC N R lam solve tree V (indexesOf N left.1)) (f, cache) : CM _) r
        (stepW dims R left c) ∧ Shaped dims R V r.1.W := by
  obtain ⟨T, hT, hTl⟩ := topTC_runs (by omega) hN hS left
  obtain ⟨r, h1, h2, _⟩ := Runs.foldlM_range' (α := Fac K × Cache K)
    (f := treeUpdateC N R lam solve tree V (indexesOf N left.1))
    (P := fun i q => Shaped dims R V q.1.W ∧ ShapeInv dims R left q.2 ∧ Cached N i q.2)
    (w := fun i => posW dims R left i ++ updW dims R (modeAt left i)) (s := 0) (n := c)
    (a := (f, [(vec2str (node (N - 2) (N - 2)), T)]))
    ⟨hS, by
      intro j k hj hk T' hT'
      by_cases e : vec2str (node j k) = vec2str (node (N - 2) (N - 2))
      · obtain ⟨rfl, rfl⟩ := vec2str_node_inj hj (by omega) (le_refl _) (by omega) e
        rw [lookup_cons_self] at hT'
        cases hT'
        exact hTl
      · rw [lookup_cons_ne e] at hT'
        simp at hT', by
      intro a b hab hb
      unfold Has
      by_cases e : vec2str (node a b) = vec2str (node (N - 2) (N - 2))
      · obtain ⟨rfl, rfl⟩ := vec2str_node_inj hab (by omega) (le_refl _) (by omega) e
        rw [lookup_cons_self]
        simp
      · rw [lookup_cons_ne e]
        simp only [List.lookup_nil, Option.isSome_none, Bool.false_eq_true, false_iff]
        rintro (⟨rfl, rfl⟩ | h)
        · exact e rfl
        · omega⟩
    (by
      rintro i ⟨a, cache⟩ _ hic ⟨g1, g2, g3⟩
      obtain ⟨M, c1, m1, m2, m3, m4⟩ := treeMC_runs h3 hN g1 left ht (i := i) (by omega) g2 g3
      obtain ⟨b, b1, b2⟩ := updateModeC_runs (by omega) g1 lam solve (modeAt left i) m2
      refine ⟨(b, c1), ?_, b2, m3, m4⟩
      unfold treeUpdateC
      refine m1.bind ((Runs.lift (rd_of (indexesOf_get left (by omega)))).bind0 ?_)
      rw [show updW dims R (modeAt left i) = updW dims R (modeAt left i) ++ [] by rw [List.append_nil]]
      exact b1.bind (Runs.pure _))
  refine ⟨r, ?_, h2⟩
  unfold stepW
  rw [show topW dims R left :: (List.range c).flatMap (fun i => posW dims R left i ++ updW dims R (modeAt left i)) =
    [topW dims R left] ++ (List.range c).flatMap (fun i => posW dims R left i ++ updW dims R (modeAt left i)) from rfl]
  refine Runs.bind (a := [(vec2str (node (N - 2) (N - 2)), T)]) ?_ ?_
  · unfold mapInitC
    rw [show [topW dims R left] = [topW dims R left] ++ [] by rw [List.append_nil], topKey_eq (by omega)]
    exact hT.bind (Runs.pure _)
  · rw [List.range_eq_range']
    exact h1

/-- Number of positions a DT step visits. -/
def dtCount (N : ℕ) (first : Bool) : ℕ := if first then N - 1 else 1

theorem dtStepC_runs (h3 : 3 ≤ N) (hN : N ≤ 31) {dims : Fin N → ℕ} {R : ℕ} {V : Tensor K}
    {o : DTState} {f : Fac K} (ho : DTGood o N) (hsp : o.special = 0)
    (hS : Shaped dims R V f.W) (lam : K) (solve : Spec.Solver K) :
    ∃ f', Runs (dtStepC N R lam solve V (o, f)) ({ o with first := !o.first }, f')
        (stepW dims R ⟨o.left, ho.left_lt⟩ (dtCount N o.first)) ∧ Shaped dims R V f'.W := by
  have hidx : (if o.first then o.indexes1 else o.indexes2) = indexesOf N o.left := by
    unfold DTState.left
    split_ifs
    · exact ho.i1
    · exact ho.i2
  have hpos : dtPositions (N - 1) o.special o.first = List.range (dtCount N o.first) := by
    unfold dtCount
    rw [hsp]
    cases o.first
    · rw [dtPositions_second _ _ (by omega)]; rfl
    · rw [dtPositions_first _ _ (by omega), List.range_eq_range']; rfl
  obtain ⟨r, h1, h2⟩ := treeLoopC_runs h3 hN hS ⟨o.left, ho.left_lt⟩ ho.tree lam solve (c := dtCount N o.first)
    (by unfold dtCount; split_ifs <;> omega)
  refine ⟨r.1, ?_, h2⟩
  intro log
  have h1' := h1 log
  unfold dtStepC
  simp only [hidx]
  rw [show (if o.first = true then o.left1 else o.left2) = o.left from rfl]
  rw [indexesOf_length ⟨o.left, ho.left_lt⟩, hpos]
  simp only [bind, StateT.bind, Except.bind] at h1' ⊢
  cases hc : mapInitC N V f.W o.left log with
  | error e => rw [hc] at h1'; cases h1'
  | ok p =>
    rw [hc] at h1'
    simp only at h1' ⊢
    rw [h1']
    rfl

theorem msdtStepC_runs (h3 : 3 ≤ N) (hN : N ≤ 31) {dims : Fin N → ℕ} {R : ℕ} {V : Tensor K}
    {o : MSDTState} {f : Fac K} (ho : GoodTree (N - 1) o.tree)
    (hS : Shaped dims R V f.W) (lam : K) (solve : Spec.Solver K) :
    ∃ o' f', Runs (msdtStepC N R lam solve V (o, f)) (o', f')
        (stepW dims R ⟨(o.left + N - 1) % N, Nat.mod_lt _ (by omega)⟩ (N - 1)) ∧
      o'.left = (o.left + N - 1) % N ∧ o'.tree = o.tree ∧ Shaped dims R V f'.W := by
  have hlt : (o.left + N - 1) % N < N := Nat.mod_lt _ (by omega)
  obtain ⟨r, h1, h2⟩ := treeLoopC_runs h3 hN hS ⟨(o.left + N - 1) % N, hlt⟩ ho lam solve (c := N - 1) (le_refl _)
  refine ⟨⟨(o.left + N - 1) % N, indexesOf N ((o.left + N - 1) % N), o.tree⟩, r.1, ?_, rfl, rfl, h2⟩
  intro log
  have h1' := h1 log
  unfold msdtStepC
  simp only
  rw [indexesOf_length ⟨(o.left + N - 1) % N, hlt⟩]
  simp only [bind, StateT.bind, Except.bind] at h1' ⊢
  cases hc : mapInitC N V f.W ((o.left + N - 1) % N) log with
  | error e => rw [hc] at h1'; cases h1'
  | ok p =>
    rw [hc] at h1'
    simp only at h1' ⊢
    rw [h1']
    rfl

/-! ### sums -/

theorem termsOf_append (t : Tag) (a b : List Work) : termsOf t (a ++ b) = termsOf t a + termsOf t b := by
  simp [termsOf]

theorem storedOf_append (t : Tag) (a b : List Work) : storedOf t (a ++ b) = storedOf t a + storedOf t b := by
  simp [storedOf]

theorem countOf_append (t : Tag) (a b : List Work) : countOf t (a ++ b) = countOf t a + countOf t b := by
  simp [countOf]

theorem termsOf_flatMap (t : Tag) (w : ℕ → List Work) (c : ℕ) :
    termsOf t ((List.range c).flatMap w) = ∑ i ∈ Finset.range c, termsOf t (w i) := by
  induction c with
  | zero => rfl
  | succ c ih => rw [List.range_succ, List.flatMap_append, termsOf_append, ih, Finset.sum_range_succ]; simp

theorem storedOf_flatMap (t : Tag) (w : ℕ → List Work) (c : ℕ) :
    storedOf t ((List.range c).flatMap w) = ∑ i ∈ Finset.range c, storedOf t (w i) := by
  induction c with
  | zero => rfl
  | succ c ih => rw [List.range_succ, List.flatMap_append, storedOf_append, ih, Finset.sum_range_succ]; simp

theorem countOf_flatMap (t : Tag) (w : ℕ → List Work) (c : ℕ) :
    countOf t ((List.range c).flatMap w) = ∑ i ∈ Finset.range c, countOf t (w i) := by
  induction c with
  | zero => rfl
  | succ c ih => rw [List.range_succ, List.flatMap_append, countOf_append, ih, Finset.sum_range_succ]; simp

theorem gramW_mttkrp (dims : Fin N → ℕ) (R : ℕ) (index : List ℕ) :
    termsOf .mttkrp (gramW dims R index) = 0 ∧ storedOf .mttkrp (gramW dims R index) = 0 ∧
      countOf .mttkrp (gramW dims R index) = 0 := by
  induction index with
  | nil => exact ⟨rfl, rfl, rfl⟩
  | cons a l ih =>
    have : gramW dims R (a :: l) = [⟨.update, R * R * dimN dims a, R * R⟩] ++ gramW dims R l := rfl
    rw [this, termsOf_append, storedOf_append, countOf_append, ih.1, ih.2.1, ih.2.2]
    simp [termsOf, storedOf, countOf]

/-- Sums over records without an expression of the kind are zero. -/
theorem sums_zero {t : Tag} {w : List Work} (h : ∀ e ∈ w, e.tag ≠ t) : termsOf t w = 0 ∧ countOf t w = 0 ∧ storedOf t w = 0 := by
  induction w with
  | nil => exact ⟨rfl, rfl, rfl⟩
  | cons a l ih =>
    have ha := h a (by simp)
    obtain ⟨i1, i2, i3⟩ := ih fun e he => h e (by simp [he])
    rw [show a :: l = [a] ++ l from rfl, termsOf_append, storedOf_append, countOf_append, i1, i2, i3]
    simp [termsOf, storedOf, countOf, ha]

theorem updW_tag (dims : Fin N → ℕ) (R : ℕ) (i : Fin N) : ∀ e ∈ updW dims R i, e.tag = .update := by
  intro e he
  unfold updW gramW gradW at he
  simp only [List.mem_append, List.mem_map, List.mem_singleton] at he
  rcases he with ⟨m, _, rfl⟩ | rfl <;> rfl

theorem posW_tag (dims : Fin N → ℕ) (R : ℕ) (left : Fin N) (i : ℕ) : ∀ e ∈ posW dims R left i, e.tag = .mttkrp := by
  intro e he
  unfold posW at he
  split_ifs at he
  all_goals
    obtain ⟨a, _, rfl⟩ := List.mem_map.1 he
    rfl

/-- A step reads the input tensor once. -/
theorem stepW_input (dims : Fin N → ℕ) (R : ℕ) (left : Fin N) (c : ℕ) :
    termsOf .input (stepW dims R left c) = (∏ m, dims m) * R ∧ countOf .input (stepW dims R left c) = 1 ∧
      storedOf .input (stepW dims R left c) = firstProd dims left (N - 1) * R := by
  unfold stepW
  rw [show ∀ l, topW dims R left :: l = [topW dims R left] ++ l from fun _ => rfl, termsOf_append, countOf_append, storedOf_append]
  obtain ⟨z1, z2, z3⟩ := sums_zero (t := .input)
    (w := (List.range c).flatMap fun i => posW dims R left i ++ updW dims R (modeAt left i)) (by
      intro e he
      obtain ⟨i, _, he⟩ := List.mem_flatMap.1 he
      rcases List.mem_append.1 he with he | he
      · rw [posW_tag dims R left i e he]; decide
      · rw [updW_tag dims R _ e he]; decide)
  rw [z1, z2, z3]
  simp [termsOf, countOf, storedOf, topW]

theorem gramW_update (dims : Fin N → ℕ) (R : ℕ) (index : List ℕ) :
    termsOf .update (gramW dims R index) = (index.map (dimN dims)).sum * (R * R) := by
  induction index with
  | nil => simp [gramW, termsOf]
  | cons a l ih =>
    have : gramW dims R (a :: l) = [⟨.update, R * R * dimN dims a, R * R⟩] ++ gramW dims R l := rfl
    rw [this, termsOf_append, ih]
    simp [termsOf]
    ring

theorem sum_othersN (dims : Fin N → ℕ) (i : Fin N) {index : List ℕ} (hmem : ∀ m, m ∈ index ↔ m < N ∧ m ≠ i.1)
    (hnd : index.Nodup) : (index.map (dimN dims)).sum + dims i = ∑ m, dims m := by
  rw [← List.sum_toFinset _ hnd]
  have h1 : index.toFinset = (Finset.range N).erase i.1 := by
    ext m
    simp [hmem]
    tauto
  rw [h1, ← dimN_val dims i, Finset.sum_erase_add _ _ (by simp)]
  rw [Finset.sum_range]
  exact Finset.sum_congr rfl fun m _ => dimN_val dims m

theorem updW_update (dims : Fin N → ℕ) (R : ℕ) (i : Fin N) :
    termsOf .update (updW dims R i) = (∑ m, dims m) * (R * R) := by
  unfold updW
  rw [termsOf_append, gramW_update, ← sum_othersN dims i (fun _ => mem_othersOf i.2) (othersOf_nodup _)]
  simp [gradW, termsOf]
  ring

theorem updW_mttkrp (dims : Fin N → ℕ) (R : ℕ) (i : Fin N) :
    termsOf .mttkrp (updW dims R i) = 0 ∧ storedOf .mttkrp (updW dims R i) = 0 ∧ countOf .mttkrp (updW dims R i) = 0 := by
  unfold updW
  rw [termsOf_append, storedOf_append, countOf_append, (gramW_mttkrp dims R _).1, (gramW_mttkrp dims R _).2.1,
    (gramW_mttkrp dims R _).2.2]
  exact ⟨rfl, rfl, rfl⟩

theorem nodes_sums (dims : Fin N → ℕ) (R : ℕ) (left : Fin N) (g : ℕ → ℕ) (c : ℕ) :
    termsOf .mttkrp ((List.range c).reverse.map fun a => nodeW dims R left a (g a)) =
        ∑ a ∈ Finset.range c, (nodeW dims R left a (g a)).terms ∧
      storedOf .mttkrp ((List.range c).reverse.map fun a => nodeW dims R left a (g a)) =
        ∑ a ∈ Finset.range c, (nodeW dims R left a (g a)).out ∧
      termsOf .update ((List.range c).reverse.map fun a => nodeW dims R left a (g a)) = 0 ∧
      countOf .mttkrp ((List.range c).reverse.map fun a => nodeW dims R left a (g a)) = c := by
  induction c with
  | zero => exact ⟨rfl, rfl, rfl, rfl⟩
  | succ c ih =>
    rw [List.range_succ, List.reverse_append, List.reverse_singleton, List.map_append, termsOf_append, termsOf_append,
      storedOf_append, countOf_append, ih.1, ih.2.1, ih.2.2.1, ih.2.2.2, Finset.sum_range_succ, Finset.sum_range_succ]
    refine ⟨?_, ?_, ?_, ?_⟩ <;> simp [termsOf, storedOf, countOf, nodeW] <;> ring

/-- Products added up below the top of the tree for the positions `0, …, c-1`, exactly. -/
def treeTerms (dims : Fin N → ℕ) (R : ℕ) (left : Fin N) (c : ℕ) : ℕ :=
  ∑ i ∈ Finset.range c, termsOf .mttkrp (posW dims R left i)

theorem stepW_mttkrp (dims : Fin N → ℕ) (R : ℕ) (left : Fin N) (c : ℕ) :
    termsOf .mttkrp (stepW dims R left c) = treeTerms dims R left c := by
  unfold stepW treeTerms
  rw [show ∀ l, topW dims R left :: l = [topW dims R left] ++ l from fun _ => rfl, termsOf_append, termsOf_flatMap]
  rw [show termsOf .mttkrp [topW dims R left] = 0 from rfl, zero_add]
  apply Finset.sum_congr rfl
  intro i _
  rw [termsOf_append, (updW_mttkrp dims R _).1, add_zero]

theorem posW_update (dims : Fin N → ℕ) (R : ℕ) (left : Fin N) (i : ℕ) : termsOf .update (posW dims R left i) = 0 := by
  unfold posW
  split_ifs
  · exact (nodes_sums dims R left (fun a => a) _).2.2.1
  · exact (nodes_sums dims R left (fun _ => i) _).2.2.1

theorem stepW_update (dims : Fin N → ℕ) (R : ℕ) (left : Fin N) (c : ℕ) :
    termsOf .update (stepW dims R left c) = c * ((∑ m, dims m) * (R * R)) := by
  unfold stepW
  rw [show ∀ l, topW dims R left :: l = [topW dims R left] ++ l from fun _ => rfl, termsOf_append, termsOf_flatMap]
  rw [Finset.sum_congr rfl (fun i _ => by rw [termsOf_append, posW_update, updW_update])]
  simp [termsOf, topW]


/-! ### exact sums and bounds -/

theorem firstProd_succ (dims : Fin N → ℕ) (left : Fin N) (j : ℕ) :
    firstProd dims left (j + 1) = firstProd dims left j * dims (modeAt left j) := by
  unfold firstProd
  rw [Finset.prod_range_succ]

theorem firstProd_last (dims : Fin N → ℕ) (left : Fin N) : firstProd dims left (N - 1) * dims left = ∏ m, dims m := by
  have hN : 0 < N := by have := left.2; omega
  have h := firstProd_succ dims left (N - 1)
  rw [modeAt_last] at h
  rw [← h, show N - 1 + 1 = N by omega]
  unfold firstProd
  rw [Finset.prod_range]
  apply Finset.prod_nbij' (i := fun p : Fin N => modeAt left p.1) (j := fun m : Fin N => (⟨posOf left m, posOf_lt left m⟩ : Fin N))
  · simp
  · simp
  · intro p _
    exact Fin.ext (posOf_modeAt left p.2)
  · intro m _
    exact modeAt_posOf left m
  · intro p _
    rfl

theorem posW_zero (dims : Fin N → ℕ) (R : ℕ) (left : Fin N) :
    termsOf .mttkrp (posW dims R left 0) = (∑ a ∈ Finset.range (N - 2), firstProd dims left (a + 2)) * R ∧
      storedOf .mttkrp (posW dims R left 0) = (∑ a ∈ Finset.range (N - 2), firstProd dims left (a + 1)) * R ∧
      countOf .mttkrp (posW dims R left 0) = N - 2 := by
  obtain ⟨h1, h2, _, h4⟩ := nodes_sums dims R left (fun a => a) (N - 2)
  unfold posW
  rw [if_pos rfl, h1, h2, h4, Finset.sum_mul, Finset.sum_mul]
  refine ⟨Finset.sum_congr rfl fun a _ => ?_, Finset.sum_congr rfl fun a _ => ?_, rfl⟩
  · simp [nodeW]
  · simp [nodeW, firstProd_succ]

theorem posW_pos (dims : Fin N → ℕ) (R : ℕ) (left : Fin N) {i : ℕ} (hi : 0 < i) :
    termsOf .mttkrp (posW dims R left i) =
        (∑ a ∈ Finset.range i, firstProd dims left (a + 1)) * dims (modeAt left i) * R ∧
      storedOf .mttkrp (posW dims R left i) = (∑ a ∈ Finset.range i, firstProd dims left a) * dims (modeAt left i) * R ∧
      countOf .mttkrp (posW dims R left i) = i := by
  obtain ⟨h1, h2, _, h4⟩ := nodes_sums dims R left (fun _ => i) i
  unfold posW
  rw [if_neg (by omega), h1, h2, h4, Finset.sum_mul, Finset.sum_mul, Finset.sum_mul, Finset.sum_mul]
  refine ⟨Finset.sum_congr rfl fun a ha => ?_, Finset.sum_congr rfl fun a _ => ?_, rfl⟩
  · have := Finset.mem_range.1 ha
    simp [nodeW, this]
  · simp [nodeW]

section bounds

variable {dims : Fin N → ℕ} (hd : ∀ m, 2 ≤ dims m) (left : Fin N)
include hd

theorem sum_firstProd_le (c : ℕ) : ∑ a ∈ Finset.range c, firstProd dims left a ≤ firstProd dims left c := by
  induction c with
  | zero => simp
  | succ c ih =>
    rw [Finset.sum_range_succ, firstProd_succ]
    have h2 := hd (modeAt left c)
    nlinarith

theorem sum_firstProd_le' (c : ℕ) : ∑ a ∈ Finset.range c, firstProd dims left (a + 1) ≤ 2 * firstProd dims left c := by
  have h := sum_firstProd_le hd left (c + 1)
  rw [Finset.sum_range_succ'] at h
  have h1 := sum_firstProd_le hd left c
  have h2 : ∑ a ∈ Finset.range c, firstProd dims left (a + 1) + firstProd dims left 0 =
    ∑ a ∈ Finset.range c, firstProd dims left a + firstProd dims left c := by
    rw [← Finset.sum_range_succ', Finset.sum_range_succ]
  omega

theorem sum_firstProd_le'' (c : ℕ) : ∑ a ∈ Finset.range c, firstProd dims left (a + 2) ≤ 2 * firstProd dims left (c + 1) := by
  have h := sum_firstProd_le' hd left (c + 1)
  rw [Finset.sum_range_succ'] at h
  exact le_trans (Nat.le_add_right _ _) h

theorem treeTerms_one (hN : 2 ≤ N) (R : ℕ) : treeTerms dims R left 1 ≤ 2 * (firstProd dims left (N - 1) * R) := by
  unfold treeTerms
  rw [Finset.sum_range_one, (posW_zero dims R left).1, ← mul_assoc]
  apply Nat.mul_le_mul_right
  have := sum_firstProd_le'' hd left (N - 2)
  rwa [show N - 2 + 1 = N - 1 by omega] at this

theorem treeTerms_all (hN : 2 ≤ N) (R : ℕ) : treeTerms dims R left (N - 1) ≤ 6 * (firstProd dims left (N - 1) * R) := by
  have h1 := treeTerms_one hd left hN R
  unfold treeTerms at h1 ⊢
  rw [show N - 1 = N - 2 + 1 by omega, Finset.sum_range_succ']
  rw [Finset.sum_range_one] at h1
  have h2 : ∑ i ∈ Finset.range (N - 2), termsOf .mttkrp (posW dims R left (i + 1)) ≤
      ∑ i ∈ Finset.range (N - 2), 2 * firstProd dims left (i + 2) * R := by
    apply Finset.sum_le_sum
    intro i _
    rw [(posW_pos dims R left (Nat.succ_pos i)).1]
    apply Nat.mul_le_mul_right
    rw [firstProd_succ dims left (i + 1), ← mul_assoc]
    exact Nat.mul_le_mul_right _ (sum_firstProd_le' hd left (i + 1))
  rw [← Finset.sum_mul, ← Finset.mul_sum] at h2
  have h3 := Nat.mul_le_mul_right R (Nat.mul_le_mul_left 2 (sum_firstProd_le'' hd left (N - 2)))
  rw [show N - 1 = N - 2 + 1 by omega] at h1
  nlinarith

theorem stored_all (hN : 2 ≤ N) (R : ℕ) {c : ℕ} (hc : c ≤ N - 1) :
    storedOf .input (stepW dims R left c) + storedOf .mttkrp (stepW dims R left c) ≤ 4 * (firstProd dims left (N - 1) * R) := by
  rw [(stepW_input dims R left c).2.2]
  unfold stepW
  rw [show ∀ l, topW dims R left :: l = [topW dims R left] ++ l from fun _ => rfl, storedOf_append, storedOf_flatMap]
  have h0 : storedOf .mttkrp [topW dims R left] = 0 := rfl
  have e : ∀ i, storedOf .mttkrp (posW dims R left i ++ updW dims R (modeAt left i)) = storedOf .mttkrp (posW dims R left i) :=
    fun i => by rw [storedOf_append, (updW_mttkrp dims R _).2.1, add_zero]
  rw [h0, Finset.sum_congr rfl fun i _ => e i]
  have hle : ∑ i ∈ Finset.range c, storedOf .mttkrp (posW dims R left i) ≤
      ∑ i ∈ Finset.range (N - 2 + 1), storedOf .mttkrp (posW dims R left i) :=
    Finset.sum_le_sum_of_subset (Finset.range_subset_range.2 (by omega))
  rw [Finset.sum_range_succ'] at hle
  have h2 : ∑ i ∈ Finset.range (N - 2), storedOf .mttkrp (posW dims R left (i + 1)) ≤
      ∑ i ∈ Finset.range (N - 2), firstProd dims left (i + 2) * R := by
    apply Finset.sum_le_sum
    intro i _
    rw [(posW_pos dims R left (Nat.succ_pos i)).2.1]
    apply Nat.mul_le_mul_right
    rw [firstProd_succ dims left (i + 1)]
    exact Nat.mul_le_mul_right _ (sum_firstProd_le hd left (i + 1))
  rw [← Finset.sum_mul] at h2
  have h3 := Nat.mul_le_mul_right R (sum_firstProd_le'' hd left (N - 2))
  have h4 : storedOf .mttkrp (posW dims R left 0) ≤ firstProd dims left (N - 1) * R := by
    rw [(posW_zero dims R left).2.1]
    apply Nat.mul_le_mul_right
    have := sum_firstProd_le hd left (N - 2 + 1)
    rw [Finset.sum_range_succ', show N - 2 + 1 = N - 1 by omega] at this
    omega
  rw [show N - 2 + 1 = N - 1 by omega] at h3
  nlinarith

end bounds

end Model
