import Verif.Proofs.Valid
import Verif.Proofs.DTTree

namespace Model

open Finset

variable {K : Type} {N : ℕ}

/-! ### positions and modes -/

/-- The mode at position `p` of the cyclic list starting after `left` (position `N-1` is `left` itself). -/
def modeAt (left : Fin N) (p : ℕ) : Fin N := ⟨(left.1 + 1 + p) % N, Nat.mod_lt _ (by have := left.2; omega)⟩

/-- The position of a mode. -/
def posOf (left : Fin N) (m : Fin N) : ℕ := (m.1 + N - (left.1 + 1)) % N

theorem modeAt_val (left : Fin N) {p : ℕ} (hp : p < N) :
    (modeAt left p).1 = if left.1 + 1 + p < N then left.1 + 1 + p else left.1 + 1 + p - N := by
  have := left.2
  simp only [modeAt]
  split_ifs with h
  · exact Nat.mod_eq_of_lt h
  · rw [Nat.mod_eq_sub_mod (by omega), Nat.mod_eq_of_lt (by omega)]

theorem posOf_val (left m : Fin N) :
    posOf left m = if left.1 + 1 ≤ m.1 then m.1 - (left.1 + 1) else m.1 + N - (left.1 + 1) := by
  have := left.2
  have := m.2
  simp only [posOf]
  split_ifs with h
  · rw [show m.1 + N - (left.1 + 1) = (m.1 - (left.1 + 1)) + N by omega, Nat.add_mod_right,
      Nat.mod_eq_of_lt (by omega)]
  · exact Nat.mod_eq_of_lt (by omega)

theorem posOf_lt (left m : Fin N) : posOf left m < N := Nat.mod_lt _ (by have := left.2; omega)

theorem posOf_modeAt (left : Fin N) {p : ℕ} (hp : p < N) : posOf left (modeAt left p) = p := by
  have := left.2
  rw [posOf_val, modeAt_val left hp]
  split_ifs <;> omega

theorem modeAt_posOf (left m : Fin N) : modeAt left (posOf left m) = m := by
  have := left.2
  have := m.2
  apply Fin.ext
  rw [modeAt_val left (posOf_lt left m), posOf_val]
  split_ifs <;> omega

theorem modeAt_inj (left : Fin N) {p q : ℕ} (hp : p < N) (hq : q < N)
    (h : modeAt left p = modeAt left q) : p = q := by
  rw [← posOf_modeAt left hp, h, posOf_modeAt left hq]

theorem modeAt_last (left : Fin N) : modeAt left (N - 1) = left := by
  have := left.2
  apply Fin.ext
  rw [modeAt_val left (by omega)]
  split_ifs <;> omega

theorem indexesOf_length (left : Fin N) : (indexesOf N left.1).length = N - 1 := by
  have := left.2
  simp [indexesOf]; omega

theorem indexesOf_get (left : Fin N) {p : ℕ} (hp : p < N - 1) :
    (indexesOf N left.1)[p]? = some (modeAt left p).1 := by
  have := left.2
  have hlen := indexesOf_length left
  rw [List.getElem?_eq_getElem (by omega)]
  congr 1
  rw [modeAt_val left (by omega)]
  unfold indexesOf
  rw [List.getElem_append]
  simp only [List.length_range']
  split_ifs with h1 h2 h2
  · simp
  · omega
  · omega
  · simp; omega

theorem indexesOf_eq (left : Fin N) :
    indexesOf N left.1 = (List.range (N - 1)).map fun p => (modeAt left p).1 := by
  apply List.ext_getElem?
  intro p
  by_cases hp : p < N - 1
  · rw [indexesOf_get left hp]; simp [hp]
  · rw [List.getElem?_eq_none (by rw [indexesOf_length]; omega), List.getElem?_eq_none (by simp; omega)]

/-- Labels of a step with left-out mode `left`: the letter of the position. -/
def posLab (hN : N ≤ 31) (left : Fin N) : Labelling N where
  lab m := letter (posOf left m)
  rk := star
  inj := fun a b h => by
    have h' := letter_inj (by have := posOf_lt left a; omega) (by have := posOf_lt left b; omega) h
    rw [← modeAt_posOf left a, h', modeAt_posOf]
  ne := fun m => letter_ne_star (by have := posOf_lt left m; omega)

/-- Labels of the first contraction: the letter of the mode. -/
def idLab (hN : N ≤ 31) : Labelling N where
  lab m := letter m.1
  rk := star
  inj := fun a b h => Fin.ext (letter_inj (by omega) (by omega) h)
  ne := fun m => letter_ne_star (by omega)

/-- Modes of the tree node `(j,k)`. -/
def nodeModes (left : Fin N) (j k : ℕ) : List (Fin N) := (node j k).map (modeAt left)

theorem mem_nodeModes {left m : Fin N} {j k : ℕ} (hj : j ≤ k) (hk : k < N) :
    m ∈ nodeModes left j k ↔ posOf left m < j ∨ posOf left m = k := by
  simp only [nodeModes, List.mem_map, mem_node]
  constructor
  · rintro ⟨a, ha, rfl⟩
    rw [posOf_modeAt left (by omega)]
    exact ha
  · intro h
    exact ⟨posOf left m, h, modeAt_posOf left m⟩

theorem vec2str_eq_lab (hN : N ≤ 31) (left : Fin N) {v : List ℕ} (hv : ∀ p ∈ v, p < N) :
    vec2str v = (v.map (modeAt left)).map (posLab hN left).lab ++ [(posLab hN left).rk] := by
  unfold vec2str
  rw [List.map_map]
  congr 1
  apply List.map_congr_left
  intro p hp
  simp [posLab, posOf_modeAt left (hv p hp)]

theorem lookup_cons_self {α : Type} (k : Key) (v : α) (m : List (Key × α)) :
    ((k, v) :: m).lookup k = some v := by simp [List.lookup]

theorem lookup_cons_ne {α : Type} {k k' : Key} (h : k' ≠ k) (v : α) (m : List (Key × α)) :
    ((k, v) :: m).lookup k' = m.lookup k' := by
  have : (k' == k) = false := by simpa using h
  simp [List.lookup, this]

variable [CommRing K]

omit [CommRing K] in
theorem rd_lens {dims : Fin N → ℕ} {R : ℕ} {V : Tensor K} {W : List (Tensor K)}
    (hS : Shaped dims R V W) (m : Fin N) : rd V.lens ((m.1 : ℕ) : ℤ) = .ok (dims m) := by
  apply rd_of
  rw [hS.lensV]
  simp

omit [CommRing K] in
theorem rd_ncol {dims : Fin N → ℕ} {R : ℕ} {V : Tensor K} {W : List (Tensor K)}
    (hS : Shaped dims R V W) (h : 0 < N) :
    (do let W0 ← rd W 0; pure (ncol W0) : Except Fault ℕ) = .ok R := by
  obtain ⟨M, h1, h2⟩ := hS.get ⟨0, h⟩
  rw [show (0 : ℤ) = ((0 : ℕ) : ℤ) from rfl, rd_of h1]
  simp [bind, Except.bind, pure, Except.pure, ncol, h2]

theorem mapM_append_ok {α β : Type} {f : α → Except Fault β} {l l' : List α} {a b : List β}
    (h : l.mapM f = .ok a) (h' : l'.mapM f = .ok b) : (l ++ l').mapM f = .ok (a ++ b) := by
  rw [List.mapM_append, h, h']
  rfl

theorem mapM_map_ok {α β γ : Type} {f : β → Except Fault γ} {e : α → β} {g : α → γ} {l : List α}
    (h : ∀ a ∈ l, f (e a) = .ok (g a)) : (l.map e).mapM f = .ok (l.map g) := by
  induction l with
  | nil => rfl
  | cons a l ih =>
    rw [List.map_cons, List.mapM_cons, h a (by simp), ih (fun b hb => h b (by simp [hb]))]
    rfl

omit [CommRing K] in
theorem lensInit_ok (hN : N ≤ 31) {dims : Fin N → ℕ} {R : ℕ} {V : Tensor K} {W : List (Tensor K)}
    (hS : Shaped dims R V W) (h : 0 < N) (ms : List (Fin N)) :
    lensInit V W (ms.map (fun m => letter m.1) ++ [star]) = .ok (ms.map dims ++ [R]) := by
  unfold lensInit
  apply mapM_append_ok
  · apply mapM_map_ok
    intro m _
    rw [if_neg (letter_ne_star (by omega)), decode_letter (by omega)]
    exact rd_lens hS m
  · rw [List.mapM_cons, if_pos rfl, rd_ncol hS h]
    rfl

omit [CommRing K] in
theorem lensNode_ok (hN : N ≤ 31) {dims : Fin N → ℕ} {R : ℕ} {V : Tensor K} {W : List (Tensor K)}
    (hS : Shaped dims R V W) (left : Fin N) {v : List ℕ} (hv : ∀ p ∈ v, p < N - 1) :
    lensNode V W (indexesOf N left.1) (vec2str v) = .ok ((v.map (modeAt left)).map dims ++ [R]) := by
  have := left.2
  unfold lensNode vec2str
  apply mapM_append_ok
  · rw [List.map_map]
    apply mapM_map_ok
    intro p hp
    have := hv p hp
    rw [if_neg (letter_ne_star (by omega)), decode_letter (by omega)]
    simp only [bind, Except.bind]
    rw [rd_of (indexesOf_get left (by omega))]
    exact rd_lens hS _
  · rw [List.mapM_cons, if_pos rfl, rd_ncol hS (by omega)]
    rfl

theorem topT_ok (h2 : 2 ≤ N) (hN : N ≤ 31) {dims : Fin N → ℕ} {R : ℕ} {V : Tensor K} {W : List (Tensor K)}
    (hS : Shaped dims R V W) (left : Fin N) :
    ∃ T, topT N V W left.1 = .ok T ∧ Canon T ∧
      Valid dims R (arr V N) (mats W) T (nodeModes left (N - 2) (N - 2)) := by
  obtain ⟨Wl, hr, _, hl, he⟩ := mats_get hS left
  have hidx : (indexesOf N left.1).map letter ++ [star] =
      (nodeModes left (N - 2) (N - 2)).map (idLab hN).lab ++ [(idLab hN).rk] := by
    rw [indexesOf_eq, nodeModes, node_self, show N - 2 + 1 = N - 1 by omega]
    simp only [List.map_map]
    rfl
  obtain ⟨T, h1, hc, h3⟩ := contract_valid_init (idLab hN) (W := mats W) hS.lensV (j := left)
    (ms' := nodeModes left (N - 2) (N - 2)) hl he.symm (by
      ext m
      simp only [List.mem_toFinset, Finset.mem_erase, Finset.mem_univ, and_true]
      rw [mem_nodeModes (le_refl _) (by omega)]
      have h1 := posOf_lt left m
      have h2 : posOf left m = N - 1 ↔ m = left := by
        constructor
        · intro h; rw [← modeAt_posOf left m, h, modeAt_last]
        · rintro rfl
          have := posOf_modeAt m (p := N - 1) (by omega)
          rwa [modeAt_last] at this
      rw [Ne, ← h2]
      omega)
  refine ⟨T, ?_, hc, h3⟩
  unfold topT
  have hlen := lensInit_ok hN hS (by omega) (nodeModes left (N - 2) (N - 2))
  simp only [bind, Except.bind]
  rw [hidx]
  rw [show (nodeModes left (N - 2) (N - 2)).map (idLab hN).lab ++ [(idLab hN).rk] =
    (nodeModes left (N - 2) (N - 2)).map (fun m => letter m.1) ++ [star] from rfl] at h1 ⊢
  rw [hlen]
  simp only
  rw [hr]
  rw [range_letter (N := N)]
  rw [show ([letter left.1, star] : List Label) = [(idLab hN).lab left, (idLab hN).rk] from rfl]
  rw [show (List.ofFn fun j : Fin N => letter j.1) = List.ofFn (idLab hN).lab from rfl]
  simp only
  rw [h1]

theorem topKey_eq (h2 : 2 ≤ N) : topKey N = vec2str (node (N - 2) (N - 2)) := by
  rw [node_self, show N - 2 + 1 = N - 1 by omega]
  rfl

/-- `mttkrp_map_init` leaves the exact contraction of `V` with `W[left]` at the top of the tree. -/
theorem mapInit_ok (h2 : 2 ≤ N) (hN : N ≤ 31) {dims : Fin N → ℕ} {R : ℕ} {V : Tensor K} {W : List (Tensor K)}
    (hS : Shaped dims R V W) (left : Fin N) :
    ∃ T, mapInit N V W left.1 = .ok [(vec2str (node (N - 2) (N - 2)), T)] ∧ Canon T ∧
      Valid dims R (arr V N) (mats W) T (nodeModes left (N - 2) (N - 2)) := by
  obtain ⟨T, h1, h3⟩ := topT_ok h2 hN hS left
  refine ⟨T, ?_, h3⟩
  unfold mapInit
  rw [h1, topKey_eq h2]
  rfl

/-! ### the cache -/

/-- All cached nodes whose last position is at least `i` are exact for the factors `W`, and the top is present. -/
structure CacheInv (dims : Fin N → ℕ) (R : ℕ) (V : (Fin N → ℕ) → K) (W : Fin N → ℕ → ℕ → K)
    (left : Fin N) (i : ℕ) (cache : Cache K) : Prop where
  valid : ∀ j k, j ≤ k → k < N - 1 → i ≤ k → ∀ T, cache.lookup (vec2str (node j k)) = some T →
    Canon T ∧ Valid dims R V W T (nodeModes left j k)
  top : (cache.lookup (vec2str (node (N - 2) (N - 2)))).isSome

/-- No right-subtree node of a position `≥ i` is cached. -/
def NoRight (N : ℕ) (i : ℕ) (cache : Cache K) : Prop :=
  ∀ j k, j < k → k < N - 1 → i ≤ k → cache.lookup (vec2str (node j k)) = none

theorem node_lt {j k n : ℕ} (hj : j ≤ k) (hk : k < n) : ∀ p ∈ node j k, p < n := by
  intro p hp
  rcases mem_node.1 hp with h | h <;> omega

theorem mapDT_ok (hN : N ≤ 31) {dims : Fin N → ℕ} {R : ℕ} {V : Tensor K}
    {W : List (Tensor K)} (hS : Shaped dims R V W) (left : Fin N) {tree : Tree}
    (ht : GoodTree (N - 1) tree) (i : ℕ) :
    ∀ (fuel j k : ℕ) (cache : Cache K), j ≤ k → k < N - 1 → (j = k ∧ i ≤ k ∨ k = i) →
      ¬ (j = N - 2 ∧ k = N - 2) → N - 2 - j ≤ fuel →
      CacheInv dims R (arr V N) (mats W) left i cache → NoRight N (i + 1) cache →
      ∃ cache', mttkrpMapDT tree (indexesOf N left.1) V W fuel (vec2str (node j k)) cache = .ok cache' ∧
        CacheInv dims R (arr V N) (mats W) left i cache' ∧ NoRight N (i + 1) cache' ∧
        (cache'.lookup (vec2str (node j k))).isSome := by
  intro fuel
  induction fuel with
  | zero => intro j k cache hj hk _ hne hf; omega
  | succ fuel ih =>
    intro j k cache hj hk hcase hne hf hI hR
    obtain ⟨hp, hc⟩ := ht j k hj hk (by omega)
    -- the parent node as a pair
    obtain ⟨j', k', hpar, hj', hk', hcase', hstep⟩ : ∃ j' k', parentOf j k = node j' k' ∧ j' ≤ k' ∧
        k' < N - 1 ∧ (j' = k' ∧ i ≤ k' ∨ k' = i) ∧ j' = j + 1 := by
      unfold parentOf
      by_cases h : j < k
      · exact ⟨j + 1, k, by rw [if_pos h], by omega, hk, by omega, rfl⟩
      · exact ⟨k + 1, k + 1, by rw [if_neg h], by omega, by omega, by omega, by omega⟩
    rw [hpar] at hp
    -- make the parent available
    obtain ⟨c1, hc1, hI1, hR1, hsome⟩ : ∃ c1, (if (cache.lookup (vec2str (node j' k'))).isNone then
        mttkrpMapDT tree (indexesOf N left.1) V W fuel (vec2str (node j' k')) cache
        else pure cache) = .ok c1 ∧ CacheInv dims R (arr V N) (mats W) left i c1 ∧
        NoRight N (i + 1) c1 ∧ (c1.lookup (vec2str (node j' k'))).isSome := by
      by_cases hn : (cache.lookup (vec2str (node j' k'))).isNone
      · rw [if_pos hn]
        apply ih j' k' cache hj' hk' hcase' _ (by omega) hI hR
        rintro ⟨rfl, rfl⟩
        have := hI.top
        rw [Option.isNone_iff_eq_none] at hn
        rw [hn] at this
        simp at this
      · rw [if_neg hn]
        refine ⟨cache, rfl, hI, hR, ?_⟩
        simpa [Option.isSome_iff_ne_none] using hn
    obtain ⟨Tp, hTp⟩ := Option.isSome_iff_exists.1 hsome
    have hik : i ≤ k' := by omega
    obtain ⟨_, hval⟩ := hI1.valid j' k' hj' hk' hik Tp hTp
    -- the contracted position
    have hcp : contractPos j k < N - 1 := by unfold contractPos; split_ifs <;> omega
    obtain ⟨Wm, hWr, _, hWl, hWe⟩ := mats_get hS (modeAt left (contractPos j k))
    have hcmem : contractPos j k ∈ node j' k' := by
      rw [← hpar]; unfold contractPos parentOf
      split_ifs <;> simp [mem_node]
    obtain ⟨T, hT, hTc, hTv⟩ := contract_valid (posLab hN left) (ms' := nodeModes left j k) hval hWl hWe.symm
      (List.mem_map.2 ⟨_, hcmem, rfl⟩) (by
        ext m
        simp only [List.mem_toFinset, Finset.mem_erase]
        rw [mem_nodeModes hj (by omega), mem_nodeModes hj' (by omega)]
        have h1 : m = modeAt left (contractPos j k) ↔ posOf left m = contractPos j k := by
          constructor
          · rintro rfl; exact posOf_modeAt left (by omega)
          · intro h; rw [← modeAt_posOf left m, h]
        rw [Ne, h1]
        unfold contractPos
        have hpar' := hpar
        unfold parentOf at hpar'
        split_ifs at hpar' ⊢ with h
        · obtain ⟨rfl, rfl⟩ := node_inj hpar'
          omega
        · obtain ⟨rfl, rfl⟩ := node_inj hpar'
          omega)
    refine ⟨(vec2str (node j k), T) :: c1, ?_, ?_, ?_, ?_⟩
    · rw [mttkrpMapDT]
      simp only [hp, hc, bind, Except.bind]
      rw [hc1]
      simp only
      rw [show (vec2str [contractPos j k]) = [letter (contractPos j k), star] from rfl]
      rw [show (0 : ℤ) = ((0 : ℕ) : ℤ) from rfl, rd_of (x := letter (contractPos j k)) rfl]
      simp only
      rw [lensNode_ok hN hS left (node_lt hj hk)]
      simp only
      rw [decode_letter (by omega), rd_of (indexesOf_get left hcp)]
      simp only
      rw [hWr]
      simp only [hTp]
      rw [vec2str_eq_lab hN left (v := node j k) (fun p hp => by have := node_lt hj hk p hp; omega),
        vec2str_eq_lab hN left (v := node j' k') (fun p hp => by have := node_lt hj' hk' p hp; omega)]
      have hlab : (letter (contractPos j k) : Label) =
          (posLab hN left).lab (modeAt left (contractPos j k)) := by
        simp [posLab, posOf_modeAt left (show contractPos j k < N by omega)]
      rw [hlab]
      have hT' := hT
      unfold nodeModes at hT'
      rw [show (star : Label) = (posLab hN left).rk from rfl, hT']
      rfl
    · constructor
      · intro a b hab hb hib T' hlook
        by_cases e : vec2str (node a b) = vec2str (node j k)
        · obtain ⟨rfl, rfl⟩ := vec2str_node_inj hab (by omega) hj (by omega) e
          rw [lookup_cons_self] at hlook
          cases hlook
          exact ⟨hTc, hTv⟩
        · rw [lookup_cons_ne e] at hlook
          exact hI1.valid a b hab hb hib T' hlook
      · by_cases e : vec2str (node (N - 2) (N - 2)) = vec2str (node j k)
        · rw [e, lookup_cons_self]; rfl
        · rw [lookup_cons_ne e]; exact hI1.top
    · intro a b hab hb hib
      rw [lookup_cons_ne]
      · exact hR1 a b hab hb hib
      · intro e
        obtain ⟨rfl, rfl⟩ := vec2str_node_inj (by omega) (by omega) hj (by omega) e
        omega
    · rw [lookup_cons_self]; rfl

/-- Looking up (or computing) the leaf of position `i` gives the MTTKRP of its mode. -/
theorem treeM_ok (h3 : 3 ≤ N) (hN : N ≤ 31) {dims : Fin N → ℕ} {R : ℕ} {V : Tensor K}
    {W : List (Tensor K)} (hS : Shaped dims R V W) (left : Fin N) {tree : Tree}
    (ht : GoodTree (N - 1) tree) {i : ℕ} (hi : i < N - 1)
    {cache : Cache K} (hI : CacheInv dims R (arr V N) (mats W) left i cache)
    (hR : NoRight N i cache) :
    ∃ M cache', treeM N tree V (indexesOf N left.1) W cache i = .ok (M, cache') ∧ Canon M ∧
      M.lens = [dims (modeAt left i), R] ∧
      (∀ x < dims (modeAt left i), ∀ r < R,
        mat M x r = Spec.mttkrp dims (arr V N) (mats W) (modeAt left i) x r) ∧
      CacheInv dims R (arr V N) (mats W) left i cache' ∧ NoRight N (i + 1) cache' := by
  have hkey : vec2str [i] = vec2str (node 0 i) := by simp [node]
  have hRi : NoRight N (i + 1) cache := fun j k h1 h2 h3 => hR j k h1 h2 (by omega)
  obtain ⟨c1, hc1, hI1, hR1, hsome⟩ : ∃ c1, (if (cache.lookup (vec2str [i])).isNone then
      mttkrpMapDT tree (indexesOf N left.1) V W (N + 1) (vec2str [i]) cache
      else pure cache) = .ok c1 ∧ CacheInv dims R (arr V N) (mats W) left i c1 ∧
      NoRight N (i + 1) c1 ∧ (c1.lookup (vec2str [i])).isSome := by
    by_cases hn : (cache.lookup (vec2str [i])).isNone
    · rw [if_pos hn, hkey]
      exact mapDT_ok hN hS left ht i (N + 1) 0 i cache (by omega) hi (by omega) (by omega)
        (by omega) hI hRi
    · rw [if_neg hn]
      exact ⟨cache, rfl, hI, hRi, by simpa [Option.isSome_iff_ne_none] using hn⟩
  obtain ⟨M, hM⟩ := Option.isSome_iff_exists.1 hsome
  have hM' := hM
  rw [hkey] at hM'
  obtain ⟨hMc, hMv⟩ := hI1.valid 0 i (by omega) hi (le_refl _) M hM'
  rw [show nodeModes left 0 i = [modeAt left i] by simp [nodeModes, node]] at hMv
  obtain ⟨hMl, hMm⟩ := valid_single hMv
  refine ⟨M, c1, ?_, hMc, hMl, hMm, hI1, hR1⟩
  unfold treeM
  simp only [bind, Except.bind]
  rw [hc1]
  simp only [hM]
  rfl

/-- Changing the factor of the mode at position `i` keeps the nodes of later positions valid. -/
theorem CacheInv.next {dims : Fin N → ℕ} {R : ℕ} {V : (Fin N → ℕ) → K} {W W' : Fin N → ℕ → ℕ → K}
    {left : Fin N} {i : ℕ} (hi : i < N - 1) {cache : Cache K} (hI : CacheInv dims R V W left i cache)
    (hR : NoRight N (i + 1) cache) (hW : ∀ m, m ≠ modeAt left i → W' m = W m) :
    CacheInv dims R V W' left (i + 1) cache := by
  constructor
  · intro j k hj hk hik T hT
    rcases Nat.lt_or_ge j k with hlt | hge
    · rw [hR j k hlt hk hik] at hT
      cases hT
    · obtain rfl : j = k := by omega
      obtain ⟨a, b⟩ := hI.valid j j hj hk (by omega) T hT
      refine ⟨a, b.congr ?_⟩
      intro m hm
      have hne : m ≠ modeAt left i := by
        rintro rfl
        apply hm
        rw [mem_nodeModes (le_refl _) (by omega), posOf_modeAt left (by omega)]
        omega
      exact (hW m hne).symm
  · exact hI.top

/-- A run of the loop over consecutive positions, for an arbitrary update that only touches the factor of its own mode. -/
theorem treeLoop_gen {σ : Type} (h3 : 3 ≤ N) (hN : N ≤ 31) {dims : Fin N → ℕ} {R : ℕ} {V : Tensor K}
    (Wof : σ → List (Tensor K)) (upd : σ → ℕ → ℕ → Tensor K → Except Fault σ)
    (P : ℕ → σ → Prop) (left : Fin N) {tree : Tree} (ht : GoodTree (N - 1) tree)
    {s c : ℕ} (hsc : s + c ≤ N - 1) {st : σ} (hS : Shaped dims R V (Wof st)) (h0 : P s st)
    {T : Tensor K} (hTc : Canon T)
    (hTv : Valid dims R (arr V N) (mats (Wof st)) T (nodeModes left (N - 2) (N - 2)))
    (hupd : ∀ i a M, s ≤ i → i < s + c → Shaped dims R V (Wof a) → P i a → Canon M →
      M.lens = [dims (modeAt left i), R] →
      (∀ x < dims (modeAt left i), ∀ r < R,
        mat M x r = Spec.mttkrp dims (arr V N) (mats (Wof a)) (modeAt left i) x r) →
      ∃ b, upd a i (modeAt left i).1 M = .ok b ∧ Shaped dims R V (Wof b) ∧ P (i + 1) b ∧
        ∀ m : Fin N, m ≠ modeAt left i → mats (Wof b) m = mats (Wof a) m) :
    ∃ st' cache', (List.range' s c).foldlM (treeBody N tree V (indexesOf N left.1) Wof upd)
        (st, [(vec2str (node (N - 2) (N - 2)), T)]) = .ok (st', cache') ∧
      Shaped dims R V (Wof st') ∧ P (s + c) st' := by
  obtain ⟨⟨st', cache'⟩, h1, h2, h4, _⟩ := foldlM_range'_inv
    (f := treeBody N tree V (indexesOf N left.1) Wof upd)
    (P := fun i (q : σ × Cache K) => Shaped dims R V (Wof q.1) ∧ P i q.1 ∧
      CacheInv dims R (arr V N) (mats (Wof q.1)) left i q.2 ∧ NoRight N i q.2)
    (s := s) (n := c) (a := (st, [(vec2str (node (N - 2) (N - 2)), T)]))
    ⟨hS, h0, by
      constructor
      · intro j k hj hk _ T' hT'
        by_cases e : vec2str (node j k) = vec2str (node (N - 2) (N - 2))
        · obtain ⟨rfl, rfl⟩ := vec2str_node_inj hj (by omega) (le_refl _) (by omega) e
          rw [lookup_cons_self] at hT'
          cases hT'
          exact ⟨hTc, hTv⟩
        · rw [lookup_cons_ne e] at hT'
          simp at hT'
      · simp, by
      intro j k hj hk _
      rw [lookup_cons_ne]
      · rfl
      · intro e
        obtain ⟨rfl, rfl⟩ := vec2str_node_inj (by omega) (by omega) (le_refl _) (by omega) e
        omega⟩
    (by
      rintro i ⟨a, cache⟩ hsi hic ⟨g1, g2, g3, g4⟩
      obtain ⟨M, c1, m1, m2, m3, m4, m5, m6⟩ := treeM_ok h3 hN g1 left ht (i := i) (by omega) g3 g4
      obtain ⟨b, b1, b2, b3, b4⟩ := hupd i a M hsi hic g1 g2 m2 m3 m4
      refine ⟨(b, c1), ?_, b2, b3, m5.next (by omega) m6 b4, m6⟩
      unfold treeBody
      simp only [bind, Except.bind]
      rw [m1]
      simp only
      rw [rd_of (indexesOf_get left (by omega))]
      simp only [b1]
      rfl)
  exact ⟨st', cache', h1, h2, h4⟩

/-- A run of the DT/MSDT loop over consecutive positions. -/
theorem treeLoop_ok (h3 : 3 ≤ N) (hN : N ≤ 31) {dims : Fin N → ℕ} {R : ℕ} {V : Tensor K}
    {f : Fac K} (hS : Shaped dims R V f.W) (hG : f.G.length = N) (left : Fin N) {tree : Tree}
    (ht : GoodTree (N - 1) tree) (lam : K) (solve : Spec.Solver K) {s c : ℕ} (hsc : s + c ≤ N - 1)
    {T : Tensor K} (hTc : Canon T)
    (hTv : Valid dims R (arr V N) (mats f.W) T (nodeModes left (N - 2) (N - 2))) :
    ∃ f' cache', (List.range' s c).foldlM (treeUpdate N R lam solve tree V (indexesOf N left.1))
        (f, [(vec2str (node (N - 2) (N - 2)), T)]) = .ok (f', cache') ∧
      Shaped dims R V f'.W ∧ f'.G.length = N ∧
      absF N f' = Spec.alsRun dims R lam solve (arr V N) ((List.range' s c).map (modeAt left)) (absF N f) := by
  obtain ⟨f', cache', h1, h2, h4, h5⟩ := treeLoop_gen h3 hN (fun f : Fac K => f.W)
    (fun f _ m M => updateMode N R lam solve f m M)
    (fun i g => g.G.length = N ∧ absF N g = Spec.alsRun dims R lam solve (arr V N)
      ((List.range' s (i - s)).map (modeAt left)) (absF N f)) left ht hsc hS
    ⟨hG, by simp [Spec.alsRun]⟩ hTc hTv (by
      rintro i g M hsi hic gS ⟨gG, gA⟩ hMc hMl hM
      obtain ⟨f', q1, q2, q3, q4⟩ := updateMode_ok (by omega) gS gG lam solve (modeAt left i) hMc hMl hM
      refine ⟨f', q1, q2, ⟨q3, ?_⟩, ?_⟩
      · rw [q4, gA, show i + 1 - s = (i - s) + 1 by omega, List.range'_concat]
        simp [Spec.alsRun, show s + (i - s) = i by omega]
      · intro m hne
        have := congrFun (congrArg Spec.AlsState.W q4) m
        simp only [absF, Spec.alsUpdate] at this
        rwa [Function.update_of_ne hne] at this)
  refine ⟨f', cache', h1, h2, h4, ?_⟩
  rw [h5, show s + c - s = c by omega]

end Model
