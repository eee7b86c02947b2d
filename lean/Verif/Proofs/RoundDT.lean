import Verif.Proofs.Round
import Verif.Proofs.DTSteps

/-! Rounding errors in the dimension trees. -/

namespace Model

open Finset

variable {N : ℕ}

theorem arr_abs (V : Tensor ℝ) : arr (absT V) N = Spec.absArr (arr V N) := rfl

theorem mats_abs (W : List (Tensor ℝ)) : (mats (W.map absT) : Fin N → ℕ → ℕ → ℝ) = Spec.absMats (mats W) := by
  funext j x r
  unfold mats Spec.absMats
  rw [List.getElem?_map]
  beta_reduce
  cases W[j.1]? with
  | none => simp
  | some M => rfl

theorem Shaped.abs {dims : Fin N → ℕ} {R : ℕ} {V : Tensor ℝ} {W : List (Tensor ℝ)} (hS : Shaped dims R V W) :
    Shaped dims R (absT V) (W.map absT) where
  lensV := hS.lensV
  count := by simp [hS.count]
  lensW := by
    intro j M h
    rw [List.getElem?_map] at h
    cases e : W[j.1]? with
    | none => rw [e] at h; cases h
    | some M' =>
      rw [e] at h
      cases h
      exact hS.lensW j M' e

theorem mat_absT (M : Tensor ℝ) : mat (absT M) = fun x r => |mat M x r| := rfl

/-- `T` approximates the partial MTTKRP on the modes `ms` with factor `c`. -/
def Near (c : ℝ) (dims : Fin N → ℕ) (R : ℕ) (V : (Fin N → ℕ) → ℝ) (W : Fin N → ℕ → ℕ → ℝ) (T : Tensor ℝ) (ms : List (Fin N)) : Prop :=
  ∃ E A, Canon E ∧ Canon A ∧ Valid dims R V W E ms ∧ Valid dims R (Spec.absArr V) (Spec.absMats W) A ms ∧ RelT c E A T

theorem Near.lens {c : ℝ} {dims : Fin N → ℕ} {R : ℕ} {V : (Fin N → ℕ) → ℝ} {W : Fin N → ℕ → ℕ → ℝ} {T : Tensor ℝ} {ms : List (Fin N)}
    (h : Near c dims R V W T ms) : T.lens = ms.map dims ++ [R] := by
  obtain ⟨E, A, _, _, h1, _, h3⟩ := h
  rw [← h3.1]; exact h1.1

theorem Near.congr {c : ℝ} {dims : Fin N → ℕ} {R : ℕ} {V : (Fin N → ℕ) → ℝ} {W W' : Fin N → ℕ → ℕ → ℝ} {T : Tensor ℝ}
    {ms : List (Fin N)} (h : Near c dims R V W T ms) (hW : ∀ j, j ∉ ms → W j = W' j) : Near c dims R V W' T ms := by
  obtain ⟨E, A, k1, k2, h1, h2, h3⟩ := h
  refine ⟨E, A, k1, k2, h1.congr hW, h2.congr fun j hj => ?_, h3⟩
  unfold Spec.absMats
  rw [hW j hj]

theorem Near.mono {c c' : ℝ} {dims : Fin N → ℕ} {R : ℕ} {V : (Fin N → ℕ) → ℝ} {W : Fin N → ℕ → ℕ → ℝ} {T : Tensor ℝ}
    {ms : List (Fin N)} (h : Near c dims R V W T ms) (hc : c ≤ c') : Near c' dims R V W T ms := by
  obtain ⟨E, A, k1, k2, h1, h2, h3⟩ := h
  exact ⟨E, A, k1, k2, h1, h2, h3.mono hc⟩

theorem near_single {c : ℝ} {dims : Fin N → ℕ} {R : ℕ} {V : (Fin N → ℕ) → ℝ} {W : Fin N → ℕ → ℕ → ℝ} {T : Tensor ℝ} {i : Fin N}
    (h : Near c dims R V W T [i]) : T.lens = [dims i, R] ∧ ∀ x < dims i, ∀ r < R,
      |Spec.mttkrp dims V W i x r| ≤ Spec.mttkrp dims (Spec.absArr V) (Spec.absMats W) i x r ∧
      |mat T x r - Spec.mttkrp dims V W i x r| ≤ (c - 1) * Spec.mttkrp dims (Spec.absArr V) (Spec.absMats W) i x r := by
  have hl := h.lens
  obtain ⟨E, A, k1, k2, h1, h2, h3⟩ := h
  refine ⟨by simpa using hl, fun x hx r hr => ?_⟩
  rw [← (valid_single h1).2 x hx r hr, ← (valid_single h2).2 x hx r hr]
  exact h3.2.2 [x, r]

theorem near_contract {B : ℕ} {u : ℝ} {P : Arith} (hP : RoundOk B u P) (hu : 0 ≤ u) (hB : 1 ≤ B) (L : Labelling N) {dims : Fin N → ℕ}
    {R : ℕ} (hd : ∀ j, dims j ≤ B) (hR : R ≤ B) {V : (Fin N → ℕ) → ℝ} {W : Fin N → ℕ → ℕ → ℝ} {c : ℝ} (hc : 1 ≤ c)
    {T Wj : Tensor ℝ} {j : Fin N} {ms ms' : List (Fin N)} (hT : Near c dims R V W T ms) (hl : Wj.lens = [dims j, R])
    (hW : mat Wj = W j) (hj : j ∈ ms) (hms : ms'.toFinset = ms.toFinset.erase j) :
    ∃ T', P.ev (ms'.map dims ++ [R]) (ms'.map L.lab ++ [L.rk]) [(T, ms.map L.lab ++ [L.rk]), (Wj, [L.lab j, L.rk])] = .ok T' ∧
      Near (c * (1 + u)) dims R V W T' ms' := by
  obtain ⟨E, A, k1, k2, h1, h2, h3⟩ := hT
  obtain ⟨E', e1, e2, e3⟩ := contract_valid L h1 hl hW hj hms
  obtain ⟨A', a1, a2, a3⟩ := contract_valid L (Wj := absT Wj) h2 hl (by rw [mat_absT, hW]; rfl) hj hms
  have hmem : ∀ k, k ∈ ms → k ≠ j → L.lab k ∈ ms'.map L.lab ++ [L.rk] := by
    intro k hk hne
    have : k ∈ ms'.toFinset := by rw [hms]; simp [hk, hne]
    simp only [List.mem_append, List.mem_map]
    exact Or.inl ⟨k, by simpa using this, rfl⟩
  obtain ⟨A'', T', b1, b2, b3⟩ := ev_rel hP hu (lens := ms'.map dims ++ [R]) (sc := ms'.map L.lab ++ [L.rk])
    (l := [⟨E, A, T, ms.map L.lab ++ [L.rk], c⟩, ⟨Wj, absT Wj, Wj, [L.lab j, L.rk], 1⟩]) (by simp) (by simp)
    (by
      intro q hq
      simp only [List.mem_cons, List.not_mem_nil, or_false] at hq
      rcases hq with rfl | rfl
      · exact ⟨hc, h3⟩
      · exact ⟨le_rfl, RelT.exact Wj⟩) (E' := E') e1 (by
      apply nTerms_le hB (L.lab j)
      · intro o ho l' hl' hn
        rw [List.take_of_length_le (by simp)] at hn
        simp only [List.map_cons, List.map_nil, List.mem_cons, List.not_mem_nil, or_false] at ho
        rcases ho with rfl | rfl
        · have hl' := List.mem_of_mem_take hl'
          simp only [List.mem_append, List.mem_map, List.mem_singleton] at hl'
          rcases hl' with ⟨k, hk, rfl⟩ | rfl
          · by_contra hne
            exact hn (hmem k hk fun e => hne (by rw [e]))
          · exact absurd (by simp) hn
        · have hl' := List.mem_of_mem_take hl'
          simp only [List.mem_cons, List.not_mem_nil, or_false] at hl'
          rcases hl' with rfl | rfl
          · rfl
          · exact absurd (by simp) hn
      · intro o ho n hn
        simp only [List.map_cons, List.map_nil, List.mem_cons, List.not_mem_nil, or_false] at ho
        rcases ho with rfl | rfl
        · simp only [h1.1, List.mem_append, List.mem_map, List.mem_singleton] at hn
          rcases hn with ⟨k, _, rfl⟩ | rfl
          · exact hd k
          · exact hR
        · simp only [hl, List.mem_cons, List.not_mem_nil, or_false] at hn
          rcases hn with rfl | rfl
          · exact hd j
          · exact hR)
  simp only [List.map_cons, List.map_nil, List.prod_cons, List.prod_nil, mul_one] at b1 b2 b3
  rw [a1] at b1
  rw [← Except.ok.inj b1] at b3
  exact ⟨T', b2, E', A', e2, a2, e3, a3, b3⟩

theorem near_contract_init {B : ℕ} {u : ℝ} {P : Arith} (hP : RoundOk B u P) (hu : 0 ≤ u) (hB : 1 ≤ B) (L : Labelling N)
    {dims : Fin N → ℕ} {R : ℕ} (hd : ∀ j, dims j ≤ B) (hR : R ≤ B) {V : Tensor ℝ} {W : Fin N → ℕ → ℕ → ℝ}
    (hV : V.lens = List.ofFn dims) {Wj : Tensor ℝ} {j : Fin N} {ms' : List (Fin N)} (hl : Wj.lens = [dims j, R])
    (hW : mat Wj = W j) (hms : ms'.toFinset = univ.erase j) :
    ∃ T', P.ev (ms'.map dims ++ [R]) (ms'.map L.lab ++ [L.rk]) [(V, List.ofFn L.lab), (Wj, [L.lab j, L.rk])] = .ok T' ∧
      Near (1 + u) dims R (arr V N) W T' ms' := by
  obtain ⟨E', e1, e2, e3⟩ := contract_valid_init L hV hl hW hms
  obtain ⟨A', a1, a2, a3⟩ := contract_valid_init L (V := absT V) (W := Spec.absMats W) hV (Wj := absT Wj) hl (by rw [mat_absT, hW]; rfl) hms
  have hmem : ∀ k, k ≠ j → L.lab k ∈ ms'.map L.lab ++ [L.rk] := by
    intro k hne
    have : k ∈ ms'.toFinset := by rw [hms]; simp [hne]
    simp only [List.mem_append, List.mem_map]
    exact Or.inl ⟨k, by simpa using this, rfl⟩
  obtain ⟨A'', T', b1, b2, b3⟩ := ev_rel hP hu (lens := ms'.map dims ++ [R]) (sc := ms'.map L.lab ++ [L.rk])
    (l := [⟨V, absT V, V, List.ofFn L.lab, 1⟩, ⟨Wj, absT Wj, Wj, [L.lab j, L.rk], 1⟩]) (by simp) (by simp)
    (by
      intro q hq
      simp only [List.mem_cons, List.not_mem_nil, or_false] at hq
      rcases hq with rfl | rfl <;> exact ⟨le_rfl, RelT.exact _⟩) (E' := E') e1 (by
      apply nTerms_le hB (L.lab j)
      · intro o ho l' hl' hn
        rw [List.take_of_length_le (by simp)] at hn
        simp only [List.map_cons, List.map_nil, List.mem_cons, List.not_mem_nil, or_false] at ho
        rcases ho with rfl | rfl
        · have hl' := List.mem_of_mem_take hl'
          simp only [List.mem_ofFn] at hl'
          obtain ⟨k, rfl⟩ := hl'
          by_contra hne
          exact hn (hmem k fun e => hne (by rw [e]))
        · have hl' := List.mem_of_mem_take hl'
          simp only [List.mem_cons, List.not_mem_nil, or_false] at hl'
          rcases hl' with rfl | rfl
          · rfl
          · exact absurd (by simp) hn
      · intro o ho n hn
        simp only [List.map_cons, List.map_nil, List.mem_cons, List.not_mem_nil, or_false] at ho
        rcases ho with rfl | rfl
        · simp only [hV, List.mem_ofFn] at hn
          obtain ⟨k, rfl⟩ := hn
          exact hd k
        · simp only [hl, List.mem_cons, List.not_mem_nil, or_false] at hn
          rcases hn with rfl | rfl
          · exact hd j
          · exact hR)
  simp only [List.map_cons, List.map_nil, List.prod_cons, List.prod_nil, mul_one, one_mul] at b1 b2 b3
  rw [a1] at b1
  rw [← Except.ok.inj b1] at b3
  exact ⟨T', b2, E', A', e2, a2, e3, a3, b3⟩

/-! ### the dimension tree -/

theorem topTR_ok {B : ℕ} {u : ℝ} {P : Arith} (hP : RoundOk B u P) (hu : 0 ≤ u) (hB : 1 ≤ B) (h2 : 2 ≤ N) (hN : N ≤ 31)
    {dims : Fin N → ℕ} {R : ℕ} (hd : ∀ j, dims j ≤ B) (hR : R ≤ B) {V : Tensor ℝ} {W : List (Tensor ℝ)}
    (hS : Shaped dims R V W) (left : Fin N) :
    ∃ T, mapInitR P N V W left.1 = .ok [(vec2str (node (N - 2) (N - 2)), T)] ∧
      Near (1 + u) dims R (arr V N) (mats W) T (nodeModes left (N - 2) (N - 2)) := by
  obtain ⟨Wl, hr, _, hl, he⟩ := mats_get hS left
  have hidx : (indexesOf N left.1).map letter ++ [star] =
      (nodeModes left (N - 2) (N - 2)).map (idLab hN).lab ++ [(idLab hN).rk] := by
    rw [indexesOf_eq, nodeModes, node_self, show N - 2 + 1 = N - 1 by omega]
    simp only [List.map_map]
    rfl
  obtain ⟨T, h1, h3⟩ := near_contract_init hP hu hB (idLab hN) hd hR (W := mats W) hS.lensV (j := left)
    (ms' := nodeModes left (N - 2) (N - 2)) hl he.symm (by
      ext m
      simp only [List.mem_toFinset, Finset.mem_erase, Finset.mem_univ, and_true]
      rw [mem_nodeModes (le_refl _) (by omega)]
      have h1 := posOf_lt left m
      have h2 : posOf left m = N - 1 ↔ m = left := by
        constructor
        · intro h; rw [← modeAt_posOf left m, h, modeAt_last]
        · rintro rfl
          have := posOf_modeAt m (p := N - 1) (by omega)
          rwa [modeAt_last] at this
      rw [Ne, ← h2]
      omega)
  refine ⟨T, ?_, h3⟩
  unfold mapInitR topTR
  have hlen := lensInit_ok hN hS (by omega) (nodeModes left (N - 2) (N - 2))
  simp only [bind, Except.bind]
  rw [hidx]
  rw [show (nodeModes left (N - 2) (N - 2)).map (idLab hN).lab ++ [(idLab hN).rk] =
    (nodeModes left (N - 2) (N - 2)).map (fun m => letter m.1) ++ [star] from rfl] at h1 ⊢
  rw [hlen]
  simp only
  rw [hr]
  rw [range_letter (N := N)]
  rw [show ([letter left.1, star] : List Label) = [(idLab hN).lab left, (idLab hN).rk] from rfl]
  rw [show (List.ofFn fun j : Fin N => letter j.1) = List.ofFn (idLab hN).lab from rfl]
  simp only
  rw [h1, topKey_eq h2]
  rfl

/-- All cached nodes whose last position is at least `i` approximate the partial MTTKRPs of the factors `W`: the node `(j, k)`, made by
`N - 1 - j` contractions, with factor `(1+u)^(N-1-j)`. -/
structure CacheNear (u : ℝ) (dims : Fin N → ℕ) (R : ℕ) (V : (Fin N → ℕ) → ℝ) (W : Fin N → ℕ → ℕ → ℝ)
    (left : Fin N) (i : ℕ) (cache : Cache ℝ) : Prop where
  valid : ∀ j k, j ≤ k → k < N - 1 → i ≤ k → ∀ T, cache.lookup (vec2str (node j k)) = some T →
    Near ((1 + u) ^ (N - 1 - j)) dims R V W T (nodeModes left j k)
  top : (cache.lookup (vec2str (node (N - 2) (N - 2)))).isSome

theorem mapDTR_ok {B : ℕ} {u : ℝ} {P : Arith} (hP : RoundOk B u P) (hu : 0 ≤ u) (hB : 1 ≤ B) (hN : N ≤ 31) {dims : Fin N → ℕ} {R : ℕ}
    (hd : ∀ j, dims j ≤ B) (hRB : R ≤ B) {V : Tensor ℝ}
    {W : List (Tensor ℝ)} (hS : Shaped dims R V W) (left : Fin N) {tree : Tree}
    (ht : GoodTree (N - 1) tree) (i : ℕ) :
    ∀ (fuel j k : ℕ) (cache : Cache ℝ), j ≤ k → k < N - 1 → (j = k ∧ i ≤ k ∨ k = i) →
      ¬ (j = N - 2 ∧ k = N - 2) → N - 2 - j ≤ fuel →
      CacheNear u dims R (arr V N) (mats W) left i cache → NoRight N (i + 1) cache →
      ∃ cache', mttkrpMapDTR P tree (indexesOf N left.1) V W fuel (vec2str (node j k)) cache = .ok cache' ∧
        CacheNear u dims R (arr V N) (mats W) left i cache' ∧ NoRight N (i + 1) cache' ∧
        (cache'.lookup (vec2str (node j k))).isSome := by
  intro fuel
  induction fuel with
  | zero => intro j k cache hj hk _ hne hf; omega
  | succ fuel ih =>
    intro j k cache hj hk hcase hne hf hI hR
    obtain ⟨hp, hc⟩ := ht j k hj hk (by omega)
    obtain ⟨j', k', hpar, hj', hk', hcase', hstep⟩ : ∃ j' k', parentOf j k = node j' k' ∧ j' ≤ k' ∧
        k' < N - 1 ∧ (j' = k' ∧ i ≤ k' ∨ k' = i) ∧ j' = j + 1 := by
      unfold parentOf
      by_cases h : j < k
      · exact ⟨j + 1, k, by rw [if_pos h], by omega, hk, by omega, rfl⟩
      · exact ⟨k + 1, k + 1, by rw [if_neg h], by omega, by omega, by omega, by omega⟩
    rw [hpar] at hp
    obtain ⟨c1, hc1, hI1, hR1, hsome⟩ : ∃ c1, (if (cache.lookup (vec2str (node j' k'))).isNone then
        mttkrpMapDTR P tree (indexesOf N left.1) V W fuel (vec2str (node j' k')) cache
        else pure cache) = .ok c1 ∧ CacheNear u dims R (arr V N) (mats W) left i c1 ∧
        NoRight N (i + 1) c1 ∧ (c1.lookup (vec2str (node j' k'))).isSome := by
      by_cases hn : (cache.lookup (vec2str (node j' k'))).isNone
      · rw [if_pos hn]
        apply ih j' k' cache hj' hk' hcase' _ (by omega) hI hR
        rintro ⟨rfl, rfl⟩
        have := hI.top
        rw [Option.isNone_iff_eq_none] at hn
        rw [hn] at this
        simp at this
      · rw [if_neg hn]
        refine ⟨cache, rfl, hI, hR, ?_⟩
        simpa [Option.isSome_iff_ne_none] using hn
    obtain ⟨Tp, hTp⟩ := Option.isSome_iff_exists.1 hsome
    have hik : i ≤ k' := by omega
    have hval := hI1.valid j' k' hj' hk' hik Tp hTp
    have hcp : contractPos j k < N - 1 := by unfold contractPos; split_ifs <;> omega
    obtain ⟨Wm, hWr, _, hWl, hWe⟩ := mats_get hS (modeAt left (contractPos j k))
    have hcmem : contractPos j k ∈ node j' k' := by
      rw [← hpar]; unfold contractPos parentOf
      split_ifs <;> simp [mem_node]
    obtain ⟨T, hT, hTv⟩ := near_contract hP hu hB (posLab hN left) hd hRB (one_le_pow₀ (by linarith)) (ms' := nodeModes left j k) hval hWl hWe.symm
      (List.mem_map.2 ⟨_, hcmem, rfl⟩) (by
        ext m
        simp only [List.mem_toFinset, Finset.mem_erase]
        rw [mem_nodeModes hj (by omega), mem_nodeModes hj' (by omega)]
        have h1 : m = modeAt left (contractPos j k) ↔ posOf left m = contractPos j k := by
          constructor
          · rintro rfl; exact posOf_modeAt left (by omega)
          · intro h; rw [← modeAt_posOf left m, h]
        rw [Ne, h1]
        unfold contractPos
        have hpar' := hpar
        unfold parentOf at hpar'
        split_ifs at hpar' ⊢ with h
        · obtain ⟨rfl, rfl⟩ := node_inj hpar'
          omega
        · obtain ⟨rfl, rfl⟩ := node_inj hpar'
          omega)
    rw [← pow_succ, show N - 1 - j' + 1 = N - 1 - j by omega] at hTv
    refine ⟨(vec2str (node j k), T) :: c1, ?_, ?_, ?_, ?_⟩
    · rw [mttkrpMapDTR]
      simp only [hp, hc, bind, Except.bind]
      rw [hc1]
      simp only
      rw [show (vec2str [contractPos j k]) = [letter (contractPos j k), star] from rfl]
      rw [show (0 : ℤ) = ((0 : ℕ) : ℤ) from rfl, rd_of (x := letter (contractPos j k)) rfl]
      simp only
      rw [lensNode_ok hN hS left (node_lt hj hk)]
      simp only
      rw [decode_letter (by omega), rd_of (indexesOf_get left hcp)]
      simp only
      rw [hWr]
      simp only [hTp]
      rw [vec2str_eq_lab hN left (v := node j k) (fun p hp => by have := node_lt hj hk p hp; omega),
        vec2str_eq_lab hN left (v := node j' k') (fun p hp => by have := node_lt hj' hk' p hp; omega)]
      have hlab : (letter (contractPos j k) : Label) =
          (posLab hN left).lab (modeAt left (contractPos j k)) := by
        simp [posLab, posOf_modeAt left (show contractPos j k < N by omega)]
      rw [hlab]
      have hT' := hT
      unfold nodeModes at hT'
      rw [show (star : Label) = (posLab hN left).rk from rfl, hT']
      rfl
    · constructor
      · intro a b hab hb hib T' hlook
        by_cases e : vec2str (node a b) = vec2str (node j k)
        · obtain ⟨rfl, rfl⟩ := vec2str_node_inj hab (by omega) hj (by omega) e
          rw [lookup_cons_self] at hlook
          cases hlook
          exact hTv
        · rw [lookup_cons_ne e] at hlook
          exact hI1.valid a b hab hb hib T' hlook
      · by_cases e : vec2str (node (N - 2) (N - 2)) = vec2str (node j k)
        · rw [e, lookup_cons_self]; rfl
        · rw [lookup_cons_ne e]; exact hI1.top
    · intro a b hab hb hib
      rw [lookup_cons_ne]
      · exact hR1 a b hab hb hib
      · intro e
        obtain ⟨rfl, rfl⟩ := vec2str_node_inj (by omega) (by omega) hj (by omega) e
        omega
    · rw [lookup_cons_self]; rfl

theorem treeMR_ok {B : ℕ} {u : ℝ} {P : Arith} (hP : RoundOk B u P) (hu : 0 ≤ u) (hB : 1 ≤ B) (h3 : 3 ≤ N) (hN : N ≤ 31)
    {dims : Fin N → ℕ} {R : ℕ} (hd : ∀ j, dims j ≤ B) (hRB : R ≤ B) {V : Tensor ℝ}
    {W : List (Tensor ℝ)} (hS : Shaped dims R V W) (left : Fin N) {tree : Tree}
    (ht : GoodTree (N - 1) tree) {i : ℕ} (hi : i < N - 1)
    {cache : Cache ℝ} (hI : CacheNear u dims R (arr V N) (mats W) left i cache)
    (hR : NoRight N i cache) :
    ∃ M cache', treeMR P N tree V (indexesOf N left.1) W cache i = .ok (M, cache') ∧
      Near ((1 + u) ^ (N - 1)) dims R (arr V N) (mats W) M [modeAt left i] ∧
      CacheNear u dims R (arr V N) (mats W) left i cache' ∧ NoRight N (i + 1) cache' := by
  have hkey : vec2str [i] = vec2str (node 0 i) := by simp [node]
  have hRi : NoRight N (i + 1) cache := fun j k h1 h2 h3 => hR j k h1 h2 (by omega)
  obtain ⟨c1, hc1, hI1, hR1, hsome⟩ : ∃ c1, (if (cache.lookup (vec2str [i])).isNone then
      mttkrpMapDTR P tree (indexesOf N left.1) V W (N + 1) (vec2str [i]) cache
      else pure cache) = .ok c1 ∧ CacheNear u dims R (arr V N) (mats W) left i c1 ∧
      NoRight N (i + 1) c1 ∧ (c1.lookup (vec2str [i])).isSome := by
    by_cases hn : (cache.lookup (vec2str [i])).isNone
    · rw [if_pos hn, hkey]
      exact mapDTR_ok hP hu hB hN hd hRB hS left ht i (N + 1) 0 i cache (by omega) hi (by omega) (by omega)
        (by omega) hI hRi
    · rw [if_neg hn]
      exact ⟨cache, rfl, hI, hRi, by simpa [Option.isSome_iff_ne_none] using hn⟩
  obtain ⟨M, hM⟩ := Option.isSome_iff_exists.1 hsome
  have hM' := hM
  rw [hkey] at hM'
  have hMv := hI1.valid 0 i (by omega) hi (le_refl _) M hM'
  rw [show nodeModes left 0 i = [modeAt left i] by simp [nodeModes, node]] at hMv
  refine ⟨M, c1, ?_, hMv, hI1, hR1⟩
  unfold treeMR
  simp only [bind, Except.bind]
  rw [hc1]
  simp only [hM]
  rfl

theorem CacheNear.next {u : ℝ} {dims : Fin N → ℕ} {R : ℕ} {V : (Fin N → ℕ) → ℝ} {W W' : Fin N → ℕ → ℕ → ℝ}
    {left : Fin N} {i : ℕ} (hi : i < N - 1) {cache : Cache ℝ} (hI : CacheNear u dims R V W left i cache)
    (hR : NoRight N (i + 1) cache) (hW : ∀ m, m ≠ modeAt left i → W' m = W m) :
    CacheNear u dims R V W' left (i + 1) cache := by
  constructor
  · intro j k hj hk hik T hT
    rcases Nat.lt_or_ge j k with hlt | hge
    · rw [hR j k hlt hk hik] at hT
      cases hT
    · obtain rfl : j = k := by omega
      refine (hI.valid j j hj hk (by omega) T hT).congr ?_
      intro m hm
      have hne : m ≠ modeAt left i := by
        rintro rfl
        apply hm
        rw [mem_nodeModes (le_refl _) (by omega), posOf_modeAt left (by omega)]
        omega
      exact (hW m hne).symm
  · exact hI.top

/-- A run of the loop over consecutive positions, for an arbitrary update that only touches the factor of its own mode. -/
theorem treeLoopR_gen {σ : Type} {B : ℕ} {u : ℝ} {P : Arith} (hP : RoundOk B u P) (hu : 0 ≤ u) (hB : 1 ≤ B) (h3 : 3 ≤ N) (hN : N ≤ 31)
    {dims : Fin N → ℕ} {R : ℕ} (hd : ∀ j, dims j ≤ B) (hRB : R ≤ B) {V : Tensor ℝ}
    (Wof : σ → List (Tensor ℝ)) (upd : σ → ℕ → ℕ → Tensor ℝ → Except Fault σ)
    (Q : ℕ → σ → Prop) (left : Fin N) {tree : Tree} (ht : GoodTree (N - 1) tree)
    {s c : ℕ} (hsc : s + c ≤ N - 1) {st : σ} (hS : Shaped dims R V (Wof st)) (h0 : Q s st)
    {T : Tensor ℝ}
    (hTv : Near (1 + u) dims R (arr V N) (mats (Wof st)) T (nodeModes left (N - 2) (N - 2)))
    (hupd : ∀ i a M, s ≤ i → i < s + c → Shaped dims R V (Wof a) → Q i a →
      Near ((1 + u) ^ (N - 1)) dims R (arr V N) (mats (Wof a)) M [modeAt left i] →
      ∃ b, upd a i (modeAt left i).1 M = .ok b ∧ Shaped dims R V (Wof b) ∧ Q (i + 1) b ∧
        ∀ m : Fin N, m ≠ modeAt left i → mats (Wof b) m = mats (Wof a) m) :
    ∃ st' cache', (List.range' s c).foldlM (treeBodyR P N tree V (indexesOf N left.1) Wof upd)
        (st, [(vec2str (node (N - 2) (N - 2)), T)]) = .ok (st', cache') ∧
      Shaped dims R V (Wof st') ∧ Q (s + c) st' := by
  obtain ⟨⟨st', cache'⟩, h1, h2, h4, _⟩ := foldlM_range'_inv
    (f := treeBodyR P N tree V (indexesOf N left.1) Wof upd)
    (P := fun i (q : σ × Cache ℝ) => Shaped dims R V (Wof q.1) ∧ Q i q.1 ∧
      CacheNear u dims R (arr V N) (mats (Wof q.1)) left i q.2 ∧ NoRight N i q.2)
    (s := s) (n := c) (a := (st, [(vec2str (node (N - 2) (N - 2)), T)]))
    ⟨hS, h0, by
      constructor
      · intro j k hj hk _ T' hT'
        by_cases e : vec2str (node j k) = vec2str (node (N - 2) (N - 2))
        · obtain ⟨rfl, rfl⟩ := vec2str_node_inj hj (by omega) (le_refl _) (by omega) e
          rw [lookup_cons_self] at hT'
          cases hT'
          rw [show N - 1 - (N - 2) = 1 by omega, pow_one]
          exact hTv
        · rw [lookup_cons_ne e] at hT'
          simp at hT'
      · simp, by
      intro j k hj hk _
      rw [lookup_cons_ne]
      · rfl
      · intro e
        obtain ⟨rfl, rfl⟩ := vec2str_node_inj (by omega) (by omega) (le_refl _) (by omega) e
        omega⟩
    (by
      rintro i ⟨a, cache⟩ hsi hic ⟨g1, g2, g3, g4⟩
      obtain ⟨M, c1, m1, m2, m5, m6⟩ := treeMR_ok hP hu hB h3 hN hd hRB g1 left ht (i := i) (by omega) g3 g4
      obtain ⟨b, b1, b2, b3, b4⟩ := hupd i a M hsi hic g1 g2 m2
      refine ⟨(b, c1), ?_, b2, b3, m5.next (by omega) m6 b4, m6⟩
      unfold treeBodyR
      simp only [bind, Except.bind]
      rw [m1]
      simp only
      rw [rd_of (indexesOf_get left (by omega))]
      simp only [b1]
      rfl)
  exact ⟨st', cache', h1, h2, h4⟩

end Model
