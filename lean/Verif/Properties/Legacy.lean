import Verif.Proofs.LegacySweep
import Verif.Properties.Build

/-! # C22–C25: the legacy dimension tree -/

namespace Properties

open Model

variable {K : Type} [CommRing K] {N : ℕ}

section C22

theorem sub_children {s e : ℕ} {n p b : Iv} (h : Sub s e n p b) (hl : n.1 < n.2) :
    Sub s e (n.1, (n.1 + n.2) / 2) n ((n.1 + n.2) / 2 + 1, n.2) := by
  induction h with
  | left h => exact .inL h (.left hl)
  | right h => exact .inR h (.left hl)
  | inL h _ ih => exact .inL h (ih hl)
  | inR h _ ih => exact .inR h (ih hl)

/-- **C22.** For every order `2 ≤ N ≤ 159` the maps `parent` and `sibling` built by `Construct_Dimension_Tree(0, N-1)`
describe a balanced binary partition tree over the string of all modes: every recorded node and its sibling are nonempty,
their lengths differ by at most one and their concatenation is the parent; the sibling has the same parent and the node as
its sibling; the parent is the full string or itself recorded. -/
theorem C22_records (h2 : 2 ≤ N) (hN : N ≤ 159) (k p : Key)
    (h : (constructDT 0 (N - 1) {}).parent.lookup k = some p) :
    ∃ s, (constructDT 0 (N - 1) {}).sibling.lookup k = some s ∧ k ≠ [] ∧ s ≠ [] ∧ (p = k ++ s ∨ p = s ++ k) ∧
      k.length ≤ s.length + 1 ∧ s.length ≤ k.length + 1 ∧
      (constructDT 0 (N - 1) {}).parent.lookup s = some p ∧ (constructDT 0 (N - 1) {}).sibling.lookup s = some k ∧
      (p = (List.range N).map letter ∨ ∃ q, (constructDT 0 (N - 1) {}).parent.lookup p = some q) := by
  obtain ⟨n, pp, b, hs, rfl⟩ := constructDT_only (s := 0) (e := N - 1) (by omega) (by omega) (.inl h)
  obtain ⟨r1, r2⟩ := constructDT_sub (by omega) hs {}
  obtain ⟨r3, r4⟩ := constructDT_sub (by omega) hs.swap {}
  rw [r1] at h
  cases h
  have hn := hs.node_le
  have hb := hs.swap.node_le
  refine ⟨ivStr b, r2, ?_, ?_, ?_, ?_, ?_, r3, r4, ?_⟩
  · intro hh; have := congrArg List.length hh; rw [strOf_length] at this; simp at this; omega
  · intro hh; have := congrArg List.length hh; rw [strOf_length] at this; simp at this; omega
  · obtain ⟨a1, a2, a3, (⟨e1, e2⟩ | ⟨e1, e2⟩)⟩ := hs.shape
    · left; rw [e1, e2]; exact (strOf_append (by omega) (by omega)).symm
    · right; rw [e1, e2]; exact (strOf_append (by omega) (by omega)).symm
  · rw [strOf_length, strOf_length]
    obtain ⟨a1, a2, a3, (⟨e1, e2⟩ | ⟨e1, e2⟩)⟩ := hs.shape <;> rw [e1, e2] <;> simp only <;> omega
  · rw [strOf_length, strOf_length]
    obtain ⟨a1, a2, a3, (⟨e1, e2⟩ | ⟨e1, e2⟩)⟩ := hs.shape <;> rw [e1, e2] <;> simp only <;> omega
  · rcases hs.up with rfl | ⟨p', b', hp⟩
    · left
      simp only [ivStr, strOf, List.range_eq_range']
      rw [show N - 1 + 1 - 0 = N by omega]
    · exact .inr ⟨_, (constructDT_sub (by omega) hp {}).1⟩

/-- **C22.** A node has a recorded sibling exactly when it has a recorded parent. -/
theorem C22_same_domain (h2 : 2 ≤ N) (hN : N ≤ 159) (k : Key) :
    ((constructDT 0 (N - 1) {}).parent.lookup k).isSome ↔ ((constructDT 0 (N - 1) {}).sibling.lookup k).isSome := by
  constructor
  · intro h
    obtain ⟨p, hp⟩ := Option.isSome_iff_exists.1 h
    obtain ⟨s, hs, _⟩ := C22_records h2 hN k p hp
    rw [hs]; rfl
  · intro h
    obtain ⟨q, hq⟩ := Option.isSome_iff_exists.1 h
    obtain ⟨n, pp, b, hs, rfl⟩ := constructDT_only (s := 0) (e := N - 1) (by omega) (by omega) (.inr hq)
    rw [(constructDT_sub (by omega) hs {}).1]; rfl

/-- **C22.** Every single mode is a recorded node. -/
theorem C22_leaves (h2 : 2 ≤ N) (hN : N ≤ 159) (i : ℕ) (hi : i < N) :
    ((constructDT 0 (N - 1) {}).parent.lookup [letter i]).isSome := by
  obtain ⟨p, b, hs⟩ := Sub.leaf (s := 0) (e := N - 1) (i := i) (by omega) (by omega) (by omega)
  have := (constructDT_sub (by omega) hs {}).1
  simp only [ivStr, strOf_self] at this
  rw [this]; rfl

/-- **C22.** The full string and every recorded node of at least two modes are split into two recorded children. -/
theorem C22_children (h2 : 2 ≤ N) (hN : N ≤ 159) (k : Key) (hk : 2 ≤ k.length)
    (h : k = (List.range N).map letter ∨ ∃ q, (constructDT 0 (N - 1) {}).parent.lookup k = some q) :
    ∃ a b, k = a ++ b ∧ (constructDT 0 (N - 1) {}).parent.lookup a = some k ∧
      (constructDT 0 (N - 1) {}).parent.lookup b = some k := by
  obtain ⟨n, hn, hlt, h1, h2, h3⟩ : ∃ n : Iv, k = ivStr n ∧ n.1 < n.2 ∧ n.2 ≤ N - 1 ∧
      Sub 0 (N - 1) (n.1, (n.1 + n.2) / 2) n ((n.1 + n.2) / 2 + 1, n.2) ∧
      Sub 0 (N - 1) ((n.1 + n.2) / 2 + 1, n.2) n (n.1, (n.1 + n.2) / 2) := by
    rcases h with rfl | ⟨q, hq⟩
    · refine ⟨(0, N - 1), ?_, by simp only; omega, le_refl _, .left (by omega), .right (by omega)⟩
      simp only [ivStr, strOf, List.range_eq_range']
      rw [show N - 1 + 1 - 0 = N by omega]
    · obtain ⟨n, pp, b, hs, rfl⟩ := constructDT_only (s := 0) (e := N - 1) (by omega) (by omega) (.inl hq)
      rw [strOf_length] at hk
      have hl : n.1 < n.2 := by omega
      exact ⟨n, rfl, hl, hs.node_le.2.2.1, sub_children hs hl, (sub_children hs hl).swap⟩
  refine ⟨strOf n.1 ((n.1 + n.2) / 2), strOf ((n.1 + n.2) / 2 + 1) n.2, ?_, ?_, ?_⟩
  · rw [hn]; exact (strOf_append (by omega) (by omega)).symm
  · rw [hn]; exact (constructDT_sub (by omega) h2 {}).1
  · rw [hn]; exact (constructDT_sub (by omega) h3 {}).1

end C22

section C23

variable {dims : Fin N → ℕ} {R : ℕ} {V : Tensor K} {W : List (Tensor K)}

/-- **C23 (nodes).** Order 4 or 6..31, any mode lengths: `mttkrp_map_DT`, called on an empty map for the node that
consists of the modes `lo..hi`, stores the exact contraction of the input with the factors of all other modes. -/
theorem C23_node_exact (h4 : 4 ≤ N) (h5 : N ≠ 5) (hN : N ≤ 31) (hS : Shaped dims R V W) (lo hi : ℕ) (p : Key)
    (hp : (constructDT 0 (N - 1) {}).parent.lookup ((List.range' lo (hi + 1 - lo)).map letter) = some p)
    (hlo : lo ≤ hi) (hhi : hi < N) :
    ∃ cache T, cpMapDT N (constructDT 0 (N - 1) {}) V W (N + 1) ((List.range' lo (hi + 1 - lo)).map letter) [] = .ok cache ∧
      cache.lookup ((List.range' lo (hi + 1 - lo)).map letter) = some T ∧ T.lens.length = hi - lo + 2 ∧
      ∀ y : Fin N → ℕ, (∀ m, y m < dims m) → ∀ r < R,
        T.val (((List.finRange N).filter fun m : Fin N => lo ≤ m.1 ∧ m.1 ≤ hi).map y ++ [r]) =
          Spec.partialMttkrp dims (arr V N) (mats W) (Finset.univ.filter fun m : Fin N => lo ≤ m.1 ∧ m.1 ≤ hi) y r := by
  obtain ⟨n, pp, b, hs, hk⟩ := constructDT_only (s := 0) (e := N - 1) (by omega) (by omega) (.inl hp)
  have hle := hs.node_le
  obtain ⟨e1, e2⟩ := strOf_inj hlo hle.2.1 (by omega) (by omega) (hk : strOf lo hi = strOf n.1 n.2)
  obtain rfl : n = (lo, hi) := Prod.ext e1.symm e2.symm
  obtain ⟨c, hc, _, T, hT, _, hv⟩ := cpMapDT_ok h4 h5 hN hS (i := lo) (fuel := N + 1) hs (le_refl _) hlo (by omega)
    (DInv.nil _ _)
  have hms : ivModes (by omega) (lo, hi) = (List.finRange N).filter fun m : Fin N => lo ≤ m.1 ∧ m.1 ≤ hi := by
    rw [← ivModes_root (by omega)]
    unfold ivModes
    simp only
    rw [List.filter_map, show N - 1 + 1 - 0 = N by omega]
    congr 1
    apply List.Pairwise.eq_of_mem_iff (r := (· < ·))
    · exact List.pairwise_lt_range'
    · exact List.Pairwise.filter _ List.pairwise_lt_range'
    · intro a
      simp only [List.mem_range'_1, List.mem_filter, Function.comp, Bool.decide_and, Bool.and_eq_true, decide_eq_true_eq]
      constructor
      · intro h
        refine ⟨by omega, ?_⟩
        rw [modeOf_val (by omega) (by omega)]
        omega
      · rintro ⟨h1, h2⟩
        rw [modeOf_val (by omega) (by omega)] at h2
        omega
  refine ⟨c, T, hc, hT, ?_, ?_⟩
  · rw [hv.1]
    simp [ivModes_length]
    omega
  · intro y hy r hr
    have := hv.2 y (fun m _ => hy m) r hr
    rw [hms] at this
    rw [this]
    congr 1
    ext m
    simp

/-- **C23 (leaves).** Every mode `i`, starting with an empty map: the matrix `M` of `alsCP_DT` is the exact MTTKRP. (For the
maps that occur in the course of a sweep see `C25_sweep_exact`, where the solver is arbitrary.) -/
theorem C23_mttkrp_exact (h4 : 4 ≤ N) (h5 : N ≠ 5) (hN : N ≤ 31) (hS : Shaped dims R V W) (i : Fin N) :
    ∃ M cache, legacyM N (constructDT 0 (N - 1) {}) V W [] i.1 = .ok (M, cache) ∧ M.lens = [dims i, R] ∧
      ∀ x < dims i, ∀ r < R, mat M x r = Spec.mttkrp dims (arr V N) (mats W) i x r := by
  obtain ⟨M, c, h1, _, h3, h4', _⟩ := legacyM_ok h4 h5 hN hS i (DInv.nil _ _)
  exact ⟨M, c, h1, h3, h4'⟩

end C23

section C24

/-- **C24 (violation, order 5).** For every tensor of order 5 and all factors, a sweep of `alsCP_DT` already fails at the
first mode: it reads outside the string `parent["ab"]` (undefined behaviour). -/
theorem C24_order5_ub {dims : Fin 5 → ℕ} {R : ℕ} {V : Tensor K} {f : Fac K} (hS : Shaped dims R V f.W) (lam : K)
    (solve : Spec.Solver K) (F : List (Tensor K)) : legacyUpdates 5 R lam solve V F f = .error .ub := by
  obtain ⟨W0, hW0, _, _, _⟩ := mats_get hS 0
  have e0 : rd f.W 0 = .ok W0 := hW0
  have s1 : Sub 0 4 (0, 2) (0, 4) (3, 4) := .left (by omega)
  have s2 : Sub 0 4 (0, 1) (0, 2) (2, 2) := .inL (by omega) (.left (by omega))
  have s3 : Sub 0 4 (0, 0) (0, 1) (1, 1) := .inL (by omega) (.inL (by omega) (.left (by omega)))
  obtain ⟨p2, b2⟩ := mapGet_tree (N := 5) (by omega) s2
  obtain ⟨p3, b3⟩ := mapGet_tree (N := 5) (by omega) s3
  simp only [ivStr, strOf_self] at p2 p3 b2 b3
  have hr : rd [letter 2] 0 = .ok (letter 2) := rfl
  have hcp : cpFromRoot 5 (constructDT 0 (5 - 1) {}) V f.W (strOf 0 1) = .error .ub := by
    unfold cpFromRoot
    simp only [bind, Except.bind, p2, b2]
    rw [e0, hr]
    simp only
    rw [if_pos (.inl (by rw [strOf_length]; omega))]
  have hmap : cpMapDT 5 (constructDT 0 (5 - 1) {}) V f.W 6 (strOf 0 1) [] = .error .ub := by
    unfold cpMapDT dtNode
    rw [if_neg (by simp), if_pos (by rw [strOf_length]; omega)]
    simp only [bind, Except.bind]
    rw [hcp]
  have hM : legacyM 5 (constructDT 0 (5 - 1) {}) V f.W [] 0 = .error .ub := by
    unfold legacyM
    simp only [bind, Except.bind, p3, b3]
    rw [if_pos (by simp), hmap]
  unfold legacyUpdates
  simp only
  rw [show List.range 5 = [0, 1, 2, 3, 4] from rfl, List.foldlM_cons]
  unfold legacyUpdate
  simp only [bind, Except.bind]
  rw [hM]

theorem dtNode_empty_diverges {τ : Type} {order : ℕ} {tree : LTree} {fr : Key → Except Fault τ}
    {fp : Key → τ → Except Fault τ} (h2 : 2 ≤ order) (ht : tree.parent.lookup [] = none) (fuel : ℕ)
    (cache : List (Key × τ)) (hc : cache.lookup [] = none) : dtNode order tree fr fp fuel [] cache = .error .diverge := by
  induction fuel with
  | zero => rfl
  | succ fuel ih =>
    unfold dtNode
    rw [if_neg (by simp [hc]), if_neg (by simp; omega)]
    simp only [mapGet, ht, Option.getD_none, hc, Option.isNone_none, if_true, bind, Except.bind]
    rw [ih]

/-- **C24 (violation, order 3).** At order 3, `mttkrp_map_DT` called for the string of all modes (as `alsCP_DT` does for
the last mode) recurses without bound: no amount of fuel suffices. -/
theorem C24_order3_diverges (V : Tensor K) (W : List (Tensor K)) (fuel : ℕ) (cache : Cache K)
    (h1 : cache.lookup [] = none) (h2 : cache.lookup [letter 0, letter 1, letter 2] = none) :
    cpMapDT 3 (constructDT 0 2 {}) V W fuel [letter 0, letter 1, letter 2] cache = .error .diverge := by
  have hk : ∀ k : Key, (∀ n p b, Sub 0 2 n p b → k ≠ ivStr n) → (constructDT 0 2 {}).parent.lookup k = none := by
    intro k hk
    rw [(constructDT_other (by omega) (by omega) hk {}).1]
    rfl
  have e1 : (constructDT 0 2 {}).parent.lookup [] = none := by
    apply hk
    intro n p b h hh
    have := congrArg List.length hh
    rw [strOf_length] at this
    have := h.node_le
    simp at this ⊢
    simp at *
    omega
  have e2 : (constructDT 0 2 {}).parent.lookup [letter 0, letter 1, letter 2] = none := by
    apply hk
    intro n p b h hh
    have := congrArg List.length hh
    rw [strOf_length] at this
    have := h.node_le
    simp at *
    omega
  cases fuel with
  | zero => rfl
  | succ fuel =>
    unfold cpMapDT dtNode
    rw [if_neg (by simp [h2]), if_neg (by simp)]
    simp only [mapGet, e2, Option.getD_none, h1, Option.isNone_none, if_true, bind, Except.bind]
    rw [dtNode_empty_diverges (by omega) e1 fuel cache h1]

/-- **C24 (violation, order 3).** A sweep of `alsCP_DT` at order 3 never completes, whatever the tensor and the factors. -/
theorem C24_order3_no_sweep (R : ℕ) (V : Tensor K) (F : List (Tensor K)) (f : Fac K) (lam : K) (solve : Spec.Solver K)
    (f' : Fac K) : legacyUpdates 3 R lam solve V F f ≠ .ok f' := by
  have s0 : Sub 0 2 (0, 0) (0, 1) (1, 1) := .inL (by omega) (.left (by omega))
  have s1 : Sub 0 2 (1, 1) (0, 1) (0, 0) := .inL (by omega) (.right (by omega))
  have s2 : Sub 0 2 (2, 2) (0, 2) (0, 1) := .right (by omega)
  have p0 := (mapGet_tree (N := 3) (by omega) s0).1
  have p1 := (mapGet_tree (N := 3) (by omega) s1).1
  have p2 := (mapGet_tree (N := 3) (by omega) s2).1
  simp only [ivStr, strOf_self] at p0 p1 p2
  -- only the key "ab" is added for the first two modes
  have key : ∀ (s s' : Fac K × Cache K) (i : ℕ), i < 2 →
      legacyUpdate 3 R lam solve (constructDT 0 (3 - 1) {}) V F s i = .ok s' →
      (∀ k, k ≠ strOf 0 1 → s.2.lookup k = none) → ∀ k, k ≠ strOf 0 1 → s'.2.lookup k = none := by
    intro s s' i hi h hs k hk
    have hp : mapGet (constructDT 0 (3 - 1) {}).parent [letter i] = strOf 0 1 := by
      interval_cases i
      · exact p0
      · exact p1
    unfold legacyUpdate at h
    simp only [bind, Except.bind] at h
    cases hM : legacyM 3 (constructDT 0 (3 - 1) {}) V s.1.W s.2 i with
    | error e => rw [hM] at h; simp at h
    | ok r =>
      rw [hM] at h
      simp only at h
      have hs' : s'.2 = r.2 := by
        cases h1 : gramS (swapIdx 3 i) R lam s.1.W with
        | error e => rw [h1] at h; simp at h
        | ok S =>
          rw [h1] at h
          simp only at h
          cases h2 : rd F (i : ℤ) with
          | error e => rw [h2] at h; simp at h
          | ok Fi =>
            rw [h2] at h
            simp only at h
            cases h3 : zipT (· + ·) r.1 Fi with
            | error e => rw [h3] at h; simp at h
            | ok M =>
              rw [h3] at h
              simp only at h
              cases h4 : modeTail solve s.1 i M S with
              | error e => rw [h4] at h; simp at h
              | ok g =>
                rw [h4] at h
                simp only [pure, Except.pure, Except.ok.injEq] at h
                rw [← h]
      rw [hs']
      have hr : r.2.lookup k = none := by
        unfold legacyM at hM
        simp only [bind, Except.bind, hp] at hM
        -- the cache used
        have hcache : ∀ c, (if (s.2.lookup (strOf 0 1)).isNone then
            cpMapDT 3 (constructDT 0 (3 - 1) {}) V s.1.W (3 + 1) (strOf 0 1) s.2 else pure s.2) = .ok c →
            c.lookup k = none := by
          intro c hc
          by_cases hn : (s.2.lookup (strOf 0 1)).isNone
          · rw [if_pos hn] at hc
            unfold cpMapDT dtNode at hc
            rw [if_neg (by rw [Option.isNone_iff_eq_none] at hn; rw [hn]; simp), if_pos (by rw [strOf_length]; omega)] at hc
            simp only [bind, Except.bind] at hc
            cases hT : cpFromRoot 3 (constructDT 0 (3 - 1) {}) V s.1.W (strOf 0 1) with
            | error e => rw [hT] at hc; simp at hc
            | ok T =>
              rw [hT] at hc
              simp only [pure, Except.pure, Except.ok.injEq] at hc
              rw [← hc, lookup_cons_ne hk]
              exact hs k hk
          · rw [if_neg hn] at hc
            simp only [pure, Except.pure, Except.ok.injEq] at hc
            rw [← hc]; exact hs k hk
        cases hc : (if (s.2.lookup (strOf 0 1)).isNone then
            cpMapDT 3 (constructDT 0 (3 - 1) {}) V s.1.W (3 + 1) (strOf 0 1) s.2 else pure s.2) with
        | error e => rw [hc] at hM; simp at hM
        | ok c =>
          have hck := hcache c hc
          rw [hc] at hM
          simp only at hM
          have : r.2 = c := by
            revert hM
            repeat' split
            all_goals intro hM
            all_goals first
              | (simp only [pure, Except.pure, Except.ok.injEq] at hM; rw [← hM])
              | (exact absurd hM (by simp))
          rw [this]; exact hck
      exact hr
  have last : ∀ s : Fac K × Cache K, (∀ k, k ≠ strOf 0 1 → s.2.lookup k = none) →
      legacyUpdate 3 R lam solve (constructDT 0 (3 - 1) {}) V F s 2 = .error .diverge := by
    intro s hs
    unfold legacyUpdate legacyM
    simp only [bind, Except.bind, p2]
    have hne : ∀ k : Key, k.length ≠ 2 → s.2.lookup k = none := fun k hk =>
      hs k fun e => hk (by rw [e, strOf_length])
    have hd := C24_order3_diverges V s.1.W (3 + 1) s.2 (hne _ (by simp)) (hne _ (by simp))
    rw [show strOf 0 2 = [letter 0, letter 1, letter 2] from rfl]
    rw [if_pos (by rw [hne _ (by simp)]; rfl), hd]
  intro h
  unfold legacyUpdates at h
  simp only [show List.range 3 = [0, 1, 2] from rfl, List.foldlM_cons, List.foldlM_nil, bind, Except.bind] at h
  cases h0 : legacyUpdate 3 R lam solve (constructDT 0 (3 - 1) {}) V F (f, []) 0 with
  | error e => rw [h0] at h; simp at h
  | ok s0 =>
    rw [h0] at h
    simp only at h
    cases h1 : legacyUpdate 3 R lam solve (constructDT 0 (3 - 1) {}) V F s0 1 with
    | error e => rw [h1] at h; simp at h
    | ok s1 =>
      rw [h1] at h
      simp only at h
      rw [last s1 (key _ _ 1 (by omega) h1 (key _ _ 0 (by omega) h0 (by simp)))] at h
      simp at h

end C24

section C25

variable {dims : Fin N → ℕ} {R : ℕ} {V : Tensor K}

/-- One plain Gauss–Seidel sweep whose right-hand sides are the MTTKRPs plus the matrices `F`. -/
def sweepPlus (dims : Fin N → ℕ) (R : ℕ) (lam : K) (solve : Spec.Solver K) (V : (Fin N → ℕ) → K)
    (F : Fin N → ℕ → ℕ → K) (st : Spec.AlsState N K) : Spec.AlsState N K :=
  (List.finRange N).foldl (fun st i => Spec.modeUpdate dims R lam solve
    (fun x r => Spec.mttkrp dims V st.W i x r + F i x r) st i) st

theorem sweepPlus_zero (dims : Fin N → ℕ) (R : ℕ) (lam : K) (solve : Spec.Solver K) (V : (Fin N → ℕ) → K)
    (st : Spec.AlsState N K) :
    sweepPlus dims R lam solve V (fun _ _ _ => 0) st = Spec.alsSweep dims R lam solve V st := by
  unfold sweepPlus Spec.alsSweep Spec.alsRun
  congr 1
  funext st i
  simp only [add_zero]
  rfl

/-- **C25.** Order 4 or 6..31, any mode lengths, solver, regularisation and matrices `F`: the updates of a sweep of
`alsCP_DT`, with its cache of intermediates, are exactly those of the plain sweep that recomputes every MTTKRP. -/
theorem C25_sweep_exact (h4 : 4 ≤ N) (h5 : N ≠ 5) (hN : N ≤ 31) {F : List (Tensor K)} (hF : Shaped dims R V F)
    {f : Fac K} (hS : Shaped dims R V f.W) (hG : f.G.length = N) (lam : K) (solve : Spec.Solver K) :
    ∃ f', legacyUpdates N R lam solve V F f = .ok f' ∧ Shaped dims R V f'.W ∧ f'.G.length = N ∧
      facs N f' = sweepPlus dims R lam solve (arr V N) (mats F) (facs N f) :=
  legacyUpdates_ok h4 h5 hN lam solve hF hS hG

/-- **C25.** With `F = 0` (as the drivers call it) the sweep is the plain ALS sweep. -/
theorem C25_sweep_is_als (h4 : 4 ≤ N) (h5 : N ≠ 5) (hN : N ≤ 31) {F : List (Tensor K)} (hF : Shaped dims R V F)
    (hF0 : ∀ i x r, mats (N := N) F i x r = 0)
    {f : Fac K} (hS : Shaped dims R V f.W) (hG : f.G.length = N) (lam : K) (solve : Spec.Solver K) :
    ∃ f', legacyUpdates N R lam solve V F f = .ok f' ∧ Shaped dims R V f'.W ∧ f'.G.length = N ∧
      facs N f' = Spec.alsSweep dims R lam solve (arr V N) (facs N f) := by
  obtain ⟨f', h1, h2, h3, h4'⟩ := C25_sweep_exact h4 h5 hN hF hS hG lam solve
  refine ⟨f', h1, h2, h3, ?_⟩
  rw [h4', ← sweepPlus_zero]
  congr 1
  funext i x r
  exact hF0 i x r

/-- **C25 (with `Normalize`).** A whole sweep of `alsCP_DT` over `ℝ`, including the final `Normalize`: if the plain ALS
sweep leaves no factor zero, the result is the plain sweep with every factor multiplied by a positive number, these numbers
having product 1; so the CP reconstruction is that of the plain sweep. -/
theorem C25_sweep_normalized (h4 : 4 ≤ N) (h5 : N ≠ 5) (hN : N ≤ 31) {V : Tensor ℝ} {F : List (Tensor ℝ)}
    (hF : Shaped dims R V F) (hF0 : ∀ i x r, mats (N := N) F i x r = 0)
    {f : Fac ℝ} (hS : Shaped dims R V f.W) (hG : f.G.length = N) (lam : ℝ) (solve : Spec.Solver ℝ)
    (hne : ∀ j : Fin N, ∃ x < dims j, ∃ r < R, (Spec.alsSweep dims R lam solve (arr V N) (facs N f)).W j x r ≠ 0) :
    ∃ f', legacySweep N R lam solve V F f = .ok f' ∧ Shaped dims R V f'.W ∧ f'.G.length = N ∧
      (∃ c : Fin N → ℝ, (∀ j, 0 < c j) ∧ ∏ j, c j = 1 ∧ ∀ j, ∀ x < dims j, ∀ r < R,
        mats f'.W j x r = c j * (Spec.alsSweep dims R lam solve (arr V N) (facs N f)).W j x r) ∧
      ∀ idx ∈ Spec.Box dims, Spec.recon R (mats f'.W) idx =
        Spec.recon R (Spec.alsSweep dims R lam solve (arr V N) (facs N f)).W idx := by
  obtain ⟨f1, h1, h2, h3, h4'⟩ := C25_sweep_is_als h4 h5 hN hF hF0 hS hG lam solve
  have hw : mats f1.W = (Spec.alsSweep dims R lam solve (arr V N) (facs N f)).W := by rw [← h4']
  obtain ⟨W', w1, w2, w3, ⟨c, w4⟩, _⟩ := C17_normalize (by omega) h2 (by
    intro j hj
    obtain ⟨x, hx, r, hr, hxr⟩ := hne j
    unfold facNorm at hj
    rw [Real.sqrt_eq_zero (Finset.sum_nonneg fun _ _ => Finset.sum_nonneg fun _ _ => sq_nonneg _)] at hj
    rw [Finset.sum_eq_zero_iff_of_nonneg (fun _ _ => Finset.sum_nonneg fun _ _ => sq_nonneg _)] at hj
    have := hj x (Finset.mem_range.2 hx)
    rw [Finset.sum_eq_zero_iff_of_nonneg (fun _ _ => sq_nonneg _)] at this
    have := this r (Finset.mem_range.2 hr)
    rw [hw] at this
    exact hxr (by simpa using this))
  refine ⟨⟨W', f1.G⟩, ?_, w2, h3, ⟨c, w4.1, w4.2.1, ?_⟩, ?_⟩
  · unfold legacySweep
    simp only [bind, Except.bind]
    rw [h1]
    simp only
    rw [w1]
    rfl
  · rw [← hw]; exact w4.2.2
  · rw [← hw]; exact w3

end C25

/-! Non-vacuity: a problem of order 4 with mode lengths 2, 3, 1, 4. -/

example := C22_records (N := 7) (by norm_num) (by norm_num)
example := C23_mttkrp_exact (by norm_num) (by norm_num) (by norm_num) exShaped 2
example := C25_sweep_exact (by norm_num) (by norm_num) (by norm_num) exShaped exShaped rfl 3 (fun _ _ M _ => M)
example : (constructDT 0 3 {}).parent.lookup ((List.range' 2 2).map letter) = some ((List.range 4).map letter) := by
  have := (constructDT_sub (s := 0) (e := 3) (by omega) (Sub.right (by omega)) {}).1
  exact this

/-- Zero matrices `F`. -/
noncomputable def exF0 : List (Tensor ℝ) :=
  [⟨[2, 2], fun _ => 0⟩, ⟨[3, 2], fun _ => 0⟩, ⟨[1, 2], fun _ => 0⟩, ⟨[4, 2], fun _ => 0⟩]

example : ∃ f', legacySweep 4 2 (1 / 2) (fun _ _ _ _ _ _ => 1) exVR exF0 exFacR = .ok f' := by
  obtain ⟨f', h, _⟩ := C25_sweep_normalized (N := 4) (dims := ![2, 3, 1, 4]) (R := 2) (by norm_num) (by norm_num)
    (by norm_num) (V := exVR) (F := exF0)
    ⟨rfl, rfl, by intro j M h; fin_cases j <;> (simp [exF0] at h; subst h; rfl)⟩
    (by intro j x r; fin_cases j <;> rfl) exShapedR rfl (1 / 2) (fun _ _ _ _ _ _ => 1) (by
      intro j
      refine ⟨0, by fin_cases j <;> simp, 0, by norm_num, ?_⟩
      unfold Spec.alsSweep Spec.alsRun
      simp only [List.finRange_succ, List.finRange_zero, List.foldl_cons, List.foldl_nil, List.map_cons, List.map_nil,
        Spec.alsUpdate, Spec.alsFactor]
      fin_cases j <;> simp [Function.update, Spec.clip, Fin.ext_iff])
  exact ⟨f', h⟩

example : Shaped (K := ℤ) (N := 5) (fun _ => 1) 1 ⟨[1, 1, 1, 1, 1], fun _ => 1⟩ (List.replicate 5 ⟨[1, 1], fun _ => 1⟩) where
  lensV := rfl
  count := rfl
  lensW := by
    intro j M h
    fin_cases j <;> (simp at h; subst h; rfl)

end Properties
