import Verif.Proofs.CostLegacySweep

/-! Sums over the record of one sweep of the legacy dimension-tree ALS. -/

namespace Model

open Spec (Tag Work termsOf storedOf countOf)
open Finset

variable {N : ℕ}

/-- Summing over the nodes of a tree. -/
theorem sum_below {s e : ℕ} (h : s < e) (f : Nd → ℕ) : ∑ t ∈ below s e, f t =
    ((if s < (s + e) / 2 then f ((s, (s + e) / 2), (s, e), ((s + e) / 2 + 1, e)) else 0) +
      (if (s + e) / 2 + 1 < e then f (((s + e) / 2 + 1, e), (s, e), (s, (s + e) / 2)) else 0)) +
    (∑ t ∈ below s ((s + e) / 2), f t + ∑ t ∈ below ((s + e) / 2 + 1) e, f t) := by
  conv_lhs => rw [below, if_pos h]
  rw [Finset.sum_union, Finset.sum_union, Finset.sum_union]
  · congr 1
    congr 1 <;> split_ifs <;> simp
  · rw [Finset.disjoint_left]
    rintro ⟨n, p, b⟩ h1 h2
    have a1 := (mem_below.1 h1).1.node_le
    have a2 := (mem_below.1 h2).1.node_le
    simp only at a1 a2
    omega
  · rw [Finset.disjoint_left]
    rintro ⟨n, p, b⟩ h1 h2
    split_ifs at h1 h2
    · simp only [mem_singleton, Prod.mk.injEq] at h1 h2
      have := h1.1.symm.trans h2.1
      simp only [Prod.mk.injEq] at this
      omega
    all_goals simp at h1 h2
  · rw [Finset.disjoint_left]
    rintro ⟨n, p, b⟩ h1 h2
    have hn : n = (s, (s + e) / 2) ∨ n = ((s + e) / 2 + 1, e) := by
      rw [mem_union] at h1
      rcases h1 with h1 | h1 <;> split_ifs at h1
      · simp only [mem_singleton, Prod.mk.injEq] at h1; exact .inl h1.1
      · simp at h1
      · simp only [mem_singleton, Prod.mk.injEq] at h1; exact .inr h1.1
      · simp at h1
    rw [mem_union] at h2
    rcases h2 with h2 | h2
    · have a1 := (mem_below.1 h2).1.node_le
      simp only at a1
      rcases hn with rfl | rfl <;> simp only at a1 <;> omega
    · have a1 := (mem_below.1 h2).1.node_le
      simp only at a1
      rcases hn with rfl | rfl <;> simp only at a1 <;> omega

theorem below_single (s : ℕ) {e : ℕ} (h : e ≤ s) (f : Nd → ℕ) : ∑ t ∈ below s e, f t = 0 := by
  rw [below, if_neg (by omega)]
  simp

/-- Summing over the leaves of a tree. -/
theorem sum_par {s e : ℕ} (h : s < e) (f : Iv → ℕ) : ∑ i ∈ Icc s e, f (par s e i) =
    (if s < (s + e) / 2 then ∑ i ∈ Icc s ((s + e) / 2), f (par s ((s + e) / 2) i) else f (s, e)) +
    (if (s + e) / 2 + 1 < e then ∑ i ∈ Icc ((s + e) / 2 + 1) e, f (par ((s + e) / 2 + 1) e i) else f (s, e)) := by
  have hu : Icc s e = Icc s ((s + e) / 2) ∪ Icc ((s + e) / 2 + 1) e := by
    ext k
    simp only [mem_union, mem_Icc]
    omega
  rw [hu, Finset.sum_union]
  · congr 1
    · by_cases hs : s < (s + e) / 2
      · rw [if_pos hs]
        apply Finset.sum_congr rfl
        intro i hi
        rw [mem_Icc] at hi
        rw [par, if_pos h, if_pos hi.2, if_neg (by omega)]
      · rw [if_neg hs, show (s + e) / 2 = s by omega, Finset.Icc_self, Finset.sum_singleton, par, if_pos h, if_pos (by omega),
          if_pos (by omega)]
    · by_cases hs : (s + e) / 2 + 1 < e
      · rw [if_pos hs]
        apply Finset.sum_congr rfl
        intro i hi
        rw [mem_Icc] at hi
        conv_lhs => rw [par, if_pos h, if_neg (by omega), if_neg (by omega)]
      · rw [if_neg hs, show (s + e) / 2 + 1 = e by omega, Finset.Icc_self, Finset.sum_singleton, par, if_pos h, if_neg (by omega),
          if_pos (by omega)]
  · rw [Finset.disjoint_left]
    intro k
    simp only [mem_Icc]
    omega

theorem two_le_ivP {dims : Fin N → ℕ} (hd : ∀ m, 2 ≤ dims m) {a e : ℕ} (h : a ≤ e) (he : e < N) : 2 ≤ ivP dims (a, e) := by
  induction k : e - a generalizing a with
  | zero =>
    obtain rfl : a = e := by omega
    simp [ivP, dimN, he, hd]
  | succ k ih =>
    rw [ivP_split dims (a := a) (m := a) (by omega) h]
    have h1 := ih (a := a + 1) (by omega) (by omega)
    have h2 : 2 ≤ ivP dims (a, a) := by simp [ivP, dimN, show a < N by omega, hd]
    nlinarith

theorem four_le_ivP {dims : Fin N → ℕ} (hd : ∀ m, 2 ≤ dims m) {a e : ℕ} (h : a < e) (he : e < N) : 4 ≤ ivP dims (a, e) := by
  rw [ivP_split dims (a := a) (m := a) (by omega) (by omega)]
  have h1 := two_le_ivP hd (a := a + 1) (e := e) (by omega) he
  have h2 := two_le_ivP hd (a := a) (e := a) (by omega) (by omega)
  nlinarith

/-- Contracting the modes of an interval one after the other costs at most twice the first contraction. -/
theorem chain_le {dims : Fin N → ℕ} (hd : ∀ m, 2 ≤ dims m) {e : ℕ} (he : e < N) (k a : ℕ) (hk : e + 1 - a = k) :
    ∑ j ∈ range k, ivP dims (a + j, e) + 1 ≤ 2 * ivP dims (a, e) ∧
      (a ≤ e → ∑ j ∈ range (k - 1), ivP dims (a + (j + 1), e) ≤ ivP dims (a, e)) := by
  induction k generalizing a with
  | zero =>
    rw [Finset.sum_range_zero]
    have : 1 ≤ ivP dims (a, e) := by
      unfold ivP
      rw [Finset.Icc_eq_empty (by simp only; omega)]
      simp
    refine ⟨by omega, fun h => by omega⟩
  | succ k ih =>
    obtain ⟨h1, _⟩ := ih (a + 1) (by omega)
    have hsp := ivP_split dims (a := a) (m := a) (e := e) (by omega) (by omega)
    have h2 := two_le_ivP hd (a := a) (e := a) (by omega) (by omega)
    have hle : 2 * ivP dims (a + 1, e) ≤ ivP dims (a, e) := by
      rw [hsp]
      exact Nat.mul_le_mul_right _ h2
    have hre : ∑ j ∈ range k, ivP dims (a + 1 + j, e) = ∑ j ∈ range k, ivP dims (a + (j + 1), e) :=
      Finset.sum_congr rfl fun j _ => by rw [Nat.add_assoc, Nat.add_comm 1 j]
    rw [hre] at h1
    refine ⟨?_, fun _ => by rw [Nat.add_sub_cancel]; omega⟩
    rw [Finset.sum_range_succ']
    have e0 : ivP dims (a + 0, e) = ivP dims (a, e) := rfl
    rw [e0]
    omega

theorem termsOf_map_range (t : Tag) (f : ℕ → Work) (c : ℕ) :
    termsOf t ((List.range c).map f) = ∑ j ∈ range c, if (f j).tag = t then (f j).terms else 0 := by
  induction c with
  | zero => rfl
  | succ c ih => rw [List.range_succ, List.map_append, termsOf_append, ih, Finset.sum_range_succ]; simp [termsOf]

theorem countOf_map_range (t : Tag) (f : ℕ → Work) (c : ℕ) :
    countOf t ((List.range c).map f) = ∑ j ∈ range c, if (f j).tag = t then 1 else 0 := by
  induction c with
  | zero => rfl
  | succ c ih => rw [List.range_succ, List.map_append, countOf_append, ih, Finset.sum_range_succ]; simp [countOf]

/-- The part of a node that reads the input tensor. -/
theorem cpNodeW_input (dims : Fin N → ℕ) (R : ℕ) {n p b : Iv} (h : Sub 0 (N - 1) n p b) :
    countOf .input (cpNodeW dims R (n, p, b)) = (if p = (0, N - 1) then 1 else 0) ∧
    termsOf .input (cpNodeW dims R (n, p, b)) = (if p = (0, N - 1) then ivP dims n * ivP dims b * R else 0) := by
  have hb := h.swap.node_le
  unfold cpNodeW
  simp only
  rw [countOf_map_range, termsOf_map_range]
  by_cases hp : p = (0, N - 1)
  · rw [if_pos hp, if_pos hp, show b.2 + 1 - b.1 = (b.2 - b.1) + 1 by omega, Finset.sum_range_succ', Finset.sum_range_succ']
    simp [hp]
  · rw [if_neg hp, if_neg hp]
    simp [hp]

theorem cpNodeW_update (dims : Fin N → ℕ) (R : ℕ) (t : Nd) : termsOf .update (cpNodeW dims R t) = 0 := by
  refine (sums_zero ?_).1
  intro e he
  obtain ⟨j, _, rfl⟩ := List.mem_map.1 he
  simp only
  split_ifs <;> decide

/-- The other part of a node. -/
theorem cpNodeW_mttkrp {dims : Fin N → ℕ} (hd : ∀ m, 2 ≤ dims m) (R : ℕ) {n p b : Iv} (h : Sub 0 (N - 1) n p b) :
    termsOf .mttkrp (cpNodeW dims R (n, p, b)) ≤ (if p = (0, N - 1) then 1 else 2) * (ivP dims p * R) := by
  have hb := h.swap.node_le
  have hlt := h.lt
  obtain ⟨c1, c2⟩ := chain_le hd (e := b.2) (by omega) (b.2 + 1 - b.1) b.1 rfl
  have hp : ivP dims p = ivP dims n * ivP dims b := by
    obtain ⟨a1, a2, a3, (⟨e1, e2⟩ | ⟨e1, e2⟩)⟩ := h.shape
    · rw [e1, e2]
      exact ivP_split dims (a := p.1) (e := p.2) (by omega) (by omega)
    · rw [e1, e2, Nat.mul_comm]
      exact ivP_split dims (a := p.1) (e := p.2) (by omega) (by omega)
  unfold cpNodeW
  simp only
  rw [termsOf_map_range]
  by_cases hr : p = (0, N - 1)
  · rw [if_pos hr, show b.2 + 1 - b.1 = (b.2 - b.1) + 1 by omega, Finset.sum_range_succ']
    have hc := c2 (by omega)
    rw [show b.2 + 1 - b.1 - 1 = b.2 - b.1 by omega] at hc
    have e : ∀ j : ℕ, ¬ (p = (0, N - 1) ∧ j + 1 = 0) := fun j h => by omega
    simp only [if_neg (e _), if_pos trivial, and_true, if_pos hr]
    rw [← Finset.sum_mul, ← Finset.mul_sum, hp]
    have h1 := Nat.mul_le_mul_right R (Nat.mul_le_mul_left (ivP dims n) hc)
    simp only [reduceCtorEq, if_false]
    have : ivP dims b = ivP dims (b.1, b.2) := rfl
    rw [this]
    linarith
  · rw [if_neg hr]
    simp only [hr, false_and, if_false, if_true]
    rw [← Finset.sum_mul, ← Finset.mul_sum, hp]
    have h1 := Nat.mul_le_mul_right R (Nat.mul_le_mul_left (ivP dims n) (Nat.le_of_succ_le c1))
    have : ivP dims b = ivP dims (b.1, b.2) := rfl
    rw [this]
    linarith

/-- The tree below an interval, with the leaves. -/
theorem tree_le {dims : Fin N → ℕ} (hd : ∀ m, 2 ≤ dims m) {s e : ℕ} (hse : s < e) (he : e < N) :
    ∑ t ∈ below s e, 2 * ivP dims t.2.1 + ∑ i ∈ Icc s e, ivP dims (par s e i) ≤ 8 * ivP dims (s, e) := by
  induction k : e - s using Nat.strong_induction_on generalizing s e with
  | _ k ih =>
    subst k
    rw [sum_below hse, sum_par hse]
    simp only
    have hsp := ivP_split dims (a := s) (m := (s + e) / 2) (e := e) (by omega) (by omega)
    by_cases h1 : s < (s + e) / 2
    · rw [if_pos h1, if_pos h1]
      have i1 := ih ((s + e) / 2 - s) (by omega) h1 (by omega) rfl
      have p1 := four_le_ivP hd h1 (by omega)
      by_cases h2 : (s + e) / 2 + 1 < e
      · rw [if_pos h2, if_pos h2]
        have i2 := ih (e - ((s + e) / 2 + 1)) (by omega) h2 he rfl
        have p2 := four_le_ivP hd h2 he
        have hm : 2 * (ivP dims (s, (s + e) / 2) + ivP dims ((s + e) / 2 + 1, e)) ≤ ivP dims (s, e) := by
          rw [hsp]
          generalize ivP dims (s, (s + e) / 2) = x at p1
          generalize ivP dims ((s + e) / 2 + 1, e) = y at p2
          obtain ⟨x, rfl⟩ := Nat.exists_eq_add_of_le p1
          obtain ⟨y, rfl⟩ := Nat.exists_eq_add_of_le p2
          nlinarith [Nat.zero_le (x * y)]
        omega
      · rw [if_neg h2, if_neg h2, below_single ((s + e) / 2 + 1) (by omega)]
        have p2 := two_le_ivP hd (a := (s + e) / 2 + 1) (e := e) (by omega) he
        have hm : ivP dims (s, (s + e) / 2) * 2 ≤ ivP dims (s, e) := by
          rw [hsp]
          exact Nat.mul_le_mul_left _ p2
        omega
    · have h2 : ¬ (s + e) / 2 + 1 < e := by omega
      rw [if_neg h1, if_neg h1, if_neg h2, if_neg h2, below_single s (by omega), below_single ((s + e) / 2 + 1) (by omega)]
      omega

theorem legacyUpdW_tag (dims : Fin N → ℕ) (R : ℕ) (i : Fin N) : ∀ e ∈ legacyUpdW dims R i, e.tag = .update := by
  intro e he
  unfold legacyUpdW gramW gradW at he
  simp only [List.mem_append, List.mem_map, List.mem_singleton] at he
  rcases he with ⟨m, _, rfl⟩ | rfl <;> rfl

theorem modeW_sums (dims : Fin N → ℕ) (R : ℕ) {j : ℕ} (hj : j < N) :
    countOf .input (modeW dims R j) = 0 ∧ termsOf .input (modeW dims R j) = 0 ∧
    termsOf .mttkrp (modeW dims R j) = ivP dims (par 0 (N - 1) j) * R ∧
    termsOf .update (modeW dims R j) = (∑ m, dims m) * (R * R) := by
  unfold modeW
  rw [dif_pos hj, countOf_append, termsOf_append, termsOf_append, termsOf_append]
  obtain ⟨z1, z2, _⟩ := sums_zero (t := .input) (w := legacyUpdW dims R ⟨j, hj⟩) (fun e he => by
    rw [legacyUpdW_tag dims R _ e he]; decide)
  obtain ⟨z3, _, _⟩ := sums_zero (t := .mttkrp) (w := legacyUpdW dims R ⟨j, hj⟩) (fun e he => by
    rw [legacyUpdW_tag dims R _ e he]; decide)
  have hu : termsOf .update (legacyUpdW dims R ⟨j, hj⟩) = (∑ m, dims m) * (R * R) := by
    unfold legacyUpdW
    rw [termsOf_append, gramW_update, ← sum_othersN dims ⟨j, hj⟩ (fun _ => mem_swapIdx hj) (swapIdx_nodup _)]
    simp [gradW, termsOf]
    ring
  rw [z1, z2, z3, hu]
  simp [leafW, countOf, termsOf]

theorem ivP_root (h0 : 0 < N) (dims : Fin N → ℕ) : ivP dims (0, N - 1) = ∏ m, dims m := by
  rw [← ivModes_prod h0 dims (by simp only; omega), ivModes_root]
  rw [← List.ofFn_eq_map, List.prod_ofFn]

/-- The nodes that are not children of the root. -/
theorem below_ne_root {s e : ℕ} (h : 0 < s ∨ e < N - 1) {t : Nd} (ht : t ∈ below s e) : t.2.1 ≠ (0, N - 1) := by
  intro hr
  have := (mem_below.1 ht).1.shape
  rw [hr] at this
  simp only at this
  omega

theorem legacy_sums (h4 : 4 ≤ N) {dims : Fin N → ℕ} (R : ℕ) {w : List Work}
    (hw : ∀ μ, Additive μ → μ w = ∑ t ∈ below 0 (N - 1), μ (cpNodeW dims R t) + ∑ j ∈ range N, μ (modeW dims R j)) :
    countOf .input w = 2 ∧ termsOf .input w = 2 * ((∏ m, dims m) * R) ∧
    ((∀ m, 2 ≤ dims m) → termsOf .mttkrp w ≤ R * (2 * ∏ m, dims m + 8 * (ivP dims (0, (N - 1) / 2) + ivP dims ((N - 1) / 2 + 1, N - 1)))) ∧
    termsOf .update w = N * ((∑ m, dims m) * (R * R)) := by
  have h0 : 0 < N := by omega
  have hlt : 0 < N - 1 := by omega
  have hL : Sub 0 (N - 1) (0, (0 + (N - 1)) / 2) (0, N - 1) ((0 + (N - 1)) / 2 + 1, N - 1) := .left hlt
  have hR : Sub 0 (N - 1) ((0 + (N - 1)) / 2 + 1, N - 1) (0, N - 1) (0, (0 + (N - 1)) / 2) := .right hlt
  have hsp := ivP_split dims (a := 0) (m := (0 + (N - 1)) / 2) (e := N - 1) (by omega) (by omega)
  rw [ivP_root h0] at hsp
  have hinner : ∀ (μ : List Work → ℕ) {s e : ℕ}, (0 < s ∨ e < N - 1) → 0 ≤ s → e ≤ N - 1 → (∀ t ∈ below s e, t.2.1 ≠ (0, N - 1) → μ (cpNodeW dims R t) = 0) →
      ∑ t ∈ below s e, μ (cpNodeW dims R t) = 0 := by
    intro μ s e h _ _ hz
    exact Finset.sum_eq_zero fun t ht => hz t ht (below_ne_root h ht)
  refine ⟨?_, ?_, fun hd => ?_, ?_⟩
  · rw [hw _ (additive_count .input), sum_below hlt, if_pos (by omega), if_pos (by omega),
      Finset.sum_eq_zero (s := range N) (fun j hj => (modeW_sums dims R (mem_range.1 hj)).1),
      (cpNodeW_input dims R hL).1, (cpNodeW_input dims R hR).1]
    rw [Finset.sum_eq_zero (s := below 0 _) (fun t ht => ?_), Finset.sum_eq_zero (s := below _ (N - 1)) (fun t ht => ?_)]
    · simp
    · have := (cpNodeW_input dims R (n := t.1) (p := t.2.1) (b := t.2.2) (.inR hlt (mem_below.1 ht).1)).1
      rw [if_neg (below_ne_root (by omega) ht)] at this
      exact this
    · have := (cpNodeW_input dims R (n := t.1) (p := t.2.1) (b := t.2.2) (.inL hlt (mem_below.1 ht).1)).1
      rw [if_neg (below_ne_root (by omega) ht)] at this
      exact this
  · rw [hw _ (additive_terms .input), sum_below hlt, if_pos (by omega), if_pos (by omega),
      Finset.sum_eq_zero (s := range N) (fun j hj => (modeW_sums dims R (mem_range.1 hj)).2.1),
      (cpNodeW_input dims R hL).2, (cpNodeW_input dims R hR).2]
    rw [Finset.sum_eq_zero (s := below 0 _) (fun t ht => ?_), Finset.sum_eq_zero (s := below _ (N - 1)) (fun t ht => ?_)]
    · rw [if_pos rfl, if_pos rfl, hsp]
      ring
    · have := (cpNodeW_input dims R (n := t.1) (p := t.2.1) (b := t.2.2) (.inR hlt (mem_below.1 ht).1)).2
      rw [if_neg (below_ne_root (by omega) ht)] at this
      exact this
    · have := (cpNodeW_input dims R (n := t.1) (p := t.2.1) (b := t.2.2) (.inL hlt (mem_below.1 ht).1)).2
      rw [if_neg (below_ne_root (by omega) ht)] at this
      exact this
  · rw [hw _ (additive_terms .mttkrp), sum_below hlt, if_pos (by omega), if_pos (by omega)]
    have l1 := cpNodeW_mttkrp hd R hL
    have l2 := cpNodeW_mttkrp hd R hR
    rw [if_pos rfl, ivP_root h0, one_mul] at l1 l2
    have g1 : ∑ t ∈ below 0 ((0 + (N - 1)) / 2), termsOf .mttkrp (cpNodeW dims R t) ≤
        (∑ t ∈ below 0 ((0 + (N - 1)) / 2), 2 * ivP dims t.2.1) * R := by
      rw [Finset.sum_mul]
      refine Finset.sum_le_sum fun t ht => ?_
      have := cpNodeW_mttkrp hd R (n := t.1) (p := t.2.1) (b := t.2.2) (.inL hlt (mem_below.1 ht).1)
      rw [if_neg (below_ne_root (by omega) ht)] at this
      linarith
    have g2 : ∑ t ∈ below ((0 + (N - 1)) / 2 + 1) (N - 1), termsOf .mttkrp (cpNodeW dims R t) ≤
        (∑ t ∈ below ((0 + (N - 1)) / 2 + 1) (N - 1), 2 * ivP dims t.2.1) * R := by
      rw [Finset.sum_mul]
      refine Finset.sum_le_sum fun t ht => ?_
      have := cpNodeW_mttkrp hd R (n := t.1) (p := t.2.1) (b := t.2.2) (.inR hlt (mem_below.1 ht).1)
      rw [if_neg (below_ne_root (by omega) ht)] at this
      linarith
    have g3 : ∑ j ∈ range N, termsOf .mttkrp (modeW dims R j) = (∑ i ∈ Icc 0 (N - 1), ivP dims (par 0 (N - 1) i)) * R := by
      rw [Finset.sum_mul]
      refine Finset.sum_congr ?_ fun j hj => ?_
      · ext k; simp only [mem_range, mem_Icc]; omega
      · rw [mem_Icc] at hj
        exact (modeW_sums dims R (by omega)).2.2.1
    rw [sum_par hlt, if_pos (by omega), if_pos (by omega)] at g3
    have t1 := tree_le hd (s := 0) (e := (0 + (N - 1)) / 2) (by omega) (by omega)
    have t2 := tree_le hd (s := (0 + (N - 1)) / 2 + 1) (e := N - 1) (by omega) (by omega)
    rw [Nat.zero_add] at *
    have t3 := Nat.mul_le_mul_right R (Nat.add_le_add t1 t2)
    rw [g3]
    linarith
  · rw [hw _ (additive_terms .update), Finset.sum_eq_zero (s := below 0 (N - 1)) (fun t _ => cpNodeW_update dims R t),
      Finset.sum_congr rfl (fun j hj => (modeW_sums dims R (mem_range.1 hj)).2.2.2)]
    simp

end Model
