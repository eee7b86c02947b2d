import Verif.Proofs.CostTuckerDT
import Verif.Proofs.CostLegacySums

/-! Sums over the records of the Tucker sweeps. -/

namespace Model

open Spec (Tag Work termsOf storedOf countOf)
open Finset

variable {N : ℕ}

theorem prod_klens_single (dims rk : Fin N → ℕ) (i : Fin N) : ∏ k, klens dims rk {i} k = dims i * ∏ k ∈ univ.erase i, rk k := by
  rw [← mul_prod_erase univ _ (mem_univ i), klens_self]
  congr 1
  apply prod_congr rfl
  intro k hk
  rw [mem_erase] at hk
  simp [klens, hk.1]

/-! ### the plain sweep -/

theorem ttmcW_sums (h2 : 2 ≤ N) (dims rk : Fin N → ℕ) (i : Fin N) :
    countOf .input ((List.range N).flatMap (ttmcW dims rk i)) = 1 ∧
    termsOf .input ((List.range N).flatMap (ttmcW dims rk i)) =
      (∏ j, dims j) * rk (if i.1 = 0 then ⟨1, by omega⟩ else ⟨0, by omega⟩) ∧
    termsOf .mttkrp ((List.range N).flatMap (ttmcW dims rk i)) =
      ∑ k : Fin N, (if k = i ∨ k.1 = (if i.1 = 0 then 1 else 0) then 0 else
        rk k * ∏ j, if k ≤ j ∨ j = i then dims j else rk j) ∧
    termsOf .update ((List.range N).flatMap (ttmcW dims rk i)) = 0 := by
  set a : Fin N := if i.1 = 0 then ⟨1, by omega⟩ else ⟨0, by omega⟩ with ha
  have hav : a.1 = if i.1 = 0 then 1 else 0 := by rw [ha]; split_ifs <;> rfl
  have hai : a.1 ≠ i.1 := by rw [hav]; split_ifs <;> omega
  have hpk : plainKeep i a.1 = univ := by
    ext j; simp only [plainKeep, mem_filter, mem_univ, true_and, iff_true, hav, Fin.ext_iff]
    split_ifs <;> omega
  have hk : ∀ k : Fin N, ttmcW dims rk i k.1 = if k = i then [] else
      [⟨if k = a then .input else .mttkrp, rk k * ∏ j, klens dims rk (plainKeep i k.1) j,
        ∏ j, klens dims rk (plainKeep i (k.1 + 1)) j⟩] := by
    intro k
    unfold ttmcW
    rw [dif_pos k.2, ← hav]
    simp only [Fin.ext_iff]
  rw [countOf_flatMap, termsOf_flatMap, termsOf_flatMap, termsOf_flatMap, Finset.sum_range, Finset.sum_range, Finset.sum_range,
    Finset.sum_range]
  simp only [hk]
  refine ⟨?_, ?_, ?_, ?_⟩
  · rw [Finset.sum_eq_single a]
    · rw [if_neg (fun h => hai (congrArg Fin.val h)), if_pos rfl]
      rfl
    · intro k _ hka
      rw [if_neg hka]
      split_ifs <;> rfl
    · simp
  · rw [Finset.sum_eq_single a]
    · rw [if_neg (fun h => hai (congrArg Fin.val h)), if_pos rfl, hpk, klens_univ]
      simp [termsOf, mul_comm]
    · intro k _ hka
      rw [if_neg hka]
      split_ifs <;> rfl
    · simp
  · apply sum_congr rfl
    intro k _
    have e : (k.1 = if i.1 = 0 then 1 else 0) ↔ k = a := by rw [← hav, Fin.ext_iff]
    by_cases h1 : k = i
    · rw [if_pos h1, if_pos (.inl h1)]; rfl
    · by_cases h3 : k = a
      · rw [if_neg h1, if_pos (show k = i ∨ k.1 = _ from .inr (e.2 h3)), if_pos h3]; rfl
      · rw [if_neg h1, if_neg (show ¬ (k = i ∨ k.1 = if i.1 = 0 then 1 else 0) by rw [e]; tauto), if_neg h3]
        simp only [termsOf, List.map_cons, List.map_nil, List.sum_cons, List.sum_nil, if_true, Nat.add_zero]
        congr 1
        apply prod_congr rfl
        intro j _
        unfold klens plainKeep
        simp only [mem_filter, mem_univ, true_and, Fin.le_def]
  · apply sum_eq_zero
    intro k _
    split_ifs <;> rfl

theorem tuckPlain_sums (h2 : 2 ≤ N) (dims rk : Fin N → ℕ) :
    let w := (List.range N).flatMap fun i => if h : i < N then tuckModeW dims rk ⟨i, h⟩ else []
    countOf .input w = N ∧
    termsOf .input w = (∏ j, dims j) * ((N - 1) * rk ⟨0, by omega⟩ + rk ⟨1, by omega⟩) ∧
    termsOf .mttkrp w = ∑ i : Fin N, ∑ k : Fin N, (if k = i ∨ k.1 = (if i.1 = 0 then 1 else 0) then 0 else
        rk k * ∏ j, if k ≤ j ∨ j = i then dims j else rk j) ∧
    termsOf .update w = ∑ i, dims i * (dims i * ∏ j ∈ univ.erase i, rk j) := by
  intro w
  have hi : ∀ i : Fin N, (if h : i.1 < N then tuckModeW dims rk ⟨i.1, h⟩ else []) = tuckModeW dims rk i := by
    intro i; rw [dif_pos i.2]
  show countOf .input ((List.range N).flatMap _) = _ ∧ termsOf .input ((List.range N).flatMap _) = _ ∧
    termsOf .mttkrp ((List.range N).flatMap _) = _ ∧ termsOf .update ((List.range N).flatMap _) = _
  rw [countOf_flatMap, termsOf_flatMap, termsOf_flatMap, termsOf_flatMap, Finset.sum_range, Finset.sum_range, Finset.sum_range,
    Finset.sum_range]
  simp only [hi]
  refine ⟨?_, ?_, ?_, ?_⟩
  · rw [sum_congr rfl fun i _ => show countOf .input (tuckModeW dims rk i) = 1 by
      unfold tuckModeW
      rw [countOf_append, (ttmcW_sums h2 dims rk i).1]; rfl]
    simp
  · rw [sum_congr rfl fun i _ => show termsOf .input (tuckModeW dims rk i) =
        (∏ j, dims j) * rk (if i.1 = 0 then ⟨1, by omega⟩ else ⟨0, by omega⟩) by
      unfold tuckModeW
      rw [termsOf_append, (ttmcW_sums h2 dims rk i).2.1]; rfl]
    rw [← mul_sum]
    congr 1
    rw [← add_sum_erase univ _ (mem_univ (⟨0, by omega⟩ : Fin N)), if_pos rfl, add_comm]
    congr 1
    rw [sum_congr rfl (g := fun _ => rk ⟨0, by omega⟩) fun i hi => by
      rw [mem_erase, Ne, Fin.ext_iff] at hi
      rw [if_neg hi.1]]
    rw [sum_const, card_erase_of_mem (mem_univ _), card_univ, Fintype.card_fin, smul_eq_mul]
  · apply sum_congr rfl
    intro i _
    unfold tuckModeW
    rw [termsOf_append, (ttmcW_sums h2 dims rk i).2.2.1]; rfl
  · apply sum_congr rfl
    intro i _
    unfold tuckModeW
    rw [termsOf_append, (ttmcW_sums h2 dims rk i).2.2.2, prod_klens_single]
    simp [termsOf]

/-! ### the dimension tree -/

theorem tkKeep_zero (p b : Iv) : tkKeep N p b 0 = ivSet N p := by ext m; simp [tkKeep]

theorem tuckNodeW_input (dims rk : Fin N → ℕ) {n p b : Iv} (h : Sub 0 (N - 1) n p b) :
    countOf .input (tuckNodeW dims rk (n, p, b)) = (if p = (0, N - 1) then 1 else 0) ∧
    termsOf .input (tuckNodeW dims rk (n, p, b)) = (if p = (0, N - 1) then rkN rk b.1 * ∏ j, dims j else 0) := by
  have hb := h.swap.node_le
  unfold tuckNodeW
  simp only
  rw [countOf_map_range, termsOf_map_range]
  by_cases hp : p = (0, N - 1)
  · rw [if_pos hp, if_pos hp, show b.2 + 1 - b.1 = (b.2 - b.1) + 1 by omega, Finset.sum_range_succ', Finset.sum_range_succ']
    subst hp
    rw [tkKeep_zero, ivSet_root, klens_univ]
    simp
  · rw [if_neg hp, if_neg hp]
    simp [hp]

theorem tuckNodeW_update (dims rk : Fin N → ℕ) (t : Nd) : termsOf .update (tuckNodeW dims rk t) = 0 := by
  refine (sums_zero ?_).1
  intro e he
  obtain ⟨j, _, rfl⟩ := List.mem_map.1 he
  simp only
  split_ifs <;> decide

theorem tuckModeDTW_sums (dims rk : Fin N → ℕ) (i : Fin N) :
    countOf .input (tuckModeDTW dims rk i.1) = 0 ∧ termsOf .input (tuckModeDTW dims rk i.1) = 0 ∧
    termsOf .mttkrp (tuckModeDTW dims rk i.1) = (∏ c ∈ (ivSet N (par 0 (N - 1) i.1)).erase i, rk c) *
      ∏ k, klens dims rk (ivSet N (par 0 (N - 1) i.1)) k ∧
    termsOf .update (tuckModeDTW dims rk i.1) = dims i * (dims i * ∏ j ∈ univ.erase i, rk j) := by
  unfold tuckModeDTW
  rw [dif_pos i.2, prod_klens_single]
  simp [tuckLeafW, countOf, termsOf]

theorem coreW_sums (h0 : 0 < N) (dims rk : Fin N → ℕ) :
    countOf .input (coreW h0 dims rk) = 0 ∧ termsOf .input (coreW h0 dims rk) = 0 ∧ termsOf .mttkrp (coreW h0 dims rk) = 0 ∧
    termsOf .update (coreW h0 dims rk) = dims ⟨N - 1, by omega⟩ * ∏ j, rk j := by
  unfold coreW
  rw [prod_klens_single]
  refine ⟨rfl, rfl, rfl, ?_⟩
  simp only [termsOf, List.map_cons, List.map_nil, List.sum_cons, List.sum_nil, if_true, Nat.add_zero]
  rw [Nat.mul_left_comm, mul_prod_erase univ rk (mem_univ _)]

/-- The part of the tree that reads the input tensor. -/
theorem tuckDT_input (h4 : 4 ≤ N) {dims rk : Fin N → ℕ} {w : List Work}
    (hw : ∀ μ, Additive μ → μ w = ∑ t ∈ below 0 (N - 1), μ (tuckNodeW dims rk t) + ∑ j ∈ range N, μ (tuckModeDTW dims rk j) +
        μ (coreW (by omega) dims rk)) :
    countOf .input w = 2 ∧
    termsOf .input w = (∏ j, dims j) * (rk ⟨0, by omega⟩ + rk ⟨(N - 1) / 2 + 1, by omega⟩) ∧
    termsOf .update w = ∑ i, dims i * (dims i * ∏ j ∈ univ.erase i, rk j) + dims ⟨N - 1, by omega⟩ * ∏ j, rk j := by
  have hlt : 0 < N - 1 := by omega
  have hL : Sub 0 (N - 1) (0, (0 + (N - 1)) / 2) (0, N - 1) ((0 + (N - 1)) / 2 + 1, N - 1) := .left hlt
  have hR : Sub 0 (N - 1) ((0 + (N - 1)) / 2 + 1, N - 1) (0, N - 1) (0, (0 + (N - 1)) / 2) := .right hlt
  obtain ⟨c1, c2, _, c4⟩ := coreW_sums (N := N) (by omega) dims rk
  have hinL : ∀ t ∈ below 0 ((0 + (N - 1)) / 2), countOf .input (tuckNodeW dims rk t) = 0 ∧ termsOf .input (tuckNodeW dims rk t) = 0 := by
    intro t ht
    obtain ⟨a1, a2⟩ := tuckNodeW_input dims rk (n := t.1) (p := t.2.1) (b := t.2.2) (.inL hlt (mem_below.1 ht).1)
    rw [if_neg (below_ne_root (by omega) ht)] at a1 a2
    exact ⟨a1, a2⟩
  have hinR : ∀ t ∈ below ((0 + (N - 1)) / 2 + 1) (N - 1), countOf .input (tuckNodeW dims rk t) = 0 ∧
      termsOf .input (tuckNodeW dims rk t) = 0 := by
    intro t ht
    obtain ⟨a1, a2⟩ := tuckNodeW_input dims rk (n := t.1) (p := t.2.1) (b := t.2.2) (.inR hlt (mem_below.1 ht).1)
    rw [if_neg (below_ne_root (by omega) ht)] at a1 a2
    exact ⟨a1, a2⟩
  refine ⟨?_, ?_, ?_⟩
  · rw [hw _ (additive_count .input), c1, Finset.sum_range, sum_eq_zero (fun i _ => (tuckModeDTW_sums dims rk i).1),
      sum_below hlt, if_pos (by omega), if_pos (by omega), (tuckNodeW_input dims rk hL).1, (tuckNodeW_input dims rk hR).1,
      sum_eq_zero (fun t ht => (hinL t ht).1), sum_eq_zero (fun t ht => (hinR t ht).1)]
    simp
  · rw [hw _ (additive_terms .input), c2, Finset.sum_range, sum_eq_zero (fun i _ => (tuckModeDTW_sums dims rk i).2.1),
      sum_below hlt, if_pos (by omega), if_pos (by omega), (tuckNodeW_input dims rk hL).2, (tuckNodeW_input dims rk hR).2,
      sum_eq_zero (fun t ht => (hinL t ht).2), sum_eq_zero (fun t ht => (hinR t ht).2), if_pos rfl, if_pos rfl]
    simp only
    have e1 : rkN rk ((0 + (N - 1)) / 2 + 1) = rk ⟨(N - 1) / 2 + 1, by omega⟩ := by
      rw [Nat.zero_add]; exact dimN_val rk ⟨(N - 1) / 2 + 1, by omega⟩
    have e2 : rkN rk 0 = rk ⟨0, by omega⟩ := dimN_val rk ⟨0, by omega⟩
    rw [e1, e2]
    ring
  · rw [hw _ (additive_terms .update), c4, Finset.sum_range, sum_congr rfl (fun i _ => (tuckModeDTW_sums dims rk i).2.2.2),
      sum_eq_zero (fun t _ => tuckNodeW_update dims rk t)]
    simp

/-! ### equal edge lengths and ranks -/

/-- The number of products of a step that replaces one mode when `m` modes still have full length. -/
def tkG (N s r m : ℕ) : ℕ := r ^ (N + 1 - m) * s ^ m

theorem tkG_step {s r : ℕ} (h : 2 * r ≤ s) {m : ℕ} (hm : m ≤ N) : 2 * tkG N s r m ≤ tkG N s r (m + 1) := by
  unfold tkG
  rw [show N + 1 - m = (N + 1 - (m + 1)) + 1 by omega, pow_succ, pow_succ]
  calc 2 * (r ^ (N + 1 - (m + 1)) * r * s ^ m) = r ^ (N + 1 - (m + 1)) * s ^ m * (2 * r) := by ring
    _ ≤ r ^ (N + 1 - (m + 1)) * s ^ m * s := Nat.mul_le_mul_left _ h
    _ = _ := by ring

theorem tkG_mono {s r : ℕ} (h : 2 * r ≤ s) {m m' : ℕ} (hm : m ≤ m') (hm' : m' ≤ N + 1) : tkG N s r m ≤ tkG N s r m' := by
  induction m', hm using Nat.le_induction with
  | base => exact le_refl _
  | succ m' _ ih =>
    have := tkG_step h (N := N) (m := m') (by omega)
    have := ih (by omega)
    omega

/-- A geometric sum. -/
theorem tkG_sum {s r : ℕ} (h : 2 * r ≤ s) {m : ℕ} (hm : m ≤ N + 1) (c : ℕ) (hc : c ≤ m) :
    ∑ j ∈ range c, tkG N s r (m - j) + 2 * tkG N s r (m - c) ≤ 2 * tkG N s r m := by
  induction c with
  | zero => simp
  | succ c ih =>
    rw [sum_range_succ]
    have h1 := ih (by omega)
    have h2 := tkG_step h (N := N) (m := m - (c + 1)) (by omega)
    rw [show m - (c + 1) + 1 = m - c by omega] at h2
    omega

theorem prod_klens_const (s r : ℕ) (keep : Finset (Fin N)) :
    ∏ k, klens (fun _ => s) (fun _ => r) keep k = r ^ (N - keep.card) * s ^ keep.card := by
  have : ∀ k, klens (fun _ : Fin N => s) (fun _ => r) keep k = if k ∈ keep then s else r := fun k => rfl
  simp only [this]
  rw [prod_ite, prod_const, prod_const]
  have e1 : univ.filter (fun k => k ∈ keep) = keep := by ext; simp
  have e2 : univ.filter (fun k => k ∉ keep) = keepᶜ := by ext; simp
  rw [e1, e2, card_compl, Fintype.card_fin, mul_comm]

theorem card_ivSet {n : Iv} (h1 : n.1 ≤ n.2 + 1) (h2 : n.2 < N) : (ivSet N n).card = n.2 + 1 - n.1 := by
  have : (ivSet N n).map Fin.valEmbedding = Icc n.1 n.2 := by
    ext m
    simp only [mem_map, mem_ivSet, Fin.valEmbedding_apply, mem_Icc]
    constructor
    · rintro ⟨k, h, rfl⟩; exact h
    · intro h; exact ⟨⟨m, by omega⟩, h, rfl⟩
  rw [← card_map, this, Nat.card_Icc]

theorem card_tkKeep {n p b : Iv} (h : Sub 0 (N - 1) n p b) {j : ℕ} (hj : j ≤ b.2 + 1 - b.1) :
    (tkKeep N p b j).card = p.2 + 1 - p.1 - j := by
  have hb := h.swap.node_le
  have hp := h.shape
  have hlt := h.lt
  have e : tkKeep N p b j = ivSet N p \ univ.filter (fun m : Fin N => b.1 ≤ m.1 ∧ m.1 < b.1 + j) := rfl
  have hsub : (univ.filter fun m : Fin N => b.1 ≤ m.1 ∧ m.1 < b.1 + j) ⊆ ivSet N p := by
    intro m
    simp only [mem_filter, mem_univ, true_and, mem_ivSet]
    obtain ⟨a1, a2, a3, (⟨_, e2⟩ | ⟨e2, _⟩)⟩ := hp <;> rw [e2] at hj ⊢ <;> simp only at hj ⊢ <;> omega
  rw [e, card_sdiff_of_subset hsub, card_ivSet (by omega) (by omega)]
  congr 1
  by_cases hj0 : j = 0
  · subst hj0
    simp
  · have : (univ.filter fun m : Fin N => b.1 ≤ m.1 ∧ m.1 < b.1 + j) = ivSet N (b.1, b.1 + j - 1) := by
      ext m; simp only [mem_filter, mem_univ, true_and, mem_ivSet]; omega
    rw [this, card_ivSet (by simp only; omega) (by simp only; omega)]
    simp only
    omega

/-- The part of a node that does not read the input tensor. -/
theorem tuckNodeW_mttkrp {s r : ℕ} (h : 2 * r ≤ s) {n p b : Iv} (hn : Sub 0 (N - 1) n p b) :
    termsOf .mttkrp (tuckNodeW (fun _ : Fin N => s) (fun _ => r) (n, p, b)) ≤
      2 * tkG N s r (if p = (0, N - 1) then N - 1 else p.2 + 1 - p.1) := by
  have hb := hn.swap.node_le
  have hp := hn.shape
  have hlt := hn.lt
  have hlen : b.2 + 1 - b.1 ≤ p.2 + 1 - p.1 := by
    obtain ⟨a1, a2, a3, (⟨_, e2⟩ | ⟨e2, _⟩)⟩ := hp <;> rw [e2] <;> simp only <;> omega
  have hval : ∀ j ∈ range (b.2 + 1 - b.1), rkN (fun _ : Fin N => r) (b.1 + j) *
      ∏ k, klens (fun _ : Fin N => s) (fun _ => r) (tkKeep N p b j) k = tkG N s r (p.2 + 1 - p.1 - j) := by
    intro j hj
    rw [mem_range] at hj
    have hrk : rkN (fun _ : Fin N => r) (b.1 + j) = r := dimN_val (fun _ : Fin N => r) ⟨b.1 + j, by omega⟩
    rw [hrk, prod_klens_const, card_tkKeep hn (by omega), tkG, ← mul_assoc, ← pow_succ']
    congr 2
    omega
  unfold tuckNodeW
  simp only
  rw [termsOf_map_range]
  by_cases hroot : p = (0, N - 1)
  · rw [if_pos hroot, show b.2 + 1 - b.1 = (b.2 - b.1) + 1 by omega, Finset.sum_range_succ']
    simp only [hroot, true_and, Nat.add_eq_zero_iff, one_ne_zero, and_false, if_false, if_true]
    rw [if_neg (by decide), Nat.add_zero]
    have : ∀ j ∈ range (b.2 - b.1), rkN (fun _ : Fin N => r) (b.1 + (j + 1)) *
        ∏ k, klens (fun _ : Fin N => s) (fun _ => r) (tkKeep N (0, N - 1) b (j + 1)) k = tkG N s r (N - 1 - j) := by
      intro j hj
      rw [mem_range] at hj
      have := hval (j + 1) (mem_range.2 (by omega))
      rw [hroot] at this
      rw [this]
      congr 1
      simp only
      omega
    rw [sum_congr rfl this]
    have := tkG_sum h (N := N) (m := N - 1) (by omega) (b.2 - b.1) (by omega)
    omega
  · rw [if_neg hroot]
    simp only [hroot, false_and, if_false, if_true]
    rw [sum_congr rfl hval]
    have := tkG_sum h (N := N) (m := p.2 + 1 - p.1) (by omega) (b.2 + 1 - b.1) hlen
    omega

theorem card_below {s e : ℕ} (h : s < e) : (below s e).card ≤ e - s - 1 := by
  have key : ∀ k s e : ℕ, e - s ≤ k → ∑ t ∈ below s e, 1 ≤ e - s - 1 := by
    intro k
    induction k with
    | zero => intro s e hk; rw [below_single s (by omega)]; omega
    | succ k ih =>
      intro s e hk
      by_cases h : s < e
      · rw [sum_below h]
        have i1 := ih s ((s + e) / 2) (by omega)
        have i2 := ih ((s + e) / 2 + 1) e (by omega)
        split_ifs <;> omega
      · rw [below_single s (by omega)]; omega
  rw [card_eq_sum_ones]
  exact key _ _ _ (le_refl _)

/-- The steps that do not read the input tensor. -/
theorem tuckDT_mttkrp (h4 : 4 ≤ N) {s r : ℕ} (h : 2 * r ≤ s) {w : List Work}
    (hw : ∀ μ, Additive μ → μ w = ∑ t ∈ below 0 (N - 1), μ (tuckNodeW (fun _ : Fin N => s) (fun _ => r) t) +
        ∑ j ∈ range N, μ (tuckModeDTW (fun _ : Fin N => s) (fun _ => r) j) +
        μ (coreW (by omega) (fun _ : Fin N => s) (fun _ => r))) :
    termsOf .mttkrp w ≤ 4 * (r ^ 2 * s ^ (N - 1)) + 2 * N * (r ^ (N + 1 - (N + 1) / 2) * s ^ ((N + 1) / 2)) +
      N * (r ^ (N - 1) * s ^ 3) := by
  have hlt : 0 < N - 1 := by omega
  have hL : Sub 0 (N - 1) (0, (0 + (N - 1)) / 2) (0, N - 1) ((0 + (N - 1)) / 2 + 1, N - 1) := .left hlt
  have hR : Sub 0 (N - 1) ((0 + (N - 1)) / 2 + 1, N - 1) (0, N - 1) (0, (0 + (N - 1)) / 2) := .right hlt
  have b1 := tuckNodeW_mttkrp h hL
  have b2 := tuckNodeW_mttkrp h hR
  rw [if_pos rfl] at b1 b2
  have eG : tkG N s r (N - 1) = r ^ 2 * s ^ (N - 1) := by
    unfold tkG; rw [show N + 1 - (N - 1) = 2 by omega]
  have inner : ∀ a e : ℕ, (0 < a ∨ e < N - 1) → e + 1 - a ≤ (N + 1) / 2 → (∀ t ∈ below a e, Sub 0 (N - 1) t.1 t.2.1 t.2.2) →
      ∑ t ∈ below a e, termsOf .mttkrp (tuckNodeW (fun _ : Fin N => s) (fun _ => r) t) ≤
        (below a e).card * (2 * tkG N s r ((N + 1) / 2)) := by
    intro a e hne hle hsub
    refine le_trans (sum_le_card_nsmul _ _ (2 * tkG N s r ((N + 1) / 2)) ?_) (le_of_eq (by rw [smul_eq_mul]))
    intro t ht
    have := tuckNodeW_mttkrp h (hsub t ht)
    simp only [Prod.mk.eta] at this
    rw [if_neg (below_ne_root hne ht)] at this
    have hs := (mem_below.1 ht).1.shape
    have := tkG_mono h (N := N) (m := t.2.1.2 + 1 - t.2.1.1) (m' := (N + 1) / 2) (by omega) (by omega)
    omega
  have i1 := inner 0 ((0 + (N - 1)) / 2) (by omega) (by omega) (fun t ht => .inL hlt (mem_below.1 ht).1)
  have i2 := inner ((0 + (N - 1)) / 2 + 1) (N - 1) (by omega) (by omega) (fun t ht => .inR hlt (mem_below.1 ht).1)
  have c1 := card_below (s := 0) (e := (0 + (N - 1)) / 2) (by omega)
  have c2 : (below ((0 + (N - 1)) / 2 + 1) (N - 1)).card ≤ N - 1 - ((0 + (N - 1)) / 2 + 1) - 1 := card_below (by omega)
  have leaf : ∀ i : Fin N, termsOf .mttkrp (tuckModeDTW (fun _ : Fin N => s) (fun _ => r) i.1) ≤ r ^ (N - 1) * s ^ 3 := by
    intro i
    rw [(tuckModeDTW_sums _ _ i).2.2.1]
    obtain ⟨p, b, p', b', hn, hpp, hp1, hp2, hp3, hcase⟩ := leaf_cases h4 i
    obtain ⟨bb, hbb⟩ := par_sub (s := 0) (e := N - 1) (i := i.1) (by omega) (by omega) (by omega)
    rw [(hbb.unique hn).1]
    have hc := card_ivSet (N := N) (n := p) (by omega) hp3
    have hm : i ∈ ivSet N p := mem_ivSet.2 ⟨hp1, hp2⟩
    rw [prod_const, card_erase_of_mem hm, prod_klens_const, hc, ← mul_assoc, ← pow_add]
    have hle : p.2 + 1 - p.1 = 2 ∨ p.2 + 1 - p.1 = 3 := by
      rcases hcase with ⟨rfl, _⟩ | ⟨_, rfl, _⟩ | ⟨_, rfl, _⟩ <;> simp only <;> omega
    rcases hle with e | e
    · rw [e, show 2 - 1 + (N - 2) = N - 1 by omega]
      refine Nat.mul_le_mul_left _ ?_
      by_cases hs : s = 0
      · subst hs; simp
      · exact Nat.pow_le_pow_right (by omega) (by omega)
    · rw [e, show 3 - 1 + (N - 3) = N - 1 by omega]
  have leaves : ∑ j ∈ range N, termsOf .mttkrp (tuckModeDTW (fun _ : Fin N => s) (fun _ => r) j) ≤ N * (r ^ (N - 1) * s ^ 3) := by
    rw [Finset.sum_range]
    refine le_trans (sum_le_card_nsmul _ _ _ fun i _ => leaf i) (le_of_eq ?_)
    rw [card_univ, Fintype.card_fin, smul_eq_mul]
  rw [hw _ (additive_terms .mttkrp), (coreW_sums (N := N) (by omega) _ _).2.2.1, sum_below hlt, if_pos (by omega), if_pos (by omega)]
  have eH : tkG N s r ((N + 1) / 2) = r ^ (N + 1 - (N + 1) / 2) * s ^ ((N + 1) / 2) := rfl
  rw [← eH, ← eG]
  have hsum : (below 0 ((0 + (N - 1)) / 2)).card * (2 * tkG N s r ((N + 1) / 2)) +
      (below ((0 + (N - 1)) / 2 + 1) (N - 1)).card * (2 * tkG N s r ((N + 1) / 2)) ≤ 2 * N * tkG N s r ((N + 1) / 2) := by
    rw [← add_mul]
    calc _ ≤ N * (2 * tkG N s r ((N + 1) / 2)) := Nat.mul_le_mul_right _ (by omega)
      _ = _ := by ring
  omega

end Model
