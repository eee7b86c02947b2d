import Verif.Properties.WorkLegacy

/-! # C87: intermediates of the legacy dimension trees, repeated sweeps of `alsTucker_DT` -/

namespace Model

open Finset
open Spec (Tag Work termsOf storedOf countOf)

variable {N : ℕ}

theorem stored_le {d : ℕ} {t : Tag} : ∀ {w : List Work}, (∀ e ∈ w, e.tag = t → d * e.out ≤ e.terms) → d * storedOf t w ≤ termsOf t w
  | [], _ => by simp [storedOf, termsOf]
  | e :: w, h => by
    have ih := stored_le (d := d) (t := t) (w := w) fun e he => h e (List.mem_cons_of_mem _ he)
    have h1 := h e (by simp)
    simp only [storedOf, termsOf, List.map_cons, List.sum_cons] at ih ⊢
    rw [Nat.mul_add]
    by_cases ht : e.tag = t
    · rw [if_pos ht, if_pos ht]
      exact Nat.add_le_add (h1 ht) ih
    · rw [if_neg ht, if_neg ht]
      omega

theorem ivP_one (dims : Fin N → ℕ) (i : Fin N) : ivP dims (i.1, i.1) = dims i := by
  unfold ivP
  simp [dimN_val]

theorem cpNodeW_stored {dims : Fin N → ℕ} {d : ℕ} (hd : ∀ m, d ≤ dims m) (R : ℕ) {n p b : Iv} (h : Sub 0 (N - 1) n p b) :
    ∀ e ∈ cpNodeW dims R (n, p, b), d * e.out ≤ e.terms := by
  intro e he
  have hb := h.swap.node_le
  have hlt := h.lt
  obtain ⟨j, hj, rfl⟩ := List.mem_map.1 he
  rw [List.mem_range] at hj
  simp only at hj ⊢
  have hsp := ivP_split dims (a := b.1 + j) (m := b.1 + j) (e := b.2) (by omega) (by omega)
  have e1 := ivP_one dims ⟨b.1 + j, by omega⟩
  simp only at e1
  rw [hsp, e1]
  calc d * (ivP dims n * ivP dims (b.1 + j + 1, b.2) * R) = d * (ivP dims n * ivP dims (b.1 + j + 1, b.2) * R) := rfl
    _ ≤ dims ⟨b.1 + j, by omega⟩ * (ivP dims n * ivP dims (b.1 + j + 1, b.2) * R) := Nat.mul_le_mul_right _ (hd _)
    _ = _ := by ring

theorem par_iv {i : ℕ} (hi : i < N) (h2 : 2 ≤ N) : ∃ b, Sub 0 (N - 1) (i, i) (par 0 (N - 1) i) b := par_sub (by omega) (by omega) (by omega)

theorem leafW_stored {dims : Fin N → ℕ} {d : ℕ} (hd : ∀ m, d ≤ dims m) (h1 : 1 ≤ d) (h2 : 2 ≤ N) (R : ℕ) (i : Fin N) :
    ∀ e ∈ leafW dims R i, d * e.out ≤ e.terms := by
  intro e he
  simp only [leafW, List.mem_singleton] at he
  subst he
  simp only
  obtain ⟨b, hs⟩ := par_iv i.2 h2
  have hb := hs.swap.node_le
  have hlt := hs.lt
  have hbd : d ≤ ivP dims b := by
    have hsp := ivP_split dims (a := b.1) (m := b.1) (e := b.2) (by omega) (by omega)
    have e1 := ivP_one dims ⟨b.1, by omega⟩
    simp only at e1
    have hpos : 1 ≤ ivP dims (b.1 + 1, b.2) := by
      unfold ivP
      refine Nat.one_le_iff_ne_zero.2 (prod_ne_zero_iff.2 fun k hk => ?_)
      rw [mem_Icc] at hk
      have := dimN_val dims ⟨k, by simp only at hk; omega⟩
      simp only at this
      rw [this]
      have := hd ⟨k, by simp only at hk; omega⟩
      omega
    have : ivP dims b = ivP dims (b.1, b.2) := rfl
    rw [this, hsp, e1]
    calc d ≤ dims _ := hd ⟨b.1, by omega⟩
      _ = dims ⟨b.1, by omega⟩ * 1 := (Nat.mul_one _).symm
      _ ≤ _ := Nat.mul_le_mul_left _ hpos
  have hp : ivP dims (par 0 (N - 1) i.1) = dims i * ivP dims b := by
    rw [← ivP_one dims i]
    obtain ⟨a1, a2, a3, (⟨e1, e2⟩ | ⟨e1, e2⟩)⟩ := hs.shape
    · rw [e1, e2]
      exact ivP_split dims (a := (par 0 (N - 1) i.1).1) (e := (par 0 (N - 1) i.1).2) (by omega) (by omega)
    · rw [e1, e2, Nat.mul_comm]
      exact ivP_split dims (a := (par 0 (N - 1) i.1).1) (e := (par 0 (N - 1) i.1).2) (by omega) (by omega)
  rw [hp]
  calc d * (dims i * R) ≤ ivP dims b * (dims i * R) := Nat.mul_le_mul_right _ hbd
    _ = _ := by ring

theorem legacy_stored (h4 : 4 ≤ N) {dims : Fin N → ℕ} {d : ℕ} (hd : ∀ m, d ≤ dims m) (h1 : 1 ≤ d) (R : ℕ) {w : List Work}
    (hw : ∀ μ, Additive μ → μ w = ∑ t ∈ below 0 (N - 1), μ (cpNodeW dims R t) + ∑ j ∈ range N, μ (modeW dims R j)) {t : Tag}
    (ht : t ≠ .update) : d * storedOf t w ≤ termsOf t w := by
  rw [hw _ (additive_stored t), hw _ (additive_terms t), Nat.mul_add, mul_sum, mul_sum]
  refine Nat.add_le_add (sum_le_sum fun n hn => stored_le fun e he _ => cpNodeW_stored hd R (mem_below.1 hn).1 e he)
    (sum_le_sum fun j hj => stored_le fun e he hte => ?_)
  unfold modeW at he
  rw [dif_pos (mem_range.1 hj), List.mem_append] at he
  rcases he with he | he
  · exact leafW_stored hd h1 (by omega) R _ e he
  · exact absurd ((legacyUpdW_tag dims R _ e he).symm.trans hte).symm ht

theorem tuckNodeW_stored {dims rk : Fin N → ℕ} {d : ℕ} (hd : ∀ m, d ≤ dims m) {n p b : Iv} (h : Sub 0 (N - 1) n p b) :
    ∀ e ∈ tuckNodeW dims rk (n, p, b), d * e.out ≤ e.terms := by
  intro e he
  have hb := h.swap.node_le
  have hlt := h.lt
  have hp := h.shape
  obtain ⟨j, hj, rfl⟩ := List.mem_map.1 he
  rw [List.mem_range] at hj
  simp only at hj ⊢
  have hrk : rkN rk (b.1 + j) = rk ⟨b.1 + j, by omega⟩ := dimN_val rk ⟨b.1 + j, by omega⟩
  rw [hrk]
  generalize hm : (⟨b.1 + j, by omega⟩ : Fin N) = m
  have hmv : m.1 = b.1 + j := by rw [← hm]
  have hmem : m ∈ tkKeep N p b j := by
    simp only [tkKeep, mem_sdiff, mem_ivSet, mem_filter, mem_univ, true_and, hmv]
    rcases hp with ⟨a1, a2, a3, (⟨e1, e2⟩ | ⟨e1, e2⟩)⟩
    · have t1 := congrArg Prod.fst e2; have t2 := congrArg Prod.snd e2; have t3 := congrArg Prod.fst e1; have t4 := congrArg Prod.snd e1
      simp only at t1 t2 t3 t4; omega
    · have t1 := congrArg Prod.fst e2; have t2 := congrArg Prod.snd e2; have t3 := congrArg Prod.fst e1; have t4 := congrArg Prod.snd e1
      simp only at t1 t2 t3 t4; omega
  have hnot : m ∉ tkKeep N p b (j + 1) := by
    simp only [tkKeep, mem_sdiff, mem_ivSet, mem_filter, mem_univ, true_and, hmv]
    omega
  have hother : ∀ k ∈ univ.erase m, klens dims rk (tkKeep N p b (j + 1)) k = klens dims rk (tkKeep N p b j) k := by
    intro k hk
    have hne : k.1 ≠ b.1 + j := fun hh => (mem_erase.1 hk).1 (Fin.ext (hh.trans hmv.symm))
    have : k ∈ tkKeep N p b (j + 1) ↔ k ∈ tkKeep N p b j := by
      simp only [tkKeep, mem_sdiff, mem_ivSet, mem_filter, mem_univ, true_and]
      omega
    simp only [klens, this]
  rw [← mul_prod_erase univ _ (mem_univ m), ← mul_prod_erase univ (klens dims rk (tkKeep N p b j)) (mem_univ m),
    prod_congr rfl hother]
  have e1 : klens dims rk (tkKeep N p b j) m = dims m := by simp [klens, hmem]
  have e2 : klens dims rk (tkKeep N p b (j + 1)) m = rk m := by simp [klens, hnot]
  rw [e1, e2]
  calc d * (rk m * ∏ k ∈ univ.erase m, klens dims rk (tkKeep N p b j) k) ≤
        dims m * (rk m * ∏ k ∈ univ.erase m, klens dims rk (tkKeep N p b j) k) := Nat.mul_le_mul_right _ (hd _)
    _ = _ := by ring

theorem tuckLeafW_stored {dims rk : Fin N → ℕ} {d : ℕ} (hd : ∀ m, d ≤ dims m) (h1 : 1 ≤ d) (h2 : 2 ≤ N) (i : Fin N) :
    ∀ e ∈ tuckLeafW dims rk i, d * e.out ≤ e.terms := by
  intro e he
  simp only [tuckLeafW, List.mem_singleton] at he
  subst he
  simp only
  obtain ⟨b, hs⟩ := par_iv i.2 h2
  have hb := hs.swap.node_le
  have hlt := hs.lt
  have hp := hs.shape
  generalize hP : ivSet N (par 0 (N - 1) i.1) = P
  have hi : i ∈ P := by
    rw [← hP, mem_ivSet]
    rcases hp with ⟨a1, a2, a3, (⟨e1, e2⟩ | ⟨e1, e2⟩)⟩
    · have := congrArg Prod.fst e1; have := congrArg Prod.snd e1; simp only at *; omega
    · have := congrArg Prod.fst e2; have := congrArg Prod.snd e2; simp only at *; omega
  obtain ⟨c, hc, hci⟩ : ∃ c ∈ P, c ≠ i := by
    refine ⟨⟨b.1, by omega⟩, ?_, ?_⟩
    · rw [← hP, mem_ivSet]
      rcases hp with ⟨a1, a2, a3, (⟨e1, e2⟩ | ⟨e1, e2⟩)⟩
      · have t1 := congrArg Prod.fst e2; have t2 := congrArg Prod.snd e2
        simp only at t1 t2 ⊢; omega
      · have t1 := congrArg Prod.fst e1; have t2 := congrArg Prod.snd e1
        simp only at t1 t2 ⊢; omega
    · intro hh
      have hh := congrArg Fin.val hh
      simp only at hh
      rcases hp with ⟨a1, a2, a3, (⟨e1, e2⟩ | ⟨e1, e2⟩)⟩
      · have := congrArg Prod.fst e1; have := congrArg Prod.snd e1; have := congrArg Prod.fst e2; simp only at *; omega
      · have := congrArg Prod.fst e2; have := congrArg Prod.snd e2; have := congrArg Prod.fst e1; simp only at *; omega
  have hsub : P.erase i ⊆ univ.erase i := erase_subset_erase _ (subset_univ _)
  have hdvd : ∏ k, klens dims rk P k = dims i * ((∏ k ∈ P.erase i, dims k) * ∏ k ∈ (univ.erase i) \ (P.erase i), rk k) := by
    rw [← mul_prod_erase univ _ (mem_univ i), ← prod_sdiff hsub]
    have e1 : klens dims rk P i = dims i := by simp [klens, hi]
    rw [e1]
    congr 1
    rw [mul_comm]
    congr 1
    · refine prod_congr rfl fun k hk => ?_
      simp [klens, (mem_erase.1 hk).2]
    · refine prod_congr rfl fun k hk => ?_
      rw [mem_sdiff, mem_erase, mem_erase] at hk
      have : k ∉ P := fun hh => hk.2 ⟨hk.1.1, hh⟩
      simp [klens, this]
  have hrk : ∏ k ∈ univ.erase i, rk k = (∏ k ∈ P.erase i, rk k) * ∏ k ∈ (univ.erase i) \ (P.erase i), rk k := by
    rw [← prod_sdiff hsub, mul_comm]
  have hle : d ≤ ∏ k ∈ P.erase i, dims k := by
    rw [← mul_prod_erase _ _ (mem_erase.2 ⟨hci, hc⟩)]
    have : 1 ≤ ∏ k ∈ (P.erase i).erase c, dims k :=
      Nat.one_le_iff_ne_zero.2 (prod_ne_zero_iff.2 fun k _ => by have := hd k; omega)
    calc d ≤ dims c := hd c
      _ = dims c * 1 := (Nat.mul_one _).symm
      _ ≤ _ := Nat.mul_le_mul_left _ this
  rw [prod_klens_single, hrk, hdvd]
  calc d * (dims i * ((∏ k ∈ P.erase i, rk k) * ∏ k ∈ (univ.erase i) \ (P.erase i), rk k)) ≤
        (∏ k ∈ P.erase i, dims k) * (dims i * ((∏ k ∈ P.erase i, rk k) * ∏ k ∈ (univ.erase i) \ (P.erase i), rk k)) :=
          Nat.mul_le_mul_right _ hle
    _ = _ := by ring

theorem tuckDT_stored (h4 : 4 ≤ N) {dims rk : Fin N → ℕ} {d : ℕ} (hd : ∀ m, d ≤ dims m) (h1 : 1 ≤ d) {w : List Work}
    (hw : ∀ μ, Additive μ → μ w = ∑ t ∈ below 0 (N - 1), μ (tuckNodeW dims rk t) + ∑ j ∈ range N, μ (tuckModeDTW dims rk j) +
        μ (coreW (by omega) dims rk)) {t : Tag} (ht : t ≠ .update) : d * storedOf t w ≤ termsOf t w := by
  rw [hw _ (additive_stored t), hw _ (additive_terms t), Nat.mul_add, Nat.mul_add, mul_sum, mul_sum]
  refine Nat.add_le_add (Nat.add_le_add
    (sum_le_sum fun n hn => stored_le fun e he _ => tuckNodeW_stored hd (mem_below.1 hn).1 e he)
    (sum_le_sum fun j hj => stored_le fun e he hte => ?_)) (stored_le fun e he hte => ?_)
  · unfold tuckModeDTW at he
    rw [dif_pos (mem_range.1 hj), List.mem_append] at he
    rcases he with he | he
    · exact tuckLeafW_stored hd h1 (by omega) _ e he
    · rw [List.mem_singleton] at he
      subst he
      exact absurd hte.symm ht
  · unfold coreW at he
    rw [List.mem_singleton] at he
    subst he
    exact absurd hte.symm ht

end Model

namespace Properties

open Model Finset
open Spec (Tag Work termsOf storedOf countOf)

variable {N : ℕ}

/-- **C87 (CP, intermediates).** No edge length below `d ≥ 2`: all tensors that a sweep of `alsCP_DT` fills on the way to the MTTKRPs
(cached or temporary, and the MTTKRPs themselves) have together at most `(4 R ∏ dims + 8 R (the two halves)) / d` entries. -/
theorem C87_cp_dt_memory {K : Type} [CommRing K] (h4 : 4 ≤ N) (h5 : N ≠ 5) (hN : N ≤ 31) {dims : Fin N → ℕ} {R : ℕ} {V : Tensor K}
    (lam : K) (solve : Spec.Solver K) {F : List (Tensor K)} (hF : Shaped dims R V F) {f : Fac K} (hS : Shaped dims R V f.W)
    {d : ℕ} (h2 : 2 ≤ d) (hd : ∀ j, d ≤ dims j) :
    ∃ f' w, legacyUpdatesC N R lam solve V F f [] = .ok (f', w) ∧ legacyUpdates N R lam solve V F f = .ok f' ∧
      d * (storedOf .input w + storedOf .mttkrp w) ≤ R * (4 * ∏ j, dims j +
        8 * (∏ j ∈ univ.filter (fun j : Fin N => j.1 ≤ (N - 1) / 2), dims j +
          ∏ j ∈ univ.filter (fun j : Fin N => (N - 1) / 2 < j.1), dims j)) := by
  obtain ⟨f', w, a1, _, a3⟩ := legacyUpdatesC_runs h4 h5 hN lam solve hF hS
  refine ⟨f', w, a1 [], a1.erase (legacyUpdatesC_erases N R lam solve V F f), ?_⟩
  have e1 := legacy_stored h4 hd (by omega) R a3 (t := .input) (by decide)
  have e2 := legacy_stored h4 hd (by omega) R a3 (t := .mttkrp) (by decide)
  obtain ⟨_, s1, s2, _⟩ := legacy_sums h4 R a3
  have s2 := s2 fun j => le_trans h2 (hd j)
  rw [ivP_fin dims (by omega), ivP_fin dims (by omega)] at s2
  have f1 : univ.filter (fun j : Fin N => 0 ≤ j.1 ∧ j.1 ≤ (N - 1) / 2) = univ.filter (fun j : Fin N => j.1 ≤ (N - 1) / 2) := by
    ext j; simp
  have f2 : univ.filter (fun j : Fin N => (N - 1) / 2 + 1 ≤ j.1 ∧ j.1 ≤ N - 1) = univ.filter (fun j : Fin N => (N - 1) / 2 < j.1) := by
    ext j; simp only [mem_filter, mem_univ, true_and]; omega
  rw [f1, f2] at s2
  rw [s1] at e1
  rw [Nat.mul_add]
  refine (Nat.add_le_add e1 (e2.trans s2)).trans (le_of_eq ?_)
  ring

/-- **C87 (CP, intermediates, equal lengths).** At most `4 R s^(N-1) + 8 R (s^⌈N/2⌉ + s^⌊N/2⌋) / s` entries. -/
theorem C87_cp_dt_memory_equal {K : Type} [CommRing K] (h4 : 4 ≤ N) (h5 : N ≠ 5) (hN : N ≤ 31) {s R : ℕ} (hs : 2 ≤ s) {V : Tensor K}
    (lam : K) (solve : Spec.Solver K) {F : List (Tensor K)} (hF : Shaped (fun _ : Fin N => s) R V F) {f : Fac K}
    (hS : Shaped (fun _ : Fin N => s) R V f.W) :
    ∃ f' w, legacyUpdatesC N R lam solve V F f [] = .ok (f', w) ∧
      storedOf .input w + storedOf .mttkrp w ≤ R * (4 * s ^ (N - 1) + 8 * (s ^ ((N + 1) / 2 - 1) + s ^ (N / 2 - 1))) := by
  obtain ⟨f', w, h1, _, h2⟩ := C87_cp_dt_memory h4 h5 hN lam solve hF hS hs (fun _ => le_rfl)
  refine ⟨f', w, h1, ?_⟩
  have c1 : (univ.filter fun j : Fin N => j.1 ≤ (N - 1) / 2).card = (N + 1) / 2 := by
    have := card_ivSet (N := N) (n := (0, (N - 1) / 2)) (by simp) (by simp only; omega)
    rw [ivSet] at this
    simp only [Nat.zero_le, true_and] at this
    rw [this]
    omega
  have c2 : (univ.filter fun j : Fin N => (N - 1) / 2 < j.1).card = N / 2 := by
    have := card_ivSet (N := N) (n := ((N - 1) / 2 + 1, N - 1)) (by simp only; omega) (by simp only; omega)
    rw [ivSet] at this
    have e : (univ.filter fun j : Fin N => (N - 1) / 2 + 1 ≤ j.1 ∧ j.1 ≤ N - 1) = univ.filter fun j : Fin N => (N - 1) / 2 < j.1 := by
      ext j; simp only [mem_filter, mem_univ, true_and]; omega
    simp only at this
    rw [e] at this
    rw [this]
    omega
  simp only [prod_const, card_univ, Fintype.card_fin, c1, c2] at h2
  refine Nat.le_of_mul_le_mul_left (h2.trans (le_of_eq ?_)) (by omega : 0 < s)
  obtain ⟨n, rfl⟩ : ∃ n, N = n + 4 := ⟨N - 4, by omega⟩
  have p1 : s ^ (n + 4) = s * s ^ (n + 4 - 1) := by rw [← pow_succ']; rfl
  have p2 : s ^ ((n + 4 + 1) / 2) = s * s ^ ((n + 4 + 1) / 2 - 1) := by rw [← pow_succ']; congr 1; omega
  have p3 : s ^ ((n + 4) / 2) = s * s ^ ((n + 4) / 2 - 1) := by rw [← pow_succ']; congr 1; omega
  rw [p1, p2, p3]
  ring

/-- **C87 (Tucker, dimension tree, any number of sweeps).** `m` sweeps of `alsTucker_DT`: everything counted is `m` times that of one sweep. -/
theorem C87_tucker_dt_sweeps (h4 : 4 ≤ N) (h5 : N ≠ 5) (hN : N ≤ 18) {dims rk : Fin N → ℕ} (hr : ∀ j, rk j ≤ dims j) {V : Tensor ℝ}
    {W : List (Tensor ℝ)} (hS : TuckShaped dims rk V W) {k : Kern ℝ} (hk : SvdShape k) (C0 : Tensor ℝ) (m : ℕ) :
    ∃ s w, iterC (fun s : List (Tensor ℝ) × Tensor ℝ => tuckSweepDTC k V (List.ofFn rk) s.1) m (W, C0) [] = .ok (s, w) ∧
      iterM (fun s : List (Tensor ℝ) × Tensor ℝ => tuckSweepDT k V (List.ofFn rk) s.1) m (W, C0) = .ok s ∧
      TuckShaped dims rk V s.1 ∧
      countOf .input w = m * 2 ∧
      termsOf .input w = m * ((∏ j, dims j) * (rk ⟨0, by omega⟩ + rk ⟨(N - 1) / 2 + 1, by omega⟩)) ∧
      termsOf .update w = m * (∑ i, dims i * (dims i * ∏ j ∈ univ.erase i, rk j) + dims ⟨N - 1, by omega⟩ * ∏ j, rk j) := by
  obtain ⟨s, ws, h1, h2, h3, h6⟩ := Runs.iterC_ex (step := fun s : List (Tensor ℝ) × Tensor ℝ => tuckSweepDTC k V (List.ofFn rk) s.1)
    (P := fun s => TuckShaped dims rk V s.1)
    (Q := fun w => ∀ μ, Model.Additive μ → μ w = ∑ t ∈ below 0 (N - 1), μ (tuckNodeW dims rk t) +
      ∑ j ∈ range N, μ (tuckModeDTW dims rk j) + μ (coreW (by omega) dims rk))
    (fun s hs => by
      obtain ⟨W', C, w, a1, a2, a3⟩ := tuckSweepDTC_runs h4 h5 hN hr hs hk
      exact ⟨(W', C), w, a1, a2, a3⟩) m (W, C0) hS
  refine ⟨s, ws.flatten, h1 [], h1.erase (iterC_erases (fun s => tuckSweepDTC_erases k V (List.ofFn rk) s.1) m _), h2, ?_⟩
  rw [flatten_sum (additive_count .input) fun w hw => (tuckDT_input h4 (h6 w hw)).1,
    flatten_sum (additive_terms .input) fun w hw => (tuckDT_input h4 (h6 w hw)).2.1,
    flatten_sum (additive_terms .update) fun w hw => (tuckDT_input h4 (h6 w hw)).2.2, h3]
  exact ⟨rfl, rfl, rfl⟩

/-- **C87 (Tucker, dimension tree, intermediates).** No edge length below `d ≥ 1`: the tensors that a sweep of `alsTucker_DT` fills by
multiplications with the input tensor, and those it fills in the other products on the way to the tensors `Y`, have at most `1/d` times as
many entries as these products add up.  With equal edge lengths `s` and ranks `r ≤ s/2`: together at most
`2 r s^(N-1) + 4 r² s^(N-2) + 2 N r^(N+1-⌈N/2⌉) s^(⌈N/2⌉-1) + N r^(N-1) s²`. -/
theorem C87_tucker_dt_memory (h4 : 4 ≤ N) (h5 : N ≠ 5) (hN : N ≤ 18) {dims rk : Fin N → ℕ} (hr : ∀ j, rk j ≤ dims j) {V : Tensor ℝ}
    {W : List (Tensor ℝ)} (hS : TuckShaped dims rk V W) {k : Kern ℝ} (hk : SvdShape k) {d : ℕ} (h1 : 1 ≤ d) (hd : ∀ j, d ≤ dims j) :
    ∃ W' C w, tuckSweepDTC k V (List.ofFn rk) W [] = .ok ((W', C), w) ∧ tuckSweepDT k V (List.ofFn rk) W = .ok (W', C) ∧
      d * storedOf .input w ≤ (∏ j, dims j) * (rk ⟨0, by omega⟩ + rk ⟨(N - 1) / 2 + 1, by omega⟩) ∧
      d * storedOf .mttkrp w ≤ termsOf .mttkrp w ∧
      ∀ s r : ℕ, 2 * r ≤ s → (∀ j, dims j = s) → (∀ j, rk j = r) → 1 ≤ s →
        storedOf .input w + storedOf .mttkrp w ≤ 2 * (r * s ^ (N - 1)) + 4 * (r ^ 2 * s ^ (N - 2)) +
          2 * N * (r ^ (N + 1 - (N + 1) / 2) * s ^ ((N + 1) / 2 - 1)) + N * (r ^ (N - 1) * s ^ 2) := by
  obtain ⟨W', C, w, a1, a2, a3⟩ := tuckSweepDTC_runs h4 h5 hN hr hS hk
  obtain ⟨_, s1, _⟩ := tuckDT_input h4 a3
  have e1 := tuckDT_stored h4 hd h1 a3 (t := .input) (by decide)
  have e2 := tuckDT_stored h4 hd h1 a3 (t := .mttkrp) (by decide)
  refine ⟨W', C, w, a1 [], a1.erase (tuckSweepDTC_erases k V (List.ofFn rk) W), s1 ▸ e1, e2, fun s r hrs hds hrk hs => ?_⟩
  obtain rfl : dims = fun _ => s := funext hds
  obtain rfl : rk = fun _ => r := funext hrk
  have g1 := tuckDT_stored h4 (d := s) (fun _ => le_rfl) hs a3 (t := .input) (by decide)
  have g2 := tuckDT_stored h4 (d := s) (fun _ => le_rfl) hs a3 (t := .mttkrp) (by decide)
  have g3 := tuckDT_mttkrp h4 hrs a3
  rw [s1] at g1
  simp only [prod_const, card_univ, Fintype.card_fin] at g1
  refine Nat.le_of_mul_le_mul_left ?_ (by omega : 0 < s)
  rw [Nat.mul_add]
  refine (Nat.add_le_add g1 (g2.trans g3)).trans (le_of_eq ?_)
  obtain ⟨n, rfl⟩ : ∃ n, N = n + 4 := ⟨N - 4, by omega⟩
  have p1 : s ^ (n + 4) = s * s ^ (n + 4 - 1) := by rw [← pow_succ']; rfl
  have p0 : s ^ (n + 4 - 1) = s * s ^ (n + 4 - 2) := by rw [← pow_succ']; rfl
  have p2 : s ^ ((n + 4 + 1) / 2) = s * s ^ ((n + 4 + 1) / 2 - 1) := by rw [← pow_succ']; congr 1; omega
  rw [p1, p2, p0]
  ring

/-! ### the hypotheses are met -/

example : ∃ f' w, legacyUpdatesC 4 1 (1 / 2) (fun _ _ M _ => M) exHyperV exHyperW ⟨exHyperW, exHyperW⟩ [] = .ok (f', w) ∧
    storedOf .input w + storedOf .mttkrp w ≤ 64 := by
  obtain ⟨f', w, h1, h2⟩ := C87_cp_dt_memory_equal (N := 4) (by omega) (by omega) (by omega) (le_refl 2) (1 / 2) (fun _ _ M _ => M)
    exHyperShaped (f := ⟨exHyperW, exHyperW⟩) exHyperShaped
  exact ⟨f', w, h1, by simpa using h2⟩

example : ∃ (k : Kern ℝ) (s : List (Tensor ℝ) × Tensor ℝ) (w : List Work) (W' : List (Tensor ℝ)) (C : Tensor ℝ) (w' : List Work),
    iterC (fun s : List (Tensor ℝ) × Tensor ℝ => tuckSweepDTC k exTuckV [1, 2, 1, 3] s.1) 5 (exTuckW, ⟨[], fun _ => 0⟩) [] = .ok (s, w) ∧
    countOf .input w = 10 ∧
    tuckSweepDTC k exHyperV [1, 1, 1, 1] exHyperW [] = .ok ((W', C), w') ∧ storedOf .input w' + storedOf .mttkrp w' ≤ 64 := by
  obtain ⟨k, _, hk⟩ := exists_svdLeading
  obtain ⟨s, w, h1, _, _, h2, _⟩ := C87_tucker_dt_sweeps (N := 4) (by omega) (by omega) (by omega) exTuckRank exTuckShaped hk
    ⟨[], fun _ => 0⟩ 5
  obtain ⟨W', C, w', g1, _, _, _, g2⟩ := C87_tucker_dt_memory (N := 4) (by omega) (by omega) (by omega) (rk := fun _ => 1)
    (dims := fun _ => 2) (by simp) exHyperTuck hk (d := 2) (by omega) (by simp)
  refine ⟨k, s, w, W', C, w', h1, h2, g1, (g2 2 1 (by omega) (fun _ => rfl) (fun _ => rfl) (by omega)).trans (by norm_num)⟩

end Properties
