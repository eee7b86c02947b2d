import Verif.Model.Generators
import Verif.Proofs.Ctf
import Verif.Proofs.Build
import Verif.Proofs.Loop

/-! # Global indices, `write`, unit tensor, identity and Laplacian tensors -/

namespace Model

open Finset

variable {K : Type}

/-! ### global indices -/

theorem gidx_lt {lens idx : List ℕ} (h : fits lens idx = true) : gidx lens idx < lens.prod := by
  induction lens generalizing idx with
  | nil => cases idx <;> simp_all [fits, gidx]
  | cons n ns ih =>
    cases idx with
    | nil => simp [fits] at h
    | cons x xs =>
      simp only [fits, Bool.and_eq_true, decide_eq_true_eq] at h
      simp only [gidx, List.prod_cons]
      have := ih h.2
      calc x + n * gidx ns xs < n + n * gidx ns xs := by omega
        _ = n * (gidx ns xs + 1) := by ring
        _ ≤ n * ns.prod := Nat.mul_le_mul_left _ this

theorem gidx_inj {lens a b : List ℕ} (ha : fits lens a = true) (hb : fits lens b = true)
    (h : gidx lens a = gidx lens b) : a = b := by
  induction lens generalizing a b with
  | nil => cases a <;> cases b <;> simp_all [fits]
  | cons n ns ih =>
    cases a with
    | nil => simp [fits] at ha
    | cons x xs =>
      cases b with
      | nil => simp [fits] at hb
      | cons y ys =>
        simp only [fits, Bool.and_eq_true, decide_eq_true_eq] at ha hb
        simp only [gidx] at h
        have hx : x = y := by
          have := congrArg (· % n) h
          simpa [Nat.add_mul_mod_self_left, Nat.mod_eq_of_lt ha.1, Nat.mod_eq_of_lt hb.1] using this
        subst hx
        have hn : 0 < n := by omega
        rw [ih ha.2 hb.2 (Nat.eq_of_mul_eq_mul_left hn (by omega))]

theorem gidx_surj (lens : List ℕ) {g : ℕ} (h : g < lens.prod) : ∃ idx, fits lens idx = true ∧ gidx lens idx = g := by
  induction lens generalizing g with
  | nil =>
    refine ⟨[], rfl, ?_⟩
    simp at h
    simp [gidx, h]
  | cons n ns ih =>
    simp only [List.prod_cons] at h
    obtain ⟨xs, h1, h2⟩ := ih (Nat.div_lt_of_lt_mul h)
    have hn : 0 < n := by
      rcases Nat.eq_zero_or_pos n with h0 | h0
      · simp [h0] at h
      · exact h0
    refine ⟨g % n :: xs, ?_, ?_⟩
    · simp [fits, Nat.mod_lt _ hn, h1]
    · simp only [gidx, h2]
      exact Nat.mod_add_div g n

theorem fits_zero {lens : List ℕ} (h : ∀ n ∈ lens, 0 < n) : fits lens (List.replicate lens.length 0) = true := by
  induction lens with
  | nil => rfl
  | cons n ns ih =>
    simp only [List.length_cons, List.replicate_succ, fits, Bool.and_eq_true, decide_eq_true_eq]
    exact ⟨h n (by simp), ih fun m hm => h m (by simp [hm])⟩

theorem gidx_zero (lens : List ℕ) : ∀ n, gidx lens (List.replicate n 0) = 0 := by
  induction lens with
  | nil => intro n; cases n <;> rfl
  | cons m ms ih =>
    intro n
    cases n with
    | zero => rfl
    | succ n => simp [List.replicate_succ, gidx, ih]

/-! ### write -/

theorem writeT_ok [AddCommMonoid K] {T : Tensor K} {pairs : List (ℕ × K)}
    (h : ∀ p ∈ pairs, p.1 < T.lens.prod) :
    ∃ T', writeT T pairs = .ok T' ∧ Canon T' ∧ T'.lens = T.lens ∧
      ∀ idx, fits T.lens idx = true →
        ((∃ p ∈ pairs, p.1 = gidx T.lens idx) →
          T'.val idx = ((pairs.filter fun p => decide (p.1 = gidx T.lens idx)).map Prod.snd).sum) ∧
        ((¬ ∃ p ∈ pairs, p.1 = gidx T.lens idx) → T'.val idx = T.val idx) := by
  have hall : (pairs.all fun p => decide (p.1 < T.lens.prod)) = true := by
    rw [List.all_eq_true]
    intro p hp
    simpa using h p hp
  have e : writeT T pairs = .ok ⟨T.lens, fun idx =>
      if fits T.lens idx = true then
        if pairs.any fun p => decide (p.1 = gidx T.lens idx) then
          ((pairs.filter fun p => decide (p.1 = gidx T.lens idx)).map Prod.snd).sum
        else T.val idx
      else 0⟩ := by
    unfold writeT; rw [if_pos hall]
  refine ⟨_, e, ?_, rfl, ?_⟩
  · intro idx hidx
    simp only at hidx ⊢
    rw [if_neg hidx]
  · intro idx hidx
    simp only
    rw [if_pos hidx]
    constructor
    · rintro ⟨p, hp, he⟩
      rw [if_pos]
      rw [List.any_eq_true]
      exact ⟨p, hp, by simpa using he⟩
    · intro hn
      rw [if_neg]
      rw [List.any_eq_true]
      rintro ⟨p, hp, he⟩
      exact hn ⟨p, hp, by simpa using he⟩

theorem writeT_ub [AddCommMonoid K] {T : Tensor K} {pairs : List (ℕ × K)}
    (h : ∃ p ∈ pairs, T.lens.prod ≤ p.1) : writeT T pairs = .error .ub := by
  unfold writeT
  rw [if_neg]
  rw [List.all_eq_true]
  intro hh
  obtain ⟨p, hp, hle⟩ := h
  have := hh p hp
  simp only [decide_eq_true_eq] at this
  omega

/-- The sum of the values at one index when the pairs of all ranks are joined and only rank 0 writes nonzero values. -/
theorem ranks_sum [AddCommMonoid K] {np : ℕ} (hnp : 1 ≤ np) (f : ℕ → List (ℕ × K)) (g : ℕ)
    (h0 : ∀ rk, rk ≠ 0 → ∀ p ∈ f rk, p.2 = 0) :
    ((((List.range np).flatMap f).filter fun p => decide (p.1 = g)).map Prod.snd).sum =
      (((f 0).filter fun p => decide (p.1 = g)).map Prod.snd).sum := by
  obtain ⟨m, rfl⟩ : ∃ m, np = m + 1 := ⟨np - 1, by omega⟩
  rw [List.range_succ_eq_map, List.flatMap_cons, List.filter_append, List.map_append, List.sum_append]
  have : ∀ x ∈ ((((List.range m).map Nat.succ).flatMap f).filter fun p => decide (p.1 = g)).map Prod.snd, x = 0 := by
    intro x hx
    simp only [List.mem_map, List.mem_filter, List.mem_flatMap] at hx
    obtain ⟨p, ⟨⟨rk, ⟨a, _, rfl⟩, hp⟩, _⟩, rfl⟩ := hx
    exact h0 _ (by simp) p hp
  rw [List.sum_eq_zero this, add_zero]

theorem filter_single {α : Type} {l : List α} {q : α → Bool} {a : α} (hnd : l.Nodup) (ha : a ∈ l) (hq : q a = true)
    (hu : ∀ x ∈ l, q x = true → x = a) : l.filter q = [a] := by
  have h1 : a ∈ l.filter q := List.mem_filter.2 ⟨ha, hq⟩
  have h2 : (l.filter q).Nodup := hnd.filter _
  have h3 : ∀ x ∈ l.filter q, x = a := fun x hx => hu x (List.mem_filter.1 hx).1 (List.mem_filter.1 hx).2
  generalize l.filter q = c at *
  match c, h1, h2, h3 with
  | [x], _, _, h3 => rw [h3 x (by simp)]
  | x :: y :: t, _, h2, h3 =>
    have := h3 x (by simp); have := h3 y (by simp); subst_vars; simp at h2

/-! ### unit tensor -/

theorem mem_unitPairs [Zero K] [One K] {s rk : ℕ} {p : ℕ × K} :
    p ∈ unitPairs s rk ↔ ∃ c < s, ∃ r < s,
      p = (c * s * s + r * s + (r + c * (s - 1)) % s, if rk = 0 then 1 else 0) := by
  simp only [unitPairs, List.mem_flatMap, List.mem_range, List.mem_map]
  constructor
  · rintro ⟨c, hc, r, hr, rfl⟩; exact ⟨c, hc, r, hr, rfl⟩
  · rintro ⟨c, hc, r, hr, rfl⟩; exact ⟨c, hc, r, hr, rfl⟩

theorem unit_key_inj {s i j k i' j' k' : ℕ} (hi : i < s) (hj : j < s) (hi' : i' < s) (hj' : j' < s)
    (h : k * s * s + j * s + i = k' * s * s + j' * s + i') : i = i' ∧ j = j' ∧ k = k' := by
  have hs : 0 < s := by omega
  have h' : i + s * (j + s * k) = i' + s * (j' + s * k') := by
    calc _ = k * s * s + j * s + i := by ring
      _ = _ := h
      _ = _ := by ring
  have h1 : i = i' := by
    have := congrArg (· % s) h'
    simpa [Nat.add_mul_mod_self_left, Nat.mod_eq_of_lt hi, Nat.mod_eq_of_lt hi'] using this
  subst h1
  have h2 : j + s * k = j' + s * k' := Nat.eq_of_mul_eq_mul_left hs (by omega)
  have h3 : j = j' := by
    have := congrArg (· % s) h2
    simpa [Nat.add_mul_mod_self_left, Nat.mod_eq_of_lt hj, Nat.mod_eq_of_lt hj'] using this
  subst h3
  exact ⟨rfl, rfl, Nat.eq_of_mul_eq_mul_left hs (by omega)⟩

theorem unitPairs_nodup [Zero K] [One K] (s rk : ℕ) : (unitPairs (K := K) s rk).Nodup := by
  unfold unitPairs
  rw [List.nodup_flatMap]
  constructor
  · intro c hc
    rw [List.mem_range] at hc
    refine List.Nodup.map_on ?_ List.nodup_range
    intro r hr r' hr' h
    rw [List.mem_range] at hr hr'
    have hs : 0 < s := by omega
    exact (unit_key_inj (Nat.mod_lt _ hs) hr (Nat.mod_lt _ hs) hr' (Prod.mk.inj h).1).2.1
  · refine List.nodup_range.imp_of_mem ?_
    intro c c' hc hc' hne p hp hp'
    simp only [List.mem_map, List.mem_range] at hp hp' hc
    obtain ⟨r, hr, rfl⟩ := hp
    obtain ⟨r', hr', h⟩ := hp'
    have hs : 0 < s := by omega
    exact hne (unit_key_inj (Nat.mod_lt _ hs) hr (Nat.mod_lt _ hs) hr' (Prod.mk.inj h).1.symm).2.2

theorem unitTensor_ok [AddCommMonoid K] [One K] {np s : ℕ} (hnp : 1 ≤ np) (hs : 1 ≤ s) {rest : List ℕ}
    (hrest : ∀ n ∈ rest, 0 < n) {V : Tensor K} (hV : V.lens = s :: s :: s :: rest) :
    ∃ T, unitTensor np V s = .ok T ∧ Canon T ∧ T.lens = V.lens ∧
      ∀ i j k tl, fits V.lens (i :: j :: k :: tl) = true →
        T.val (i :: j :: k :: tl) =
          if i = (j + k * (s - 1)) % s ∧ tl = List.replicate rest.length 0 then 1 else V.val (i :: j :: k :: tl) := by
  have hpr : 1 ≤ rest.prod := by
    clear hV
    induction rest with
    | nil => simp
    | cons a l ih =>
      rw [List.prod_cons]
      exact Nat.mul_pos (hrest a (by simp)) (ih fun n hn => hrest n (by simp [hn]))
  have hrange : ∀ p ∈ (List.range np).flatMap fun rk => unitPairs (K := K) s rk, p.1 < V.lens.prod := by
    intro p hp
    rw [List.mem_flatMap] at hp
    obtain ⟨rk, _, hp⟩ := hp
    obtain ⟨c, hc, r, hr, rfl⟩ := mem_unitPairs.1 hp
    rw [hV]
    simp only [List.prod_cons]
    have h1 : (r + c * (s - 1)) % s < s := Nat.mod_lt _ (by omega)
    have h2 := gidx_lt (lens := [s, s, s]) (idx := [(r + c * (s - 1)) % s, r, c]) (by simp [fits, h1, hc, hr])
    simp only [gidx, List.prod_cons, List.prod_nil] at h2
    calc c * s * s + r * s + (r + c * (s - 1)) % s = (r + c * (s - 1)) % s + s * (r + s * (c + s * 0)) := by ring
      _ < s * (s * (s * 1)) := h2
      _ ≤ s * (s * (s * rest.prod)) := by gcongr
  obtain ⟨T, h1, h2, h3, h4⟩ := writeT_ok hrange
  refine ⟨T, h1, h2, h3, ?_⟩
  intro i j k tl hfit
  obtain ⟨h5, h6⟩ := h4 _ hfit
  have hf := hfit
  rw [hV] at hf
  simp only [fits, Bool.and_eq_true, decide_eq_true_eq] at hf
  obtain ⟨hi, hj, hk, htl⟩ := hf
  have hlen := fits_length htl
  have hg : gidx V.lens (i :: j :: k :: tl) = (k + s * gidx rest tl) * s * s + j * s + i := by
    rw [hV]; simp only [gidx]; ring
  have hz : gidx rest tl = 0 ↔ tl = List.replicate rest.length 0 := by
    constructor
    · intro h
      exact gidx_inj htl (fits_zero hrest) (by rw [h, gidx_zero])
    · rintro h
      rw [h, gidx_zero]
  have hkey : ∀ c < s, ∀ r < s, (c * s * s + r * s + (r + c * (s - 1)) % s = gidx V.lens (i :: j :: k :: tl)) →
      i = (j + k * (s - 1)) % s ∧ tl = List.replicate rest.length 0 ∧ c = k ∧ r = j := by
    intro c hc r hr he
    rw [hg] at he
    obtain ⟨e1, e2, e3⟩ := unit_key_inj (Nat.mod_lt _ (by omega)) hr hi hj he
    have hz0 : gidx rest tl = 0 := by
      by_contra hne
      have : s * 1 ≤ s * gidx rest tl := Nat.mul_le_mul_left _ (by omega)
      omega
    rw [hz0] at e3
    simp only [Nat.mul_zero, Nat.add_zero] at e3
    subst e2 e3
    exact ⟨e1.symm, hz.1 hz0, rfl, rfl⟩
  by_cases hc : i = (j + k * (s - 1)) % s ∧ tl = List.replicate rest.length 0
  · rw [if_pos hc]
    have hgk : k * s * s + j * s + (j + k * (s - 1)) % s = gidx V.lens (i :: j :: k :: tl) := by
      rw [hg, hz.2 hc.2, ← hc.1]; ring
    rw [h5 ⟨(_, 1), List.mem_flatMap.2 ⟨0, by rw [List.mem_range]; omega,
      mem_unitPairs.2 ⟨k, hk, j, hj, by rw [if_pos rfl]⟩⟩, hgk⟩]
    rw [ranks_sum hnp]
    · rw [filter_single (a := (k * s * s + j * s + (j + k * (s - 1)) % s, (1 : K))) (unitPairs_nodup s 0)
        (mem_unitPairs.2 ⟨k, hk, j, hj, by rw [if_pos rfl]⟩) (by simpa using hgk)]
      · simp
      · intro x hx hqx
        obtain ⟨c, hc, r, hr, rfl⟩ := mem_unitPairs.1 hx
        obtain ⟨_, _, rfl, rfl⟩ := hkey c hc r hr (by simpa using hqx)
        simp
    · intro rk hrk p hp
      obtain ⟨c, _, r, _, rfl⟩ := mem_unitPairs.1 hp
      simp [hrk]
  · rw [if_neg hc]
    apply h6
    rintro ⟨p, hp, he⟩
    rw [List.mem_flatMap] at hp
    obtain ⟨rk, _, hp⟩ := hp
    obtain ⟨c, hc', r, hr', rfl⟩ := mem_unitPairs.1 hp
    obtain ⟨e1, e2, _⟩ := hkey c hc' r hr' he
    exact hc ⟨e1, e2⟩

end Model
