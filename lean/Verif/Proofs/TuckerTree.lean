import Verif.Proofs.TuckerUnroll

/-! The Tucker dimension tree. -/

namespace Model

open Finset Function

variable {K : Type} {N : ℕ}

/-- The modes of an interval. -/
def ivSet (N : ℕ) (n : Iv) : Finset (Fin N) := univ.filter fun j => n.1 ≤ j.1 ∧ j.1 ≤ n.2

theorem mem_ivSet {n : Iv} {j : Fin N} : j ∈ ivSet N n ↔ n.1 ≤ j.1 ∧ j.1 ≤ n.2 := by simp [ivSet]

variable [CommRing K]

/-- A good node: exact multi-mode product outside the interval. -/
def TuckGood (dims rk : Fin N → ℕ) (V : Tensor K) (W : List (Tensor K)) (n : Iv) (T : Tensor K) : Prop :=
  TValid dims rk (arr V N) (mats W) (ivSet N n) T

theorem tdecode_rd (hN : N ≤ 31) {dims rk : Fin N → ℕ} {V : Tensor K} {W : List (Tensor K)}
    (hS : TuckShaped dims rk V W) {k : ℕ} (hk : k < N) :
    ∃ M, rd W (decode (letter k)) = .ok M ∧ M.lens = [dims ⟨k, hk⟩, rk ⟨k, hk⟩] ∧ mat M = mats W ⟨k, hk⟩ := by
  obtain ⟨M, h1, _, h2, h3⟩ := tmats_get hS ⟨k, hk⟩
  refine ⟨M, ?_, h2, h3⟩
  rw [decode_letter (by omega)]
  exact h1

theorem tletter_ne_star (hN : N ≤ 31) (k : Fin N) : letter k.1 ≠ star := letter_ne_star (by omega)

theorem tletter_ne_hat (hN : N ≤ 31) (k : Fin N) : letter k.1 ≠ hat := by
  rw [letter_eq (by omega)]; unfold hat
  change ¬ ((_ : ℤ) = _)
  omega

theorem toNat_letter {k : ℕ} (hk : k ≤ 30) : (letter k - 97).toNat = k := by
  rw [letter_eq hk]
  have : (97 + (k : ℤ) - 97 : ℤ) = k := by omega
  exact (congrArg Int.toNat this).trans (by simp)

theorem letter_range {k : ℕ} (hk : k ≤ 30) {N : ℕ} (h : k < N) : ¬ (letter k < 97 ∨ (N : ℤ) ≤ letter k - 97) := by
  rw [letter_eq hk]
  rintro (h' | h')
  · have : (97 + (k : ℤ) : ℤ) < 97 := h'
    omega
  · have : (N : ℤ) ≤ (97 + (k : ℤ) : ℤ) - 97 := h'
    omega

/-- The contraction loop over the sibling. -/
theorem ttmLoop_ok (hN : N ≤ 31) {dims rk : Fin N → ℕ} {V : Tensor K} {W : List (Tensor K)}
    (hS : TuckShaped dims rk V W) {keep : Finset (Fin N)} {T0 : Tensor K}
    (hT : TValid dims rk (arr V N) (mats W) keep T0) {b : Iv} (hb : b.2 < N) (hbk : ivSet N b ⊆ keep) :
    ∃ T, ttmLoop N W (ivStr b) T0 = .ok T ∧ TValid dims rk (arr V N) (mats W) (keep \ ivSet N b) T := by
  obtain ⟨s, h1, h2, _⟩ := foldlM_range'_inv (s := 0) (n := b.2 + 1 - b.1)
    (P := fun j (s : Tensor K × List ℕ) =>
      TValid dims rk (arr V N) (mats W) (keep \ univ.filter fun m : Fin N => b.1 ≤ m.1 ∧ m.1 < b.1 + j) s.1 ∧
      s.2 = List.ofFn (klens dims rk (keep \ univ.filter fun m : Fin N => b.1 ≤ m.1 ∧ m.1 < b.1 + j)))
    (f := fun (s : Tensor K × List ℕ) (j : ℕ) => do
      let c ← rd (ivStr b) j
      let Wc ← rd W (decode c)
      if c < 97 ∨ (N : ℤ) ≤ c - 97 then .error .ub
      else do
        let lens := s.2.set (c - 97).toNat (ncol Wc)
        let T ← einsum lens ((allLetters N).set (c - 97).toNat star) [(s.1, allLetters N), (Wc, [c, star])]
        pure (T, lens)) (a := (T0, T0.lens))
    (by
      have : keep \ univ.filter (fun m : Fin N => b.1 ≤ m.1 ∧ m.1 < b.1 + 0) = keep := by
        ext m; simp
      rw [this]
      exact ⟨hT, hT.1⟩)
    (by
      rintro j s _ hj ⟨g1, g2⟩
      have hk : b.1 + j < N := by omega
      obtain ⟨Wc, r1, r2, r3⟩ := tdecode_rd hN hS hk
      set kp := keep \ univ.filter (fun m : Fin N => b.1 ≤ m.1 ∧ m.1 < b.1 + j) with hkp
      have he : (keep \ univ.filter fun m : Fin N => b.1 ≤ m.1 ∧ m.1 < b.1 + (j + 1)) = kp.erase ⟨b.1 + j, hk⟩ := by
        ext m; simp only [hkp, Finset.mem_sdiff, mem_filter, mem_univ, true_and, Finset.mem_erase, Ne, Fin.ext_iff]
        have : (b.1 ≤ m.1 ∧ m.1 < b.1 + (j + 1)) ↔ ((b.1 ≤ m.1 ∧ m.1 < b.1 + j) ∨ m.1 = b.1 + j) := by omega
        rw [this]
        tauto
      obtain ⟨T', e1, _, e3⟩ := g1.step (letter_injective (by omega)) (s := star) (tletter_ne_star hN)
        (j := ⟨b.1 + j, hk⟩) (by
          simp only [hkp, Finset.mem_sdiff, mem_filter, mem_univ, true_and]
          exact ⟨hbk (mem_ivSet.2 (by simp only; omega)), by omega⟩) r2 r3
      simp only [bind, Except.bind, pure, Except.pure]
      rw [rd_strOf (n := b) (by omega)]
      simp only
      rw [r1]
      simp only
      rw [if_neg (letter_range (by omega) hk), toNat_letter (by omega)]
      have hl : s.2.set (b.1 + j) (ncol Wc) = List.ofFn (klens dims rk (kp.erase ⟨b.1 + j, hk⟩)) := by
        rw [g2, ncol_of r2, ← klens_update, ← ofFn_set]
      have hseq : (allLetters N).set (b.1 + j) star =
          List.ofFn (update (fun j : Fin N => letter j.1) ⟨b.1 + j, hk⟩ star) := by
        rw [allLetters_ofFn, ← ofFn_set]
      simp only at e1
      rw [hl, hseq, allLetters_ofFn, e1]
      refine ⟨_, rfl, ?_⟩
      rw [he]
      exact ⟨e3, rfl⟩)
  refine ⟨s.1, ?_, ?_⟩
  · unfold ttmLoop
    rw [strOf_length, List.range_eq_range']
    simp only [bind, Except.bind, pure, Except.pure] at h1 ⊢
    rw [h1]
  · convert h2 using 2
    ext m
    simp only [mem_ivSet, mem_filter, mem_univ, true_and]
    omega

theorem sub_ivSet {n p b : Iv} (h : Sub 0 (N - 1) n p b) : ivSet N b ⊆ ivSet N p ∧ ivSet N p \ ivSet N b = ivSet N n := by
  obtain ⟨a1, a2, a3, (⟨e1, e2⟩ | ⟨e1, e2⟩)⟩ := h.shape
  · rw [e1, e2]
    constructor
    · intro m; simp only [mem_ivSet]; omega
    · ext m; simp only [Finset.mem_sdiff, mem_ivSet]; omega
  · rw [e1, e2]
    constructor
    · intro m; simp only [mem_ivSet]; omega
    · ext m; simp only [Finset.mem_sdiff, mem_ivSet]; omega

theorem ivSet_root : ivSet N (0, N - 1) = univ := by
  ext m; simp only [mem_ivSet, mem_univ, iff_true]; omega

theorem tuckMapDT_ok (h4 : 4 ≤ N) (h5 : N ≠ 5) (hN : N ≤ 31) {dims rk : Fin N → ℕ} {V : Tensor K}
    {W : List (Tensor K)} (hS : TuckShaped dims rk V W) {i fuel : ℕ} {n p b : Iv} {cache : Cache K}
    (hn : Sub 0 (N - 1) n p b) (h1 : n.1 ≤ i) (h2 : i ≤ n.2) (hf : N ≤ fuel)
    (hI : DInv N (TuckGood dims rk V W) i cache) :
    ∃ cache', tuckMapDT N (constructDT 0 (N - 1) {}) V W fuel (ivStr n) cache = .ok cache' ∧
      DInv N (TuckGood dims rk V W) i cache' ∧
      ∃ T, cache'.lookup (ivStr n) = some T ∧ TuckGood dims rk V W n T := by
  refine dtNode_ok h4 h5 (by omega) ?_ ?_ i fuel n p b cache hn h1 h2 (by omega) hI
  · intro n b h
    rw [(mapGet_tree (by omega) h).2]
    obtain ⟨s1, s2⟩ := sub_ivSet h
    have hb := h.swap.node_le
    obtain ⟨T, t1, t2⟩ := ttmLoop_ok hN hS (TValid.input (rk := rk) (mats W) hS.lensV) (b := b) (by omega) (by simp)
    refine ⟨T, t1, ?_⟩
    rw [← ivSet_root, s2] at t2
    exact t2
  · intro n p b h _ Tp hTp
    rw [(mapGet_tree (by omega) h).2]
    obtain ⟨s1, s2⟩ := sub_ivSet h
    have hb := h.swap.node_le
    obtain ⟨T, t1, t2⟩ := ttmLoop_ok hN hS hTp (b := b) (by omega) s1
    rw [s2] at t2
    exact ⟨T, t1, t2⟩

theorem lensY_ok {dims rk : Fin N → ℕ} {V : Tensor K} {W : List (Tensor K)} (hS : TuckShaped dims rk V W) (i : Fin N) :
    lensY N V W i.1 = .ok (List.ofFn (klens dims rk {i})) := by
  unfold lensY
  have h : (List.range N).mapM (fun (m : ℕ) => do pure (ncol (← rd W m))) = .ok ((List.range N).map fun m =>
      if h : m < N then rk ⟨m, h⟩ else 0) := by
    apply mapM_ok
    intro m hm
    rw [List.mem_range] at hm
    obtain ⟨M, r1, _, r2, _⟩ := tmats_get hS ⟨m, hm⟩
    simp only [bind, Except.bind, pure, Except.pure]
    simp only at r1
    rw [r1]
    simp only
    rw [ncol_of r2, dif_pos hm]
  simp only [bind, Except.bind, pure, Except.pure] at h ⊢
  rw [h]
  have h2 : rd V.lens (i.1 : ℤ) = .ok (dims i) := by
    rw [rd_ok (by rw [hS.lensV]; simp)]
    congr 1
    simp [hS.lensV]
  simp only
  rw [h2]
  simp only
  have e : (List.range N).map (fun m => if h : m < N then rk ⟨m, h⟩ else 0) = List.ofFn rk := by
    apply List.ext_getElem
    · simp
    · intro k h1 h2
      simp only [List.length_map, List.length_range] at h1
      simp [h1]
  rw [e, ofFn_set]
  congr 2
  funext j
  by_cases hj : j = i
  · subst hj; simp [klens]
  · simp [klens, hj]

/-- The tensor `Y` of a mode. -/
theorem tuckY_ok (h4 : 4 ≤ N) (h5 : N ≠ 5) (hN : N ≤ 31) {dims rk : Fin N → ℕ} {V : Tensor K}
    {W : List (Tensor K)} (hS : TuckShaped dims rk V W) (i : Fin N) {cache : Cache K}
    (hI : DInv N (TuckGood dims rk V W) i.1 cache) :
    ∃ Y cache', tuckY N (constructDT 0 (N - 1) {}) V W cache i.1 = .ok (Y, cache') ∧ Canon Y ∧
      TValid dims rk (arr V N) (mats W) {i} Y ∧ DInv N (TuckGood dims rk V W) i.1 cache' := by
  obtain ⟨p, b, p', b', hn, hpp, hp1, hp2, hp3, hcase⟩ := leaf_cases h4 i
  obtain ⟨t1, t2⟩ := mapGet_tree (by omega) hn
  simp only [ivStr, strOf_self] at t1 t2
  obtain ⟨c1, hc1, hI1, Tp, hTp, hTv⟩ : ∃ c1, (if (cache.lookup (ivStr p)).isNone then
      tuckMapDT N (constructDT 0 (N - 1) {}) V W (N + 1) (ivStr p) cache else pure cache) = .ok c1 ∧
      DInv N (TuckGood dims rk V W) i.1 c1 ∧ ∃ T, c1.lookup (ivStr p) = some T ∧ TuckGood dims rk V W p T := by
    by_cases hnone : (cache.lookup (ivStr p)).isNone
    · rw [if_pos hnone]
      exact tuckMapDT_ok h4 h5 hN hS hpp hp1 hp2 (by omega) hI
    · rw [if_neg hnone]
      obtain ⟨T, hT⟩ : ∃ T, cache.lookup (ivStr p) = some T := by
        rw [← Option.isSome_iff_exists]
        simpa [Option.isSome_iff_ne_none] using hnone
      exact ⟨cache, rfl, hI, T, hT, (hI p p' b' hpp T hT).2 hp2⟩
  have hplen : 2 ≤ p.2 + 1 - p.1 := by
    rcases hcase with ⟨rfl, _⟩ | ⟨_, rfl, _⟩ | ⟨_, rfl, _⟩ <;> simp only <;> omega
  have e0 : rd (ivStr p) 0 = .ok (letter p.1) := rd_strOf (n := p) (j := 0) (by omega)
  have e1 : rd (ivStr p) 1 = .ok (letter (p.1 + 1)) := rd_strOf (n := p) (j := 1) (by omega)
  unfold tuckY
  rw [lensY_ok hS i]
  simp only [t1, t2, bind, Except.bind]
  simp only [ivStr] at hc1 e0 e1 hTp
  rw [hc1, e0, e1]
  simp only [hTp, strOf_length]
  have hli : ∀ k, k < 31 → (letter i.1 = letter k ↔ k = i.1) := by
    intro k hk
    constructor
    · intro h; exact letter_inj (by omega) (by omega) h.symm
    · rintro rfl; rfl
  have two : ∀ k (hk : k < N), k ≠ i.1 → p.2 = p.1 + 1 → (k = p.1 ∧ i.1 = p.1 + 1 ∨ k = p.1 + 1 ∧ i.1 = p.1) →
      ∃ Wc Y, rd W (decode (letter k)) = .ok Wc ∧
        einsum (List.ofFn (klens dims rk {i})) ((allLetters N).set (decode (letter k)).toNat star)
          [(Tp, allLetters N), (Wc, [letter k, star])] = .ok Y ∧ Canon Y ∧ TValid dims rk (arr V N) (mats W) {i} Y := by
    intro k hk hki hp12 hkp
    obtain ⟨Wc, hrd, hl, he⟩ := tdecode_rd hN hS hk
    have hset : (ivSet N p).erase ⟨k, hk⟩ = {i} := by
      ext m; simp only [Finset.mem_erase, mem_ivSet, mem_singleton, Fin.ext_iff, Ne]; omega
    obtain ⟨Y, y1, y2, y3⟩ := TValid.step hTv (letter_injective (by omega)) (s := star) (tletter_ne_star hN)
      (j := ⟨k, hk⟩) (mem_ivSet.2 (by simp only; omega)) hl he
    rw [hset] at y1 y3
    refine ⟨Wc, Y, hrd, ?_, y2, y3⟩
    rw [decode_letter (by omega), allLetters_ofFn]
    have := ofFn_set (fun j : Fin N => letter j.1) ⟨k, hk⟩ star
    simp only at this
    rw [show ((k : ℤ)).toNat = k by simp, this]
    exact y1
  rcases hcase with ⟨rfl, rfl⟩ | ⟨hi1, rfl, rfl⟩ | ⟨hi2, rfl, rfl⟩
  · simp only at hp3 ⊢
    obtain ⟨Wc, Y, hr, hY, hYc, hYv⟩ := two (i.1 + 1) hp3 (by omega) rfl (.inr ⟨rfl, rfl⟩)
    refine ⟨Y, c1, ?_, hYc, hYv, hI1⟩
    rw [if_pos (by omega), if_pos trivial, hr]
    simp only
    rw [hY]
    rfl
  · simp only at hp3 ⊢
    obtain ⟨Wc, Y, hr, hY, hYc, hYv⟩ := two (i.1 - 1) (by omega) (by omega) (by simp only; omega)
      (.inl ⟨rfl, by simp only; omega⟩)
    refine ⟨Y, c1, ?_, hYc, hYv, hI1⟩
    rw [if_pos (by omega), if_neg (by rw [hli _ (by omega)]; omega), hr]
    simp only
    rw [hY]
    rfl
  · simp only at hp3 ⊢
    rw [if_neg (by omega)]
    simp only [if_neg (show ¬ letter (i.1 - 2) = letter i.1 by
      intro h; have := letter_inj (by omega) (by omega) h; omega)]
    have e2 : rd (strOf (i.1 - 2) i.1) 2 = .ok (letter (i.1 - 2 + 2)) := rd_strOf (n := (i.1 - 2, i.1)) (j := 2) (by simp only; omega)
    rw [e2]
    simp only
    obtain ⟨W1, hW1, hl1, he1⟩ := tdecode_rd hN hS (k := i.1 - 2) (by omega)
    obtain ⟨W2, hW2, hl2, he2⟩ := tdecode_rd hN hS (k := i.1 - 2 + 1) (by omega)
    rw [hW1, hW2]
    simp only
    obtain ⟨Y, y1, y2, y3⟩ := TValid.step2 hTv (letter_injective (by omega)) (s := star) (t := hat) (tletter_ne_star hN)
      (tletter_ne_hat hN) (by decide) (j := ⟨i.1 - 2, by omega⟩) (j' := ⟨i.1 - 2 + 1, by omega⟩)
      (mem_ivSet.2 (by simp only; omega)) (mem_ivSet.2 (by simp only; omega)) (by simp [Fin.ext_iff])
      hl1 he1 hl2 he2
    have hset : ((ivSet N (i.1 - 2, i.1)).erase ⟨i.1 - 2, by omega⟩).erase ⟨i.1 - 2 + 1, by omega⟩ = {i} := by
      ext m; simp only [Finset.mem_erase, mem_ivSet, mem_singleton, Fin.ext_iff, Ne]; omega
    rw [hset] at y1 y3
    refine ⟨Y, c1, ?_, y2, y3, hI1⟩
    have s1 := ofFn_set (fun j : Fin N => letter j.1) ⟨i.1 - 2, by omega⟩ star
    have s2 := ofFn_set (update (fun j : Fin N => letter j.1) ⟨i.1 - 2, by omega⟩ star) ⟨i.1 - 2 + 1, by omega⟩ hat
    simp only at s1 s2
    rw [decode_letter (by omega), decode_letter (by omega), allLetters_ofFn, show ((i.1 - 2 : ℕ) : ℤ).toNat = i.1 - 2 by simp,
      show ((i.1 - 2 + 1 : ℕ) : ℤ).toNat = i.1 - 2 + 1 by rw [Int.toNat_natCast], s1, s2]
    simp only at y1
    rw [y1]
    rfl

/-- The core from the last `Y`. -/
theorem coreEnd_ok (h1 : 1 ≤ N) (hN : N ≤ 31) {dims rk : Fin N → ℕ} {V : (Fin N → ℕ) → K} {W : Fin N → ℕ → ℕ → K}
    {Y Wl : Tensor K} (hY : TValid dims rk V W {⟨N - 1, by omega⟩} Y)
    (hl : Wl.lens = [dims ⟨N - 1, by omega⟩, rk ⟨N - 1, by omega⟩]) (hW : mat Wl = W ⟨N - 1, by omega⟩) :
    ∃ C, coreEnd N (List.ofFn rk) Y Wl = .ok C ∧ Canon C ∧ TValid dims rk V W ∅ C := by
  set j : Fin N := ⟨N - 1, by omega⟩ with hj
  -- labels: `lab' = letters with star at j`, contracted label star, new label `letter j`
  have hinj := letter_injective (N := N) (by omega)
  have hs := tletter_ne_star hN
  have hinj' := update_inj hinj hs j
  have hne : ∀ k, update (fun k : Fin N => letter k.1) j star k ≠ letter j.1 := by
    intro k
    by_cases e : k = j
    · rw [e, update_self]; exact (hs j).symm
    · rw [update_of_ne e]; exact fun h => e (hinj h)
  obtain ⟨C, c1, c2, c3⟩ := hY.step hinj' hne (j := j) (by simp) hl hW
  have he : ({j} : Finset (Fin N)).erase j = ∅ := by simp
  rw [he] at c1 c3
  refine ⟨C, ?_, c2, c3⟩
  unfold coreEnd
  have hk : klens dims rk ∅ = rk := by funext k; simp [klens]
  rw [hk] at c1
  rw [update_self, update_idem, update_eq_self_iff.2 rfl] at c1
  rw [allLetters_ofFn]
  have := ofFn_set (fun j : Fin N => letter j.1) j star
  rw [show N - 1 = j.1 from rfl, this]
  exact c1

end Model
