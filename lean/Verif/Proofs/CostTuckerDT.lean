import Verif.Proofs.CostTucker
import Verif.Proofs.CostLegacySweep

/-! The work of one sweep of the Tucker dimension tree. -/

namespace Model

open Spec (Tag Work termsOf storedOf countOf)
open Finset Function

variable {N : ℕ}

/-- The rank of mode `m`. -/
abbrev rkN (rk : Fin N → ℕ) (m : ℕ) : ℕ := dimN rk m

/-- The modes of `p` without the first `j` modes of `b`. -/
def tkKeep (N : ℕ) (p b : Iv) (j : ℕ) : Finset (Fin N) := ivSet N p \ univ.filter fun m : Fin N => b.1 ≤ m.1 ∧ m.1 < b.1 + j

/-- The record of the computation of a node: the modes of the sibling are contracted one after the other. -/
def tuckNodeW (dims rk : Fin N → ℕ) (t : Nd) : List Work :=
  (List.range (t.2.2.2 + 1 - t.2.2.1)).map fun j =>
    ⟨if t.2.1 = (0, N - 1) ∧ j = 0 then .input else .mttkrp,
      rkN rk (t.2.2.1 + j) * ∏ k, klens dims rk (tkKeep N t.2.1 t.2.2 j) k, ∏ k, klens dims rk (tkKeep N t.2.1 t.2.2 (j + 1)) k⟩

/-- The record of the last product for mode `i`. -/
def tuckLeafW (dims rk : Fin N → ℕ) (i : Fin N) : List Work :=
  [⟨.mttkrp, (∏ c ∈ (ivSet N (par 0 (N - 1) i.1)).erase i, rk c) * ∏ k, klens dims rk (ivSet N (par 0 (N - 1) i.1)) k,
    ∏ k, klens dims rk {i} k⟩]

/-- Shape of the tensor of a node. -/
def TkShape {K : Type} (dims rk : Fin N → ℕ) (n : Iv) (T : Tensor K) : Prop := T.lens = List.ofFn (klens dims rk (ivSet N n))

variable {K : Type} [CommRing K]

theorem ttmLoopC_runs (tag : ℕ → Tag) (hN : N ≤ 31) {dims rk : Fin N → ℕ} {V : Tensor K} {W : List (Tensor K)}
    (hS : TuckShaped dims rk V W) {p b : Iv} {T0 : Tensor K}
    (hT : T0.lens = List.ofFn (klens dims rk (ivSet N p))) (hb : b.2 < N) (hbk : ivSet N b ⊆ ivSet N p) :
    ∃ T, Runs (ttmLoopC tag N W (ivStr b) T0) T ((List.range (b.2 + 1 - b.1)).map fun j =>
        ⟨tag j, rkN rk (b.1 + j) * ∏ k, klens dims rk (tkKeep N p b j) k, ∏ k, klens dims rk (tkKeep N p b (j + 1)) k⟩) ∧
      T.lens = List.ofFn (klens dims rk (ivSet N p \ ivSet N b)) := by
  obtain ⟨s, h1, h2, _⟩ := Runs.foldlM_range' (s := 0) (n := b.2 + 1 - b.1)
    (P := fun j (s : Tensor K × List ℕ) => s.1.lens = List.ofFn (klens dims rk (tkKeep N p b j)) ∧
      s.2 = List.ofFn (klens dims rk (tkKeep N p b j)))
    (w := fun j => [⟨tag j, rkN rk (b.1 + j) * ∏ k, klens dims rk (tkKeep N p b j) k,
      ∏ k, klens dims rk (tkKeep N p b (j + 1)) k⟩])
    (f := fun (s : Tensor K × List ℕ) (j : ℕ) => (do
      let c ← rd (ivStr b) j
      let Wc ← rd W (decode c)
      if c < 97 ∨ (N : ℤ) ≤ c - 97 then fun _ => .error .ub
      else do
        let lens := s.2.set (c - 97).toNat (ncol Wc)
        let T ← einsumC (tag j) lens ((allLetters N).set (c - 97).toNat star) [(s.1, allLetters N), (Wc, [c, star])]
        pure (T, lens) : CM (Tensor K × List ℕ))) (a := (T0, T0.lens))
    (by
      have : tkKeep N p b 0 = ivSet N p := by
        ext m; simp [tkKeep]
      rw [this]
      exact ⟨hT, hT⟩)
    (by
      rintro j s _ hj ⟨g1, g2⟩
      have hk : b.1 + j < N := by omega
      obtain ⟨Wc, r1, r2, _⟩ := tdecode_rd hN hS hk
      have he : tkKeep N p b (j + 1) = (tkKeep N p b j).erase ⟨b.1 + j, hk⟩ := by
        ext m; simp only [tkKeep, Finset.mem_sdiff, mem_filter, mem_univ, true_and, Finset.mem_erase, Ne, Fin.ext_iff]
        have : (b.1 ≤ m.1 ∧ m.1 < b.1 + (j + 1)) ↔ ((b.1 ≤ m.1 ∧ m.1 < b.1 + j) ∨ m.1 = b.1 + j) := by omega
        rw [this]
        tauto
      have hmem : (⟨b.1 + j, hk⟩ : Fin N) ∈ tkKeep N p b j := by
        simp only [tkKeep, Finset.mem_sdiff, mem_filter, mem_univ, true_and]
        exact ⟨hbk (mem_ivSet.2 (by simp only; omega)), by omega⟩
      obtain ⟨T', e1, e2⟩ := ttmC_runs (K := K) (tag j) (letter_injective (N := N) (by omega)) (s := star) (tletter_ne_star hN)
        g1 (j := ⟨b.1 + j, hk⟩) (B := Wc) (m := rk ⟨b.1 + j, hk⟩) (by rw [r2]; simp [klens, hmem])
      rw [klens_update, ← he] at e1 e2
      have hrk : rkN rk (b.1 + j) = rk ⟨b.1 + j, hk⟩ := dimN_val rk ⟨b.1 + j, hk⟩
      rw [hrk]
      have hl : s.2.set (b.1 + j) (ncol Wc) = List.ofFn (klens dims rk (tkKeep N p b (j + 1))) := by
        rw [g2, ncol_of r2, he, ← klens_update, ← ofFn_set]
      have hseq : (allLetters N).set (b.1 + j) star =
          List.ofFn (update (fun j : Fin N => letter j.1) ⟨b.1 + j, hk⟩ star) := by
        rw [allLetters_ofFn, ← ofFn_set]
      refine ⟨(T', List.ofFn (klens dims rk (tkKeep N p b (j + 1)))), ?_, e2, rfl⟩
      refine (Runs.lift (rd_strOf (n := b) (by omega))).bind0 ((Runs.lift r1).bind0 ?_)
      rw [if_neg (letter_range (by omega) hk), toNat_letter (by omega)]
      simp only
      rw [hl, hseq, allLetters_ofFn]
      have := e1.bind (f := fun T => (pure (T, List.ofFn (klens dims rk (tkKeep N p b (j + 1)))) : CM (Tensor K × List ℕ)))
        (Runs.pure _)
      rwa [List.append_nil] at this)
  refine ⟨s.1, ?_, ?_⟩
  · unfold ttmLoopC
    rw [strOf_length, List.range_eq_range']
    rw [flatMap_single] at h1
    have := h1.bind (f := fun r : Tensor K × List ℕ => (pure r.1 : CM (Tensor K))) (Runs.pure s.1)
    rwa [List.append_nil] at this
  · rw [h2]
    congr 2
    ext m
    simp only [tkKeep, mem_sdiff, mem_ivSet, mem_filter, mem_univ, true_and]
    omega

theorem tuckYC_runs (h4 : 4 ≤ N) (h5 : N ≠ 5) (hN : N ≤ 31) {dims rk : Fin N → ℕ} {V : Tensor K}
    {W : List (Tensor K)} (hS : TuckShaped dims rk V W) (i : Fin N) {cache : Cache K}
    (hI : LInv N (TkShape dims rk) cache) (hD : Done N i.1 cache) :
    ∃ Y cache' wl, Runs (tuckYC N (constructDT 0 (N - 1) {}) V W cache i.1) (Y, cache') wl ∧
      Y.lens = List.ofFn (klens dims rk {i}) ∧ LInv N (TkShape dims rk) cache' ∧ Done N (i.1 + 1) cache' ∧
      ∀ μ, Additive μ → μ wl + cacheW N (tuckNodeW dims rk) μ cache =
        cacheW N (tuckNodeW dims rk) μ cache' + μ (tuckLeafW dims rk i) := by
  obtain ⟨p, b, p', b', hn, hpp, hp1, hp2, hp3, hcase⟩ := leaf_cases h4 i
  obtain ⟨bb, hbb⟩ := par_sub (s := 0) (e := N - 1) (i := i.1) (by omega) (by omega) (by omega)
  have hpar : par 0 (N - 1) i.1 = p := (hbb.unique hn).1
  obtain ⟨t1, t2⟩ := mapGet_tree (by omega) hn
  simp only [ivStr, strOf_self] at t1 t2
  obtain ⟨c1, w1, hc1, hI1, hP1, hmono, hμ1⟩ : ∃ c1 w1, Runs (if (cache.lookup (ivStr p)).isNone then
      tuckMapDTC N (constructDT 0 (N - 1) {}) V W (N + 1) (ivStr p) cache else pure cache) c1 w1 ∧
      LInv N (TkShape dims rk) c1 ∧ Pres c1 p ∧ (∀ n', Pres cache n' → Pres c1 n') ∧
      ∀ μ, Additive μ → μ w1 + cacheW N (tuckNodeW dims rk) μ cache = cacheW N (tuckNodeW dims rk) μ c1 := by
    by_cases hnone : (cache.lookup (ivStr p)).isNone
    · rw [if_pos hnone]
      obtain ⟨c1, w1, a1, a2, a3, a4, _, a5⟩ := dtNodeC_runs (Good := TkShape (K := K) dims rk) (w := tuckNodeW dims rk) h4 h5 (by omega)
        (fr := fun args => ttmLoopC (fun j => if j = 0 then .input else .mttkrp) N W
          (mapGet (constructDT 0 (N - 1) {}).sibling args) V)
        (fp := fun args Tp => ttmLoopC (fun _ => .mttkrp) N W (mapGet (constructDT 0 (N - 1) {}).sibling args) Tp)
        (by
          intro n b h
          rw [(mapGet_tree (by omega) h).2]
          obtain ⟨s1, s2⟩ := sub_ivSet h
          have hb := h.swap.node_le
          obtain ⟨T, q1, q2⟩ := ttmLoopC_runs (fun j => if j = 0 then .input else .mttkrp) hN hS (p := (0, N - 1)) (b := b) (T0 := V)
            (by rw [ivSet_root, klens_univ]; exact hS.lensV) (by omega) s1
          rw [s2] at q2
          refine ⟨T, ?_, q2⟩
          unfold tuckNodeW
          simpa using q1)
        (by
          intro n p b h hne Tp hTp
          rw [(mapGet_tree (by omega) h).2]
          obtain ⟨s1, s2⟩ := sub_ivSet h
          have hb := h.swap.node_le
          obtain ⟨T, q1, q2⟩ := ttmLoopC_runs (fun _ => .mttkrp) hN hS (p := p) (b := b) (T0 := Tp) hTp (by omega) s1
          rw [s2] at q2
          refine ⟨T, ?_, q2⟩
          unfold tuckNodeW
          simpa [hne] using q1) (N + 1) p p' b' cache hpp hn.shape.2.1 (by omega) hI
      exact ⟨c1, w1, a1, a2, a3, a4, a5⟩
    · rw [if_neg hnone]
      refine ⟨cache, [], Runs.pure _, hI, ?_, fun _ h => h, fun μ hμ => by rw [hμ.nil, Nat.zero_add]⟩
      unfold Pres
      simpa [Option.isSome_iff_ne_none] using hnone
  have hD' : Done N (i.1 + 1) c1 := by
    intro n q d hnq hlt hle
    by_cases hni : n.1 < i.1
    · exact hmono n (hD n q d hnq hlt hni)
    · refine hI1.ancestors (i := i.1) ?_ (n.2 - n.1) n q d (le_refl _) hnq (by omega) (by omega) hlt
      intro p2 b2 h2 _
      rw [(h2.unique hn).1]
      exact hP1
  obtain ⟨Tp, hTp⟩ := Option.isSome_iff_exists.1 hP1
  have hTl : Tp.lens = List.ofFn (klens dims rk (ivSet N p)) := hI1.good p p' b' hpp Tp hTp
  have hplen : 2 ≤ p.2 + 1 - p.1 := by
    rcases hcase with ⟨rfl, _⟩ | ⟨_, rfl, _⟩ | ⟨_, rfl, _⟩ <;> simp only <;> omega
  have e0 : rd (ivStr p) 0 = .ok (letter p.1) := rd_strOf (n := p) (j := 0) (by omega)
  have e1 : rd (ivStr p) 1 = .ok (letter (p.1 + 1)) := rd_strOf (n := p) (j := 1) (by omega)
  have hli : ∀ k, k < 31 → (letter i.1 = letter k ↔ k = i.1) := by
    intro k hk
    constructor
    · intro h; exact letter_inj (by omega) (by omega) h.symm
    · rintro rfl; rfl
  have two : ∀ k (hk : k < N), k ≠ i.1 → p.2 = p.1 + 1 → (k = p.1 ∧ i.1 = p.1 + 1 ∨ k = p.1 + 1 ∧ i.1 = p.1) →
      ∃ Wc Y, rd W (decode (letter k)) = .ok Wc ∧
        Runs (einsumC .mttkrp (List.ofFn (klens dims rk {i})) ((allLetters N).set (decode (letter k)).toNat star)
          [(Tp, allLetters N), (Wc, [letter k, star])]) Y (tuckLeafW dims rk i) ∧ Y.lens = List.ofFn (klens dims rk {i}) := by
    intro k hk hki hp12 hkp
    obtain ⟨Wc, hrd, hl, he⟩ := tdecode_rd hN hS hk
    have hset : (ivSet N p).erase ⟨k, hk⟩ = {i} := by
      ext m; simp only [Finset.mem_erase, mem_ivSet, mem_singleton, Fin.ext_iff, Ne]; omega
    have hset' : (ivSet N p).erase i = {⟨k, hk⟩} := by
      ext m; simp only [Finset.mem_erase, mem_ivSet, mem_singleton, Fin.ext_iff, Ne]; omega
    have hmem : (⟨k, hk⟩ : Fin N) ∈ ivSet N p := mem_ivSet.2 (by simp only; omega)
    obtain ⟨Y, y1, y2⟩ := ttmC_runs (K := K) .mttkrp (letter_injective (N := N) (by omega)) (s := star) (tletter_ne_star hN)
      hTl (j := ⟨k, hk⟩) (B := Wc) (m := rk ⟨k, hk⟩) (by rw [hl]; simp [klens, hmem])
    rw [klens_update, hset] at y1 y2
    refine ⟨Wc, Y, hrd, ?_, y2⟩
    rw [decode_letter (by omega), allLetters_ofFn]
    have := ofFn_set (fun j : Fin N => letter j.1) ⟨k, hk⟩ star
    simp only at this
    rw [show ((k : ℤ)).toNat = k by simp, this]
    unfold tuckLeafW
    rw [hpar, hset', prod_singleton]
    exact y1
  have wrap : ∀ {β : CM (Tensor K × Cache K)} {Y : Tensor K}, Y.lens = List.ofFn (klens dims rk {i}) →
      Runs β (Y, c1) (w1 ++ tuckLeafW dims rk i) →
      ∃ Y cache' wl, Runs β (Y, cache') wl ∧
        Y.lens = List.ofFn (klens dims rk {i}) ∧ LInv N (TkShape dims rk) cache' ∧ Done N (i.1 + 1) cache' ∧
        ∀ μ, Additive μ → μ wl + cacheW N (tuckNodeW dims rk) μ cache =
          cacheW N (tuckNodeW dims rk) μ cache' + μ (tuckLeafW dims rk i) := by
    intro β M hM hr
    refine ⟨M, c1, _, hr, hM, hI1, hD', fun μ hμ => ?_⟩
    rw [hμ.app, ← hμ1 μ hμ]
    omega
  unfold tuckYC
  simp only [t1, t2]
  simp only [ivStr] at hc1 e0 e1 hTp
  rcases hcase with ⟨rfl, rfl⟩ | ⟨hi1, rfl, rfl⟩ | ⟨hi2, rfl, rfl⟩
  · simp only at hp3 hc1 e0 e1 hTp two ⊢
    obtain ⟨Wc, Y, hr, hY, hYl⟩ := two (i.1 + 1) hp3 (by omega) trivial (.inr ⟨by trivial, by trivial⟩)
    refine wrap hYl ((Runs.lift (lensY_ok hS i)).bind0 (hc1.bind ((Runs.lift e0).bind0 ((Runs.lift e1).bind0 ?_))))
    simp only [hTp, strOf_length]
    rw [if_pos (by omega), if_pos trivial]
    refine (Runs.lift hr).bind0 ?_
    have := hY.bind (f := fun M => (pure (M, c1) : CM (Tensor K × Cache K))) (Runs.pure (Y, c1))
    rwa [List.append_nil] at this
  · simp only at hp3 hc1 e0 e1 hTp two ⊢
    obtain ⟨Wc, Y, hr, hY, hYl⟩ := two (i.1 - 1) (by omega) (by omega) (by omega)
      (.inl ⟨rfl, by omega⟩)
    refine wrap hYl ((Runs.lift (lensY_ok hS i)).bind0 (hc1.bind ((Runs.lift e0).bind0 ((Runs.lift e1).bind0 ?_))))
    simp only [hTp, strOf_length]
    rw [if_pos (by omega), if_neg (by rw [hli _ (by omega)]; omega)]
    refine (Runs.lift hr).bind0 ?_
    have := hY.bind (f := fun M => (pure (M, c1) : CM (Tensor K × Cache K))) (Runs.pure (Y, c1))
    rwa [List.append_nil] at this
  · simp only at hp3 hc1 e0 e1 hTp ⊢
    have e2 : rd (strOf (i.1 - 2) i.1) 2 = .ok (letter (i.1 - 2 + 2)) := rd_strOf (n := (i.1 - 2, i.1)) (j := 2) (by simp only; omega)
    obtain ⟨W1, hW1, hl1, he1⟩ := tdecode_rd hN hS (k := i.1 - 2) (by omega)
    obtain ⟨W2, hW2, hl2, he2⟩ := tdecode_rd hN hS (k := i.1 - 2 + 1) (by omega)
    have m1 : (⟨i.1 - 2, by omega⟩ : Fin N) ∈ ivSet N (i.1 - 2, i.1) := mem_ivSet.2 (by simp only; omega)
    have m2 : (⟨i.1 - 2 + 1, by omega⟩ : Fin N) ∈ ivSet N (i.1 - 2, i.1) := mem_ivSet.2 (by simp only; omega)
    obtain ⟨Y, y1, y2⟩ := ttm2C_runs (K := K) .mttkrp (letter_injective (N := N) (by omega)) (s := star) (t := hat)
      (tletter_ne_star hN) (tletter_ne_hat hN) (by decide) hTl (j := ⟨i.1 - 2, by omega⟩) (j' := ⟨i.1 - 2 + 1, by omega⟩)
      (by simp [Fin.ext_iff]) (B := W1) (C := W2) (m := rk ⟨i.1 - 2, by omega⟩) (m' := rk ⟨i.1 - 2 + 1, by omega⟩)
      (by rw [hl1]; simp [klens, m1]) (by rw [hl2]; simp [klens, m2])
    rw [klens_update, klens_update] at y1 y2
    have hset : ((ivSet N (i.1 - 2, i.1)).erase ⟨i.1 - 2, by omega⟩).erase ⟨i.1 - 2 + 1, by omega⟩ = {i} := by
      ext m; simp only [Finset.mem_erase, mem_ivSet, mem_singleton, Fin.ext_iff, Ne]; omega
    have hset' : (ivSet N (i.1 - 2, i.1)).erase i = {⟨i.1 - 2, by omega⟩, ⟨i.1 - 2 + 1, by omega⟩} := by
      ext m; simp only [Finset.mem_erase, mem_ivSet, mem_insert, mem_singleton, Fin.ext_iff, Ne]; omega
    rw [hset] at y1 y2
    refine wrap y2 ((Runs.lift (lensY_ok hS i)).bind0 (hc1.bind ((Runs.lift e0).bind0 ((Runs.lift e1).bind0 ?_))))
    simp only [hTp, strOf_length]
    rw [if_neg (by omega)]
    simp only [if_neg (show ¬ letter (i.1 - 2) = letter i.1 by
      intro h; have := letter_inj (by omega) (by omega) h; omega)]
    refine (Runs.lift e2).bind0 ((Runs.lift hW1).bind0 ((Runs.lift hW2).bind0 ?_))
    have s1 := ofFn_set (fun j : Fin N => letter j.1) ⟨i.1 - 2, by omega⟩ star
    have s2 := ofFn_set (update (fun j : Fin N => letter j.1) ⟨i.1 - 2, by omega⟩ star) ⟨i.1 - 2 + 1, by omega⟩ hat
    simp only at s1 s2
    rw [decode_letter (by omega), decode_letter (by omega), allLetters_ofFn, show ((i.1 - 2 : ℕ) : ℤ).toNat = i.1 - 2 by simp,
      show ((i.1 - 2 + 1 : ℕ) : ℤ).toNat = i.1 - 2 + 1 by rw [Int.toNat_natCast], s1, s2]
    have hw : tuckLeafW dims rk i = [⟨.mttkrp, rk ⟨i.1 - 2, by omega⟩ * (rk ⟨i.1 - 2 + 1, by omega⟩ *
        ∏ k, klens dims rk (ivSet N (i.1 - 2, i.1)) k), ∏ k, klens dims rk {i} k⟩] := by
      unfold tuckLeafW
      rw [hpar, hset', prod_pair (by simp [Fin.ext_iff]), mul_assoc]
    rw [hw]
    have := y1.bind (f := fun M => (pure (M, c1) : CM (Tensor K × Cache K))) (Runs.pure (Y, c1))
    rwa [List.append_nil] at this

/-- The products added up for the core at the end of a sweep. -/
theorem coreEndC_runs (h1 : 1 ≤ N) (hN : N ≤ 31) {dims rk : Fin N → ℕ} {Y Wl : Tensor K}
    (hY : Y.lens = List.ofFn (klens dims rk {⟨N - 1, by omega⟩}))
    (hl : Wl.lens = [dims ⟨N - 1, by omega⟩, rk ⟨N - 1, by omega⟩]) :
    ∃ C, Runs (coreEndC N (List.ofFn rk) Y Wl) C
      [⟨.update, rk ⟨N - 1, by omega⟩ * ∏ k, klens dims rk {⟨N - 1, by omega⟩} k, ∏ k, rk k⟩] := by
  set j : Fin N := ⟨N - 1, by omega⟩ with hj
  have hinj := letter_injective (N := N) (by omega)
  have hs := tletter_ne_star hN
  have hinj' := update_inj hinj hs j
  have hne : ∀ k, update (fun k : Fin N => letter k.1) j star k ≠ letter j.1 := by
    intro k
    by_cases e : k = j
    · rw [e, update_self]; exact (hs j).symm
    · rw [update_of_ne e]; exact fun h => e (hinj h)
  obtain ⟨C, c1, _⟩ := ttmC_runs (K := K) .update hinj' hne hY (j := j) (B := Wl) (m := rk j) (by rw [hl, klens_self])
  have he : ({j} : Finset (Fin N)).erase j = ∅ := by simp
  rw [klens_update, he] at c1
  refine ⟨C, ?_⟩
  have hk : klens dims rk ∅ = rk := by funext k; simp [klens]
  rw [hk, update_self, update_idem, update_eq_self_iff.2 rfl] at c1
  unfold coreEndC
  rw [allLetters_ofFn]
  have := ofFn_set (fun j : Fin N => letter j.1) j star
  rw [show N - 1 = j.1 from rfl, this]
  exact c1

/-- The record of mode number `j`, without the nodes of the tree. -/
def tuckModeDTW (dims rk : Fin N → ℕ) (j : ℕ) : List Work :=
  if h : j < N then tuckLeafW dims rk ⟨j, h⟩ ++
    [⟨.update, dims ⟨j, h⟩ * ∏ k, klens dims rk {⟨j, h⟩} k, dims ⟨j, h⟩ * dims ⟨j, h⟩⟩] else []

/-- The record of the core. -/
def coreW (h0 : 0 < N) (dims rk : Fin N → ℕ) : List Work :=
  [⟨.update, rk ⟨N - 1, by omega⟩ * ∏ k, klens dims rk {⟨N - 1, by omega⟩} k, ∏ k, rk k⟩]

theorem tuckSweepDTC_runs (h4 : 4 ≤ N) (h5 : N ≠ 5) (hN : N ≤ 18) {dims rk : Fin N → ℕ} (hr : ∀ j, rk j ≤ dims j) {V : Tensor ℝ}
    {W : List (Tensor ℝ)} (hS : TuckShaped dims rk V W) {k : Kern ℝ} (hk : SvdShape k) :
    ∃ W' C w, Runs (tuckSweepDTC k V (List.ofFn rk) W) (W', C) w ∧ TuckShaped dims rk V W' ∧
      ∀ μ, Additive μ → μ w = ∑ t ∈ below 0 (N - 1), μ (tuckNodeW dims rk t) + ∑ j ∈ range N, μ (tuckModeDTW dims rk j) +
        μ (coreW (by omega) dims rk) := by
  have h0 : 0 < N := by omega
  have hlen : V.lens.length = N := by rw [hS.lensV]; simp
  obtain ⟨s, w, hs, h1, h2, h3, h7, h6⟩ := Runs.foldlM_ex (s := 0) (n := N) (w0 := [])
    (P := fun j (s : List (Tensor ℝ) × Cache ℝ × Tensor ℝ) w => TuckShaped dims rk V s.1 ∧ LInv N (TkShape dims rk) s.2.1 ∧
      Done N j s.2.1 ∧ (j = N → s.2.2.lens = List.ofFn (klens dims rk {⟨N - 1, by omega⟩})) ∧
      ∀ μ, Additive μ → μ w = cacheW N (tuckNodeW dims rk) μ s.2.1 + ∑ j ∈ range j, μ (tuckModeDTW dims rk j))
    (f := tuckUpdateDTC N (constructDT 0 (N - 1) {}) k V (List.ofFn rk)) (a := (W, [], ⟨[], fun _ => 0⟩))
    ⟨hS, LInv.nil _, fun n _ _ _ _ h => by omega, fun h => by omega, fun μ hμ => by rw [hμ.nil, cacheW_nil]; simp⟩
    (by
      rintro j ⟨g, c, y⟩ w _ hj ⟨g1, g2, g3, _, g4⟩
      rw [Nat.zero_add] at hj
      simp only at g1 g2 g3 g4
      obtain ⟨Y, c', wl, b1, b2, b3, b4, b5⟩ := tuckYC_runs h4 h5 (by omega) g1 ⟨j, hj⟩ g2 g3
      obtain ⟨U, u1, u2⟩ := factorOfC_runs hN b2 ⟨j, hj⟩ hk (r := rk ⟨j, hj⟩) (by rw [klens_self]; exact hr _)
      rw [klens_self] at u1 u2
      refine ⟨(g.set j U, c', if j = N - 1 then Y else y), wl ++ ([⟨.update, dims ⟨j, hj⟩ * ∏ k, klens dims rk {⟨j, hj⟩} k,
        dims ⟨j, hj⟩ * dims ⟨j, hj⟩⟩] ++ []), ?_, g1.set ⟨j, hj⟩ u2, b3, b4, fun hjN => ?_, fun μ hμ => ?_⟩
      · unfold tuckUpdateDTC
        exact b1.bind ((Runs.lift (rd_ofFn rk ⟨j, hj⟩)).bind0 (u1.bind (Runs.pure _)))
      · have : j = N - 1 := by omega
        simp only
        rw [if_pos this, b2]
        subst this
        rfl
      · rw [hμ.app, hμ.app, List.append_nil, Finset.sum_range_succ, g4 μ hμ]
        have := b5 μ hμ
        simp only [tuckModeDTW, dif_pos hj]
        rw [hμ.app (tuckLeafW dims rk ⟨j, hj⟩)]
        omega)
  rw [Nat.zero_add] at h3 h6 h7
  obtain ⟨Wl, r1, _, r2, _⟩ := tmats_get h1 ⟨N - 1, by omega⟩
  obtain ⟨C, c1⟩ := coreEndC_runs (by omega) (by omega) (h7 rfl) r2
  refine ⟨s.1, C, w ++ (coreW h0 dims rk ++ []), ?_, h1, fun μ hμ => ?_⟩
  · unfold tuckSweepDTC
    simp only
    rw [hlen, List.range_eq_range']
    have r1' : rd s.1 ((N : ℤ) - 1) = .ok Wl := by
      rw [show (N : ℤ) - 1 = ((N - 1 : ℕ) : ℤ) by omega]
      exact r1
    exact hs.bind ((Runs.lift r1').bind0 (c1.bind (Runs.pure _)))
  · have := h6 μ hμ
    rw [List.nil_append] at this
    rw [hμ.app, List.append_nil, this, cacheW_done _ _ h3]

end Model
