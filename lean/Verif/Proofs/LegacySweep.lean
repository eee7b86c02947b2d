import Verif.Proofs.Legacy

/-! One sweep of the legacy dimension-tree ALS. -/

namespace Model

open Finset

variable {K : Type} {N : ℕ}

/-- The three kinds of leaves. -/
theorem leaf_cases (h4 : 4 ≤ N) (i : Fin N) : ∃ p b p' b', Sub 0 (N - 1) (i.1, i.1) p b ∧ Sub 0 (N - 1) p p' b' ∧
    p.1 ≤ i.1 ∧ i.1 ≤ p.2 ∧ p.2 < N ∧
    ((p = (i.1, i.1 + 1) ∧ b = (i.1 + 1, i.1 + 1)) ∨
     (1 ≤ i.1 ∧ p = (i.1 - 1, i.1) ∧ b = (i.1 - 1, i.1 - 1)) ∨
     (2 ≤ i.1 ∧ p = (i.1 - 2, i.1) ∧ b = (i.1 - 2, i.1 - 1))) := by
  obtain ⟨p, b, h⟩ := Sub.leaf (s := 0) (e := N - 1) (i := i.1) (by omega) (by omega) (by omega)
  have hcase : ((p = (i.1, i.1 + 1) ∧ b = (i.1 + 1, i.1 + 1)) ∨
     (1 ≤ i.1 ∧ p = (i.1 - 1, i.1) ∧ b = (i.1 - 1, i.1 - 1)) ∨
     (2 ≤ i.1 ∧ p = (i.1 - 2, i.1) ∧ b = (i.1 - 2, i.1 - 1))) := by
    obtain ⟨a1, a2, a3, (⟨e1, e2⟩ | ⟨e1, e2⟩)⟩ := h.shape
    · obtain ⟨p1, p2⟩ := p
      simp only [Prod.mk.injEq] at e1 a1 a2 a3
      subst e2
      left
      simp only [Prod.mk.injEq]
      omega
    · obtain ⟨p1, p2⟩ := p
      simp only [Prod.mk.injEq] at e2 a1 a2 a3
      subst e1
      right
      simp only [Prod.mk.injEq]
      omega
  have hp : p ≠ (0, N - 1) := by
    rintro rfl
    simp only [Prod.mk.injEq] at hcase
    omega
  obtain ⟨p', b', hpp⟩ := h.up.resolve_left hp
  have hle := hpp.node_le
  refine ⟨p, b, p', b', h, hpp, ?_, ?_, by omega, hcase⟩
  · rcases hcase with ⟨rfl, _⟩ | ⟨_, rfl, _⟩ | ⟨_, rfl, _⟩ <;> simp only <;> omega
  · rcases hcase with ⟨rfl, _⟩ | ⟨_, rfl, _⟩ | ⟨_, rfl, _⟩ <;> simp only <;> omega

variable [CommRing K]

theorem cpMapDT_ok (h4 : 4 ≤ N) (h5 : N ≠ 5) (hN : N ≤ 31) {dims : Fin N → ℕ} {R : ℕ} {V : Tensor K}
    {W : List (Tensor K)} (hS : Shaped dims R V W) {i fuel : ℕ} {n p b : Iv} {cache : Cache K}
    (hn : Sub 0 (N - 1) n p b) (h1 : n.1 ≤ i) (h2 : i ≤ n.2) (hf : N ≤ fuel)
    (hI : DInv N (CpGood (by omega) dims R V W) i cache) :
    ∃ cache', cpMapDT N (constructDT 0 (N - 1) {}) V W fuel (ivStr n) cache = .ok cache' ∧
      DInv N (CpGood (by omega) dims R V W) i cache' ∧
      ∃ T, cache'.lookup (ivStr n) = some T ∧ CpGood (by omega) dims R V W n T :=
  dtNode_ok h4 h5 (by omega) (fun _ _ h => cpFromRoot_ok (by omega) hN hS h)
    (fun _ _ _ h _ _ hT => cpFromParent_ok (by omega) hN hS h hT) i fuel n p b cache hn h1 h2 (by omega) hI

theorem decode_rd (hN : N ≤ 31) {dims : Fin N → ℕ} {R : ℕ} {V : Tensor K} {W : List (Tensor K)}
    (hS : Shaped dims R V W) {k : ℕ} (hk : k < N) :
    ∃ M, rd W (decode (letter k)) = .ok M ∧ M.lens = [dims ⟨k, hk⟩, R] ∧ mat M = mats W ⟨k, hk⟩ := by
  obtain ⟨M, h1, _, h2, h3⟩ := mats_get hS ⟨k, hk⟩
  refine ⟨M, ?_, h2, h3.symm⟩
  rw [decode_letter (by omega)]
  exact h1

theorem legacyM_ok (h4 : 4 ≤ N) (h5 : N ≠ 5) (hN : N ≤ 31) {dims : Fin N → ℕ} {R : ℕ} {V : Tensor K}
    {W : List (Tensor K)} (hS : Shaped dims R V W) (i : Fin N) {cache : Cache K}
    (hI : DInv N (CpGood (by omega) dims R V W) i.1 cache) :
    ∃ M cache', legacyM N (constructDT 0 (N - 1) {}) V W cache i.1 = .ok (M, cache') ∧ Canon M ∧
      M.lens = [dims i, R] ∧ (∀ x < dims i, ∀ r < R, mat M x r = Spec.mttkrp dims (arr V N) (mats W) i x r) ∧
      DInv N (CpGood (by omega) dims R V W) i.1 cache' := by
  have h0 : 0 < N := by omega
  obtain ⟨p, b, p', b', hn, hpp, hp1, hp2, hp3, hcase⟩ := leaf_cases h4 i
  obtain ⟨t1, t2⟩ := mapGet_tree (by omega) hn
  simp only [ivStr, strOf_self] at t1 t2
  obtain ⟨c1, hc1, hI1, Tp, hTp, hTc, hTv⟩ : ∃ c1, (if (cache.lookup (ivStr p)).isNone then
      cpMapDT N (constructDT 0 (N - 1) {}) V W (N + 1) (ivStr p) cache else pure cache) = .ok c1 ∧
      DInv N (CpGood (by omega) dims R V W) i.1 c1 ∧ ∃ T, c1.lookup (ivStr p) = some T ∧ CpGood (by omega) dims R V W p T := by
    by_cases hnone : (cache.lookup (ivStr p)).isNone
    · rw [if_pos hnone]
      exact cpMapDT_ok h4 h5 hN hS hpp hp1 hp2 (by omega) hI
    · rw [if_neg hnone]
      obtain ⟨T, hT⟩ : ∃ T, cache.lookup (ivStr p) = some T := by
        rw [← Option.isSome_iff_exists]
        simpa [Option.isSome_iff_ne_none] using hnone
      exact ⟨cache, rfl, hI, T, hT, (hI p p' b' hpp T hT).2 hp2⟩
  obtain ⟨Wi, hWi, _, hWil, _⟩ := mats_get hS i
  have hnr : [nrow Wi, ncol Wi] = [i].map dims ++ [R] := by simp [nrow, ncol, hWil]
  have hlab : [letter i.1, star] = [i].map (idLab hN).lab ++ [(idLab hN).rk] := rfl
  have hplen : 2 ≤ p.2 + 1 - p.1 := by
    rcases hcase with ⟨rfl, _⟩ | ⟨_, rfl, _⟩ | ⟨_, rfl, _⟩ <;> simp only <;> omega
  have e0 : rd (ivStr p) 0 = .ok (letter p.1) := rd_strOf (n := p) (j := 0) (by omega)
  have e1 : rd (ivStr p) 1 = .ok (letter (p.1 + 1)) := rd_strOf (n := p) (j := 1) (by omega)
  have hpl := ivModes_lab h0 hN hp3
  unfold legacyM
  simp only [t1, t2, bind, Except.bind]
  simp only [ivStr] at hc1 e0 e1 hTp hpl
  rw [hc1, hWi, e0, e1]
  simp only [hTp, strOf_length]
  have hli : ∀ k, k < 31 → (letter k = letter i.1 ↔ k = i.1) := by
    intro k hk
    constructor
    · intro h; exact letter_inj (by omega) (by omega) h
    · rintro rfl; rfl
  -- a two-mode parent, the other mode being `k`
  have two : ∀ k, k < N → k ≠ i.1 → p.2 = p.1 + 1 → (k = p.1 ∧ i.1 = p.1 + 1 ∨ k = p.1 + 1 ∧ i.1 = p.1) →
      ∃ Wc M, rd W (decode (letter k)) = .ok Wc ∧
        einsum [nrow Wi, ncol Wi] [letter i.1, star] [(Tp, [letter p.1, letter (p.1 + 1), star]),
        (Wc, [letter k, star])] = .ok M ∧ Canon M ∧
        M.lens = [dims i, R] ∧ (∀ x < dims i, ∀ r < R, mat M x r = Spec.mttkrp dims (arr V N) (mats W) i x r) := by
    intro k hk hki hp12 hkp
    obtain ⟨Wc, hrd, hl, he⟩ := decode_rd hN hS hk
    obtain ⟨M, hM, hMc, hMv⟩ := contract_valid (idLab hN) hTv hl he (j := ⟨k, hk⟩) (ms' := [i])
      ((mem_ivModes h0 hp3).2 (by simp only; omega)) (by
        ext m
        simp only [List.mem_toFinset, List.mem_singleton, Finset.mem_erase, mem_ivModes h0 hp3, Ne, Fin.ext_iff]
        omega)
    rw [hpl] at hM
    rw [show strOf p.1 p.2 = [letter p.1, letter (p.1 + 1)] by rw [hp12]; exact strOf_pair _] at hM
    obtain ⟨v1, v2⟩ := valid_single hMv
    refine ⟨Wc, M, hrd, ?_, hMc, v1, v2⟩
    rw [hnr, hlab]
    exact hM
  rcases hcase with ⟨rfl, rfl⟩ | ⟨hi1, rfl, rfl⟩ | ⟨hi2, rfl, rfl⟩
  · simp only at hp3 ⊢
    obtain ⟨Wc, M, hr, hM, hMc, hMl, hMv⟩ := two (i.1 + 1) hp3 (by omega) rfl (.inr ⟨rfl, rfl⟩)
    refine ⟨M, c1, ?_, hMc, hMl, hMv, hI1⟩
    rw [if_pos (by omega), if_pos trivial, hr]
    simp only
    simp only at hM
    rw [hM]
    rfl
  · simp only at hp3 ⊢
    obtain ⟨Wc, M, hr, hM, hMc, hMl, hMv⟩ := two (i.1 - 1) (by omega) (by omega) (by simp only; omega)
      (.inl ⟨rfl, by simp only; omega⟩)
    refine ⟨M, c1, ?_, hMc, hMl, hMv, hI1⟩
    rw [if_pos (by omega), if_neg (by rw [hli _ (by omega)]; omega), hr]
    simp only
    simp only at hM
    rw [hM]
    rfl
  · simp only at hp3 ⊢
    rw [if_neg (by omega)]
    simp only [if_neg (show ¬ letter (i.1 - 2) = letter i.1 by rw [hli _ (by omega)]; omega)]
    have e2 : rd (strOf (i.1 - 2) i.1) 2 = .ok (letter (i.1 - 2 + 2)) := rd_strOf (n := (i.1 - 2, i.1)) (j := 2) (by simp only; omega)
    rw [e2]
    simp only
    obtain ⟨W1, hW1, hl1, he1⟩ := decode_rd hN hS (k := i.1 - 2) (by omega)
    obtain ⟨W2, hW2, hl2, he2⟩ := decode_rd hN hS (k := i.1 - 2 + 1) (by omega)
    rw [hW1, hW2]
    simp only
    obtain ⟨M, hM, hMc, hMv⟩ := contract_valid2 (idLab hN) hTv hl1 he1 hl2 he2 (ms' := [i])
      ((mem_ivModes h0 hp3).2 (by simp only; omega)) ((mem_ivModes h0 hp3).2 (by simp only; omega))
      (by simp only [Ne, Fin.ext_iff]; omega) (by
        ext m
        simp only [List.mem_toFinset, List.mem_singleton, Finset.mem_erase, mem_ivModes h0 (n := (i.1 - 2, i.1)) hp3, Ne, Fin.ext_iff]
        omega)
    rw [hpl] at hM
    rw [show strOf (i.1 - 2) i.1 = [letter (i.1 - 2), letter (i.1 - 2 + 1), letter (i.1 - 2 + 2)] by
      unfold strOf
      rw [show i.1 + 1 - (i.1 - 2) = 3 by omega]
      rfl] at hM
    obtain ⟨v1, v2⟩ := valid_single hMv
    refine ⟨M, c1, ?_, hMc, v1, v2, hI1⟩
    rw [hnr, hlab]
    simp only [List.cons_append, List.nil_append] at hM
    erw [hM]
    rfl

theorem mem_swapIdx {i m : ℕ} (hi : i < N) : m ∈ swapIdx N i ↔ m < N ∧ m ≠ i := by
  simp only [swapIdx, List.mem_map, List.mem_range]
  constructor
  · rintro ⟨j, hj, rfl⟩
    split_ifs <;> omega
  · rintro ⟨h1, h2⟩
    by_cases h : m = N - 1
    · exact ⟨i, by omega, by rw [if_pos rfl]; exact h.symm⟩
    · exact ⟨m, by omega, by rw [if_neg h2]⟩

theorem swapIdx_nodup (i : ℕ) : (swapIdx N i).Nodup := by
  unfold swapIdx
  refine List.Nodup.map_on ?_ List.nodup_range
  intro a ha b hb e
  rw [List.mem_range] at ha hb
  split_ifs at e <;> omega

/-- Update of one mode. -/
theorem legacyUpdate_ok (h4 : 4 ≤ N) (h5 : N ≠ 5) (hN : N ≤ 31) {dims : Fin N → ℕ} {R : ℕ} {V : Tensor K}
    (lam : K) (solve : Spec.Solver K) {F : List (Tensor K)} (hF : Shaped dims R V F) {f : Fac K}
    (hS : Shaped dims R V f.W) (hG : f.G.length = N) (i : Fin N) {cache : Cache K}
    (hI : DInv N (CpGood (by omega) dims R V f.W) i.1 cache) :
    ∃ f' cache', legacyUpdate N R lam solve (constructDT 0 (N - 1) {}) V F (f, cache) i.1 = .ok (f', cache') ∧
      Shaped dims R V f'.W ∧ f'.G.length = N ∧
      absF N f' = Spec.modeUpdate dims R lam solve
        (fun x r => Spec.mttkrp dims (arr V N) (mats f.W) i x r + mats F i x r) (absF N f) i ∧
      DInv N (CpGood (by omega) dims R V f'.W) (i.1 + 1) cache' := by
  obtain ⟨M, c1, hM, hMc, hMl, hMv, hI1⟩ := legacyM_ok h4 h5 hN hS i hI
  obtain ⟨S, hS1, hSc, hSl, hSv⟩ := gramS_ok (by omega) hS lam i (index := swapIdx N i.1)
    (fun _ => mem_swapIdx i.2) (swapIdx_nodup _)
  obtain ⟨Fi, hFi, _, hFl, hFe⟩ := mats_get hF i
  obtain ⟨M', hz, hzc, hzl, hzv⟩ := zipT_ok (· + ·) (A := M) (B := Fi) (by rw [hMl, hFl])
  rw [hMl] at hzl hzv
  obtain ⟨f', a1, a2, a3, a4⟩ := modeTail_ok hS hG lam solve i
    (m := fun x r => Spec.mttkrp dims (arr V N) (mats f.W) i x r + mats F i x r) hzc hzl (by
      intro x hx r hr
      have := hMv x hx r hr
      simp only [mat] at this ⊢
      rw [hzv _ (fits_two.2 ⟨hx, hr⟩), this, hFe]
      rfl) hSl hSv
  refine ⟨f', c1, ?_, a2, a3, a4, ?_⟩
  · unfold legacyUpdate
    simp only [bind, Except.bind]
    rw [hM]
    simp only
    rw [hS1, hFi]
    simp only
    rw [hz]
    simp only
    rw [a1]
    rfl
  · refine hI1.next ?_
    rintro n p b hn hle hle' T ⟨hc, hv⟩
    refine ⟨hc, hv.congr ?_⟩
    intro j hj
    have hnl := hn.node_le
    rw [mem_ivModes (by omega) (by omega)] at hj
    have : mats f'.W j = (Spec.modeUpdate dims R lam solve
        (fun x r => Spec.mttkrp dims (arr V N) (mats f.W) i x r + mats F i x r) (absF N f) i).W j := by
      rw [← a4]; rfl
    rw [this]
    unfold Spec.modeUpdate
    simp only
    rw [Function.update_of_ne (by rintro rfl; omega)]
    rfl

/-- All updates of a sweep, starting with an empty cache. -/
theorem legacyUpdates_ok (h4 : 4 ≤ N) (h5 : N ≠ 5) (hN : N ≤ 31) {dims : Fin N → ℕ} {R : ℕ} {V : Tensor K}
    (lam : K) (solve : Spec.Solver K) {F : List (Tensor K)} (hF : Shaped dims R V F) {f : Fac K}
    (hS : Shaped dims R V f.W) (hG : f.G.length = N) :
    ∃ f', legacyUpdates N R lam solve V F f = .ok f' ∧ Shaped dims R V f'.W ∧ f'.G.length = N ∧
      absF N f' = (List.finRange N).foldl (fun st i => Spec.modeUpdate dims R lam solve
        (fun x r => Spec.mttkrp dims (arr V N) st.W i x r + mats F i x r) st i) (absF N f) := by
  obtain ⟨s, hs, h1, h2, h3, h4'⟩ := foldlM_range'_inv (s := 0) (n := N)
    (P := fun j (s : Fac K × Cache K) => Shaped dims R V s.1.W ∧ s.1.G.length = N ∧
      absF N s.1 = ((List.finRange N).take j).foldl (fun st i => Spec.modeUpdate dims R lam solve
        (fun x r => Spec.mttkrp dims (arr V N) st.W i x r + mats F i x r) st i) (absF N f) ∧
      DInv N (CpGood (by omega) dims R V s.1.W) j s.2)
    (f := legacyUpdate N R lam solve (constructDT 0 (N - 1) {}) V F) (a := (f, []))
    ⟨hS, hG, rfl, DInv.nil _ _⟩
    (by
      rintro j ⟨g, c⟩ _ hj ⟨g1, g2, g3, g4⟩
      obtain ⟨f', c', b1, b2, b3, b4, b5⟩ := legacyUpdate_ok h4 h5 hN lam solve hF g1 g2 ⟨j, by omega⟩ g4
      refine ⟨(f', c'), b1, b2, b3, ?_, b5⟩
      simp only at g3 b4 ⊢
      rw [List.take_add_one, List.foldl_append, ← g3, List.getElem?_eq_getElem (by simpa using hj)]
      simp only [List.getElem_finRange, Option.toList_some, List.foldl_cons, List.foldl_nil]
      rw [b4]
      rfl)
  refine ⟨s.1, ?_, h1, h2, ?_⟩
  · unfold legacyUpdates
    simp only
    rw [List.range_eq_range', hs]
    rfl
  · rw [h3, Nat.zero_add, List.take_of_length_le (by simp)]

end Model
