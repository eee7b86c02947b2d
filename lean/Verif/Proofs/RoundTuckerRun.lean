import Verif.Proofs.RoundTucker

/-! Rounding errors of `TTMc`, the core and the Tucker dimension tree. -/

namespace Model

open Finset Function

variable {N : ℕ}

/-- Accumulated factor when the modes `keep` are left. -/
noncomputable def accU (u : ℝ) (keep : Finset (Fin N)) : ℝ := (1 + u) ^ (N - keep.card)

theorem accU_one {u : ℝ} (hu : 0 ≤ u) (keep : Finset (Fin N)) : 1 ≤ accU u keep := one_le_pow₀ (by linarith)

theorem accU_univ (u : ℝ) : accU u (univ : Finset (Fin N)) = 1 := by simp [accU]

theorem accU_erase (u : ℝ) {keep : Finset (Fin N)} {j : Fin N} (hj : j ∈ keep) : accU u keep * (1 + u) = accU u (keep.erase j) := by
  unfold accU
  have h1 : keep.card ≤ N := by simpa using Finset.card_le_univ keep
  have h2 : 1 ≤ keep.card := Finset.card_pos.2 ⟨j, hj⟩
  rw [← pow_succ, Finset.card_erase_of_mem hj]
  congr 1
  omega

theorem accU_erase_le {u : ℝ} (hu : 0 ≤ u) (keep : Finset (Fin N)) (j : Fin N) : accU u keep ≤ accU u (keep.erase j) := by
  refine pow_le_pow_right₀ (by linarith) ?_
  have := Finset.card_le_card (Finset.erase_subset j keep)
  omega

section

variable {b : ℕ} {u : ℝ} {P : Arith} {dims rk : Fin N → ℕ}

/-! ### TTMc -/

/-- State of `TTMc` before pass `k`. -/
def TtmcInvR (u c0 : ℝ) (dims rk : Fin N → ℕ) (Ve Va : (Fin N → ℕ) → ℝ) (W : List (Tensor ℝ)) (i : ℤ) (k : ℕ)
    (s : Tensor ℝ × Tensor ℝ × List ℕ) : Prop :=
  let keep := univ.filter fun j : Fin N => k ≤ j.1 ∨ (j.1 : ℤ) = i
  TNear (c0 * accU u keep) dims rk Ve Va (mats W) keep s.1 ∧ s.2.2 = List.ofFn (klens dims rk keep) ∧
    ((∃ j < k, (j : ℤ) ≠ i) → s.2.1 = s.1)

theorem ttmcStepR_ok (hP : RoundOk (b * b) u P) (hu : 0 ≤ u) (hb : 1 ≤ b) (hd : ∀ j, dims j ≤ b) (hr : ∀ j, rk j ≤ b) (hN : N ≤ 10)
    {VE : Tensor ℝ} {W : List (Tensor ℝ)} (hS : TuckShaped dims rk VE W) {Ve Va : (Fin N → ℕ) → ℝ} {c0 : ℝ} (hc : 1 ≤ c0) (i : ℤ) {k : ℕ} (hk : k < N)
    {s : Tensor ℝ × Tensor ℝ × List ℕ} (h : TtmcInvR u c0 dims rk Ve Va W i k s) :
    ∃ s', ttmcStepR P N W i s k = .ok s' ∧ TtmcInvR u c0 dims rk Ve Va W i (k + 1) s' := by
  obtain ⟨h1, h2, h3⟩ := h
  unfold ttmcStepR
  by_cases hi : (k : ℤ) = i
  · rw [if_pos hi]
    have hk' : (univ.filter fun j : Fin N => k + 1 ≤ j.1 ∨ (j.1 : ℤ) = i) =
        univ.filter fun j : Fin N => k ≤ j.1 ∨ (j.1 : ℤ) = i := by
      ext j; simp; omega
    refine ⟨s, rfl, ?_⟩
    unfold TtmcInvR
    rw [hk']
    refine ⟨h1, h2, ?_⟩
    rintro ⟨j, hj, hne⟩
    exact h3 ⟨j, by rcases Nat.lt_succ_iff_lt_or_eq.1 hj with h | rfl; exacts [h, absurd hi hne], hne⟩
  · rw [if_neg hi]
    have he : (univ.filter fun j : Fin N => k + 1 ≤ j.1 ∨ (j.1 : ℤ) = i) =
        (univ.filter fun j : Fin N => k ≤ j.1 ∨ (j.1 : ℤ) = i).erase ⟨k, hk⟩ := by
      ext j; simp [Fin.ext_iff]; omega
    obtain ⟨Wk, r1, _, r2, r3⟩ := tmats_get hS ⟨k, hk⟩
    obtain ⟨T', e1, e3⟩ := h1.step hP hu hb hd hr (one_le_mul_of_one_le_of_one_le hc (accU_one hu _)) (letter_injective (by omega))
      (s := lk) (letter_ne_k hN) (j := ⟨k, hk⟩) (by simp) r2 r3
    simp only [bind, Except.bind, pure, Except.pure]
    simp only at r1 e1
    rw [r1]
    simp only
    have hl : s.2.2.set k (ncol Wk) = List.ofFn (klens dims rk
        ((univ.filter fun j : Fin N => k ≤ j.1 ∨ (j.1 : ℤ) = i).erase ⟨k, hk⟩)) := by
      rw [h2, ncol_of r2, ← klens_update, ← ofFn_set]
    have hseq : (allLetters N).set k lk = List.ofFn (update (fun j : Fin N => letter j.1) ⟨k, hk⟩ lk) := by
      rw [allLetters_ofFn, ← ofFn_set]
    rw [hl, hseq, allLetters_ofFn, e1]
    refine ⟨_, rfl, ?_⟩
    unfold TtmcInvR
    rw [he]
    refine ⟨?_, rfl, fun _ => rfl⟩
    rw [mul_assoc, accU_erase u (j := ⟨k, hk⟩) (by simp)] at e3
    exact e3

/-- `TTMc` of an approximate tensor. -/
theorem ttmcR_ok (hP : RoundOk (b * b) u P) (hu : 0 ≤ u) (hb : 1 ≤ b) (hd : ∀ j, dims j ≤ b) (hr : ∀ j, rk j ≤ b) (hN : N ≤ 10)
    {VE VA V : Tensor ℝ} {W : List (Tensor ℝ)} (hS : TuckShaped dims rk VE W) {c0 : ℝ} (hc : 1 ≤ c0) (hV : RelT c0 VE VA V) (i : ℤ)
    (hi : ∃ j < N, (j : ℤ) ≠ i) (Y0 : Tensor ℝ) :
    ∃ Y, ttmcR P Y0 V W i = .ok Y ∧
      TNear (c0 * accU u (keepOf N i)) dims rk (arr VE N) (arr VA N) (mats W) (keepOf N i) Y := by
  have hVl : V.lens = List.ofFn dims := by rw [← hV.1]; exact hS.lensV
  have hlen : V.lens.length = N := by rw [hVl]; simp
  obtain ⟨s, h1, h2⟩ := foldlM_range'_inv (P := TtmcInvR u c0 dims rk (arr VE N) (arr VA N) W i) (f := ttmcStepR P N W i) (s := 0) (n := N)
    (a := (V, Y0, V.lens)) (by
      have hk : (univ.filter fun j : Fin N => 0 ≤ j.1 ∨ (j.1 : ℤ) = i) = univ := by ext j; simp
      unfold TtmcInvR
      rw [hk]
      refine ⟨?_, ?_, ?_⟩
      · rw [accU_univ, mul_one]
        exact TNear.input _ hS.lensV hV
      · simp only
        rw [hVl]
        congr 1
        funext j
        simp [klens]
      · rintro ⟨j, hj, _⟩; omega)
    (fun k s _ hk h => ttmcStepR_ok hP hu hb hd hr hN hS hc i (by omega) h)
  rw [← List.range_eq_range'] at h1
  refine ⟨s.2.1, ?_, ?_⟩
  · unfold ttmcR
    rw [hlen]
    simp only [bind, Except.bind, pure, Except.pure]
    rw [h1]
  · obtain ⟨j, hj, hne⟩ := hi
    unfold TtmcInvR at h2
    have hk : (univ.filter fun j : Fin N => 0 + N ≤ j.1 ∨ (j.1 : ℤ) = i) = keepOf N i := by
      ext j; simp [keepOf]
    rw [hk] at h2
    rw [h2.2.2 ⟨j, by omega, hne⟩]
    exact h2.1

/-! ### get_core_tensor -/

theorem coreStepR_ok {eps : ℝ} (hF : FlEval eps P) (hP : RoundOk (b * b) u P) (hu : 0 ≤ u) (hb : 1 ≤ b) (hd : ∀ j, dims j ≤ b)
    (hr : ∀ j, rk j ≤ b) {V : Tensor ℝ} {W : List (Tensor ℝ)} (hS : TuckShaped dims rk V W) {k : ℕ} (hk : k < N) {s : Tensor ℝ × List ℕ}
    (h : TNear (accU u (univ.filter fun j : Fin N => k ≤ j.1)) dims rk (arr V N) (Spec.absArr (arr V N)) (mats W) (univ.filter fun j : Fin N => k ≤ j.1) s.1 ∧
      s.2 = List.ofFn (klens dims rk (univ.filter fun j : Fin N => k ≤ j.1))) :
    ∃ s', coreStepR P (List.ofFn fun j : Fin N => (105 + (j.1 : ℤ) : Label)) W (List.ofFn rk) s k = .ok s' ∧
      (TNear (accU u (univ.filter fun j : Fin N => k + 1 ≤ j.1)) dims rk (arr V N) (Spec.absArr (arr V N)) (mats W) (univ.filter fun j : Fin N => k + 1 ≤ j.1) s'.1 ∧
      s'.2 = List.ofFn (klens dims rk (univ.filter fun j : Fin N => k + 1 ≤ j.1))) := by
  obtain ⟨h1, h2⟩ := h
  have he : (univ.filter fun j : Fin N => k + 1 ≤ j.1) = (univ.filter fun j : Fin N => k ≤ j.1).erase ⟨k, hk⟩ := by
    ext j; simp [Fin.ext_iff]; omega
  obtain ⟨Wk, r1, _, r2, r3⟩ := tmats_get hS ⟨k, hk⟩
  obtain ⟨Wt, t1, t2, t3, t4⟩ := transposeT_ok r2
  obtain ⟨T', e1, e3⟩ := h1.step' hP hu hb hd hr (accU_one hu _) chr_injective (s := (97 : ℤ)) (by
    intro j; change ¬ ((_ : ℤ) = _); omega) (j := ⟨k, hk⟩) (by simp) t3
    (by intro x hx r hr; rw [t4 x hx r hr, r3])
  rw [accU_erase u (j := ⟨k, hk⟩) (by simp)] at e3
  unfold coreStepR
  simp only [bind, Except.bind, pure, Except.pure]
  have q1 : rd (List.ofFn rk) (k : ℤ) = .ok (rk ⟨k, hk⟩) := by
    rw [rd_ok (by simpa using hk)]; simp
  have q2 : rd (List.ofFn fun j : Fin N => (105 + (j.1 : ℤ) : Label)) (k : ℤ) = .ok (105 + (k : ℤ) : ℤ) := by
    rw [rd_ok (by simpa using hk)]; simp
  simp only at r1 e1
  rw [q1]
  simp only
  rw [q2]
  simp only
  rw [r1]
  simp only
  rw [transposeTR_ok hF r2 t1]
  simp only
  have hl : s.2.set k (rk ⟨k, hk⟩) = List.ofFn (klens dims rk ((univ.filter fun j : Fin N => k ≤ j.1).erase ⟨k, hk⟩)) := by
    rw [h2, ← klens_update, ← ofFn_set]
  have hseq : (List.ofFn fun j : Fin N => (105 + (j.1 : ℤ) : Label)).set k 97 =
      List.ofFn (update (fun j : Fin N => (105 + (j.1 : ℤ) : Label)) ⟨k, hk⟩ 97) := by rw [← ofFn_set]
  rw [hl, hseq, e1]
  refine ⟨_, rfl, ?_⟩
  rw [he]
  exact ⟨e3, rfl⟩

theorem getCoreTensorR_ok {eps : ℝ} (hF : FlEval eps P) (hP : RoundOk (b * b) u P) (hu : 0 ≤ u) (hb : 1 ≤ b) (hd : ∀ j, dims j ≤ b)
    (hr : ∀ j, rk j ≤ b) (hN : N ≤ 18) {V : Tensor ℝ} {W : List (Tensor ℝ)} (hS : TuckShaped dims rk V W) :
    ∃ C, getCoreTensorR P V W (List.ofFn rk) = .ok C ∧ TNear (accU u (∅ : Finset (Fin N))) dims rk (arr V N) (Spec.absArr (arr V N)) (mats W) ∅ C := by
  have hlen : V.lens.length = N := by rw [hS.lensV]; simp
  obtain ⟨s, h1, h2, h3⟩ := foldlM_range'_inv
    (P := fun k (s : Tensor ℝ × List ℕ) => TNear (accU u (univ.filter fun j : Fin N => k ≤ j.1)) dims rk (arr V N) (Spec.absArr (arr V N)) (mats W) (univ.filter fun j : Fin N => k ≤ j.1) s.1 ∧
      s.2 = List.ofFn (klens dims rk (univ.filter fun j : Fin N => k ≤ j.1)))
    (f := coreStepR P (List.ofFn fun j : Fin N => (105 + (j.1 : ℤ) : Label)) W (List.ofFn rk)) (s := 0) (n := N)
    (a := (V, V.lens)) (by
      have hk : (univ.filter fun j : Fin N => 0 ≤ j.1) = univ := by ext j; simp
      rw [hk, accU_univ]
      refine ⟨TNear.input _ hS.lensV (RelT.exact V), ?_⟩
      simp only
      rw [hS.lensV]
      congr 1
      funext j
      simp [klens])
    (fun k s _ hk h => coreStepR_ok hF hP hu hb hd hr hS (by omega) h)
  rw [← List.range_eq_range'] at h1
  have hk : (univ.filter fun j : Fin N => 0 + N ≤ j.1) = ∅ := by
    ext j; simp
  rw [hk] at h2
  refine ⟨s.1, ?_, h2⟩
  unfold getCoreTensorR
  rw [hlen, tmapM_chr hN]
  simp only [bind, Except.bind, pure, Except.pure]
  rw [h1]

/-! ### the tree -/

/-- A good node. -/
def TuckNear (u : ℝ) (dims rk : Fin N → ℕ) (V : Tensor ℝ) (W : List (Tensor ℝ)) (n : Iv) (T : Tensor ℝ) : Prop :=
  TNear (accU u (ivSet N n)) dims rk (arr V N) (Spec.absArr (arr V N)) (mats W) (ivSet N n) T

theorem ttmLoopR_ok (hP : RoundOk (b * b) u P) (hu : 0 ≤ u) (hb : 1 ≤ b) (hd : ∀ j, dims j ≤ b) (hr : ∀ j, rk j ≤ b) (hN : N ≤ 31)
    {V : Tensor ℝ} {W : List (Tensor ℝ)} (hS : TuckShaped dims rk V W) {keep : Finset (Fin N)} {T0 : Tensor ℝ}
    (hT : TNear (accU u keep) dims rk (arr V N) (Spec.absArr (arr V N)) (mats W) keep T0) {n : Iv} (hn : n.2 < N) (hnk : ivSet N n ⊆ keep) :
    ∃ T, ttmLoopR P N W (ivStr n) T0 = .ok T ∧
      TNear (accU u (keep \ ivSet N n)) dims rk (arr V N) (Spec.absArr (arr V N)) (mats W) (keep \ ivSet N n) T := by
  obtain ⟨s, h1, h2, _⟩ := foldlM_range'_inv (s := 0) (n := n.2 + 1 - n.1)
    (P := fun j (s : Tensor ℝ × List ℕ) =>
      TNear (accU u (keep \ univ.filter fun m : Fin N => n.1 ≤ m.1 ∧ m.1 < n.1 + j)) dims rk (arr V N) (Spec.absArr (arr V N)) (mats W)
        (keep \ univ.filter fun m : Fin N => n.1 ≤ m.1 ∧ m.1 < n.1 + j) s.1 ∧
      s.2 = List.ofFn (klens dims rk (keep \ univ.filter fun m : Fin N => n.1 ≤ m.1 ∧ m.1 < n.1 + j)))
    (f := fun (s : Tensor ℝ × List ℕ) (j : ℕ) => do
      let c ← rd (ivStr n) j
      let Wc ← rd W (decode c)
      if c < 97 ∨ (N : ℤ) ≤ c - 97 then .error .ub
      else do
        let lens := s.2.set (c - 97).toNat (ncol Wc)
        let T ← P.ev lens ((allLetters N).set (c - 97).toNat star) [(s.1, allLetters N), (Wc, [c, star])]
        pure (T, lens)) (a := (T0, T0.lens))
    (by
      have : keep \ univ.filter (fun m : Fin N => n.1 ≤ m.1 ∧ m.1 < n.1 + 0) = keep := by
        ext m; simp
      rw [this]
      exact ⟨hT, hT.lens⟩)
    (by
      rintro j s _ hj ⟨g1, g2⟩
      have hk : n.1 + j < N := by omega
      obtain ⟨Wc, r1, r2, r3⟩ := tdecode_rd hN hS hk
      set kp := keep \ univ.filter (fun m : Fin N => n.1 ≤ m.1 ∧ m.1 < n.1 + j) with hkp
      have he : (keep \ univ.filter fun m : Fin N => n.1 ≤ m.1 ∧ m.1 < n.1 + (j + 1)) = kp.erase ⟨n.1 + j, hk⟩ := by
        ext m; simp only [hkp, Finset.mem_sdiff, mem_filter, mem_univ, true_and, Finset.mem_erase, Ne, Fin.ext_iff]
        have : (n.1 ≤ m.1 ∧ m.1 < n.1 + (j + 1)) ↔ ((n.1 ≤ m.1 ∧ m.1 < n.1 + j) ∨ m.1 = n.1 + j) := by omega
        rw [this]
        tauto
      have hmem : (⟨n.1 + j, hk⟩ : Fin N) ∈ kp := by
        simp only [hkp, Finset.mem_sdiff, mem_filter, mem_univ, true_and]
        exact ⟨hnk (mem_ivSet.2 (by simp only; omega)), by omega⟩
      obtain ⟨T', e1, e3⟩ := g1.step hP hu hb hd hr (accU_one hu _) (letter_injective (by omega)) (s := star) (tletter_ne_star hN)
        (j := ⟨n.1 + j, hk⟩) hmem r2 r3
      rw [accU_erase u hmem] at e3
      simp only [bind, Except.bind, pure, Except.pure]
      rw [rd_strOf (n := n) (by omega)]
      simp only
      rw [r1]
      simp only
      rw [if_neg (letter_range (by omega) hk), toNat_letter (by omega)]
      have hl : s.2.set (n.1 + j) (ncol Wc) = List.ofFn (klens dims rk (kp.erase ⟨n.1 + j, hk⟩)) := by
        rw [g2, ncol_of r2, ← klens_update, ← ofFn_set]
      have hseq : (allLetters N).set (n.1 + j) star =
          List.ofFn (update (fun j : Fin N => letter j.1) ⟨n.1 + j, hk⟩ star) := by
        rw [allLetters_ofFn, ← ofFn_set]
      simp only at e1
      rw [hl, hseq, allLetters_ofFn, e1]
      refine ⟨_, rfl, ?_⟩
      rw [he]
      exact ⟨e3, rfl⟩)
  refine ⟨s.1, ?_, ?_⟩
  · unfold ttmLoopR
    rw [strOf_length, List.range_eq_range']
    simp only [bind, Except.bind, pure, Except.pure] at h1 ⊢
    rw [h1]
  · have hset : (univ.filter fun m : Fin N => n.1 ≤ m.1 ∧ m.1 < n.1 + (0 + (n.2 + 1 - n.1))) = ivSet N n := by
      ext m
      simp only [mem_ivSet, mem_filter, mem_univ, true_and]
      omega
    rw [hset] at h2
    exact h2

theorem tuckMapDTR_ok (hP : RoundOk (b * b) u P) (hu : 0 ≤ u) (hb : 1 ≤ b) (hd : ∀ j, dims j ≤ b) (hr : ∀ j, rk j ≤ b) (h4 : 4 ≤ N)
    (h5 : N ≠ 5) (hN : N ≤ 31) {V : Tensor ℝ} {W : List (Tensor ℝ)} (hS : TuckShaped dims rk V W) {i fuel : ℕ} {n p q : Iv} {cache : Cache ℝ}
    (hn : Sub 0 (N - 1) n p q) (h1 : n.1 ≤ i) (h2 : i ≤ n.2) (hf : N ≤ fuel) (hI : DInv N (TuckNear u dims rk V W) i cache) :
    ∃ cache', tuckMapDTR P N (constructDT 0 (N - 1) {}) V W fuel (ivStr n) cache = .ok cache' ∧
      DInv N (TuckNear u dims rk V W) i cache' ∧
      ∃ T, cache'.lookup (ivStr n) = some T ∧ TuckNear u dims rk V W n T := by
  refine dtNode_ok h4 h5 (by omega) ?_ ?_ i fuel n p q cache hn h1 h2 (by omega) hI
  · intro n q h
    rw [(mapGet_tree (by omega) h).2]
    obtain ⟨s1, s2⟩ := sub_ivSet h
    have hq := h.swap.node_le
    have h0 : TNear (accU u (univ : Finset (Fin N))) dims rk (arr V N) (Spec.absArr (arr V N)) (mats W) univ V := by
      rw [accU_univ]
      exact TNear.input _ hS.lensV (RelT.exact V)
    obtain ⟨T, t1, t2⟩ := ttmLoopR_ok hP hu hb hd hr hN hS h0 (n := q) (by omega) (by simp)
    refine ⟨T, t1, ?_⟩
    rw [← ivSet_root, s2] at t2
    exact t2
  · intro n p q h _ Tp hTp
    rw [(mapGet_tree (by omega) h).2]
    obtain ⟨s1, s2⟩ := sub_ivSet h
    have hq := h.swap.node_le
    obtain ⟨T, t1, t2⟩ := ttmLoopR_ok hP hu hb hd hr hN hS hTp (n := q) (by omega) s1
    rw [s2] at t2
    exact ⟨T, t1, t2⟩

theorem tuckYR_ok (hP : RoundOk (b * b) u P) (hu : 0 ≤ u) (hb : 1 ≤ b) (hd : ∀ j, dims j ≤ b) (hr : ∀ j, rk j ≤ b) (h4 : 4 ≤ N)
    (h5 : N ≠ 5) (hN : N ≤ 31) {V : Tensor ℝ} {W : List (Tensor ℝ)} (hS : TuckShaped dims rk V W) (i : Fin N) {cache : Cache ℝ}
    (hI : DInv N (TuckNear u dims rk V W) i.1 cache) :
    ∃ Y cache', tuckYR P N (constructDT 0 (N - 1) {}) V W cache i.1 = .ok (Y, cache') ∧
      TNear (accU u {i}) dims rk (arr V N) (Spec.absArr (arr V N)) (mats W) {i} Y ∧ DInv N (TuckNear u dims rk V W) i.1 cache' := by
  obtain ⟨p, q, p', q', hn, hpp, hp1, hp2, hp3, hcase⟩ := leaf_cases h4 i
  obtain ⟨t1, t2⟩ := mapGet_tree (by omega) hn
  simp only [ivStr, strOf_self] at t1 t2
  obtain ⟨c1, hc1, hI1, Tp, hTp, hTv⟩ : ∃ c1, (if (cache.lookup (ivStr p)).isNone then
      tuckMapDTR P N (constructDT 0 (N - 1) {}) V W (N + 1) (ivStr p) cache else pure cache) = .ok c1 ∧
      DInv N (TuckNear u dims rk V W) i.1 c1 ∧ ∃ T, c1.lookup (ivStr p) = some T ∧ TuckNear u dims rk V W p T := by
    by_cases hnone : (cache.lookup (ivStr p)).isNone
    · rw [if_pos hnone]
      exact tuckMapDTR_ok hP hu hb hd hr h4 h5 hN hS hpp hp1 hp2 (by omega) hI
    · rw [if_neg hnone]
      obtain ⟨T, hT⟩ : ∃ T, cache.lookup (ivStr p) = some T := by
        rw [← Option.isSome_iff_exists]
        simpa [Option.isSome_iff_ne_none] using hnone
      exact ⟨cache, rfl, hI, T, hT, (hI p p' q' hpp T hT).2 hp2⟩
  have hplen : 2 ≤ p.2 + 1 - p.1 := by
    rcases hcase with ⟨rfl, _⟩ | ⟨_, rfl, _⟩ | ⟨_, rfl, _⟩ <;> simp only <;> omega
  have e0 : rd (ivStr p) 0 = .ok (letter p.1) := rd_strOf (n := p) (j := 0) (by omega)
  have e1 : rd (ivStr p) 1 = .ok (letter (p.1 + 1)) := rd_strOf (n := p) (j := 1) (by omega)
  unfold tuckYR
  rw [lensY_ok hS i]
  simp only [t1, t2, bind, Except.bind]
  simp only [ivStr] at hc1 e0 e1 hTp
  rw [hc1, e0, e1]
  simp only [hTp, strOf_length]
  have hli : ∀ k, k < 31 → (letter i.1 = letter k ↔ k = i.1) := by
    intro k hk
    constructor
    · intro h; exact letter_inj (by omega) (by omega) h.symm
    · rintro rfl; rfl
  have two : ∀ k (hk : k < N), k ≠ i.1 → p.2 = p.1 + 1 → (k = p.1 ∧ i.1 = p.1 + 1 ∨ k = p.1 + 1 ∧ i.1 = p.1) →
      ∃ Wc Y, rd W (decode (letter k)) = .ok Wc ∧
        P.ev (List.ofFn (klens dims rk {i})) ((allLetters N).set (decode (letter k)).toNat star)
          [(Tp, allLetters N), (Wc, [letter k, star])] = .ok Y ∧
        TNear (accU u {i}) dims rk (arr V N) (Spec.absArr (arr V N)) (mats W) {i} Y := by
    intro k hk hki hp12 hkp
    obtain ⟨Wc, hrd, hl, he⟩ := tdecode_rd hN hS hk
    have hset : (ivSet N p).erase ⟨k, hk⟩ = {i} := by
      ext m; simp only [Finset.mem_erase, mem_ivSet, mem_singleton, Fin.ext_iff, Ne]; omega
    have hmem : (⟨k, hk⟩ : Fin N) ∈ ivSet N p := mem_ivSet.2 (by simp only; omega)
    obtain ⟨Y, y1, y3⟩ := TNear.step hP hu hb hd hr (accU_one hu _) hTv (letter_injective (by omega)) (s := star) (tletter_ne_star hN)
      (j := ⟨k, hk⟩) hmem hl he
    rw [accU_erase u hmem, hset] at y3
    rw [hset] at y1
    refine ⟨Wc, Y, hrd, ?_, y3⟩
    rw [decode_letter (by omega), allLetters_ofFn]
    have := ofFn_set (fun j : Fin N => letter j.1) ⟨k, hk⟩ star
    simp only at this
    rw [show ((k : ℤ)).toNat = k by simp, this]
    exact y1
  rcases hcase with ⟨rfl, rfl⟩ | ⟨hi1, rfl, rfl⟩ | ⟨hi2, rfl, rfl⟩
  · simp only at hp3 ⊢
    obtain ⟨Wc, Y, hr, hY, hYv⟩ := two (i.1 + 1) hp3 (by omega) rfl (.inr ⟨rfl, rfl⟩)
    refine ⟨Y, c1, ?_, hYv, hI1⟩
    rw [if_pos (by omega), if_pos trivial, hr]
    simp only
    rw [hY]
    rfl
  · simp only at hp3 ⊢
    obtain ⟨Wc, Y, hr, hY, hYv⟩ := two (i.1 - 1) (by omega) (by omega) (by simp only; omega)
      (.inl ⟨rfl, by simp only; omega⟩)
    refine ⟨Y, c1, ?_, hYv, hI1⟩
    rw [if_pos (by omega), if_neg (by rw [hli _ (by omega)]; omega), hr]
    simp only
    rw [hY]
    rfl
  · simp only at hp3 ⊢
    rw [if_neg (by omega)]
    simp only [if_neg (show ¬ letter (i.1 - 2) = letter i.1 by
      intro h; have := letter_inj (by omega) (by omega) h; omega)]
    have e2 : rd (strOf (i.1 - 2) i.1) 2 = .ok (letter (i.1 - 2 + 2)) := rd_strOf (n := (i.1 - 2, i.1)) (j := 2) (by simp only; omega)
    rw [e2]
    simp only
    obtain ⟨W1, hW1, hl1, he1⟩ := tdecode_rd hN hS (k := i.1 - 2) (by omega)
    obtain ⟨W2, hW2, hl2, he2⟩ := tdecode_rd hN hS (k := i.1 - 2 + 1) (by omega)
    rw [hW1, hW2]
    simp only
    have m1 : (⟨i.1 - 2, by omega⟩ : Fin N) ∈ ivSet N (i.1 - 2, i.1) := mem_ivSet.2 (by simp only; omega)
    have m2 : (⟨i.1 - 2 + 1, by omega⟩ : Fin N) ∈ ivSet N (i.1 - 2, i.1) := mem_ivSet.2 (by simp only; omega)
    obtain ⟨Y, y1, y3⟩ := TNear.step2 hP hu hb hd hr (accU_one hu _) hTv (letter_injective (by omega)) (s := star) (t := hat) (tletter_ne_star hN)
      (tletter_ne_hat hN) (by decide) (j := ⟨i.1 - 2, by omega⟩) (j' := ⟨i.1 - 2 + 1, by omega⟩)
      m1 m2 (by simp [Fin.ext_iff]) hl1 he1 hl2 he2
    have hset : ((ivSet N (i.1 - 2, i.1)).erase ⟨i.1 - 2, by omega⟩).erase ⟨i.1 - 2 + 1, by omega⟩ = {i} := by
      ext m; simp only [Finset.mem_erase, mem_ivSet, mem_singleton, Fin.ext_iff, Ne]; omega
    have hle := accU_erase_le hu ((ivSet N (i.1 - 2, i.1)).erase ⟨i.1 - 2, by omega⟩) ⟨i.1 - 2 + 1, by omega⟩
    rw [accU_erase u m1] at y3
    have y3 := y3.mono hle
    rw [hset] at y1 y3
    refine ⟨Y, c1, ?_, y3, hI1⟩
    have s1 := ofFn_set (fun j : Fin N => letter j.1) ⟨i.1 - 2, by omega⟩ star
    have s2 := ofFn_set (update (fun j : Fin N => letter j.1) ⟨i.1 - 2, by omega⟩ star) ⟨i.1 - 2 + 1, by omega⟩ hat
    simp only at s1 s2
    rw [decode_letter (by omega), decode_letter (by omega), allLetters_ofFn, show ((i.1 - 2 : ℕ) : ℤ).toNat = i.1 - 2 by simp,
      show ((i.1 - 2 + 1 : ℕ) : ℤ).toNat = i.1 - 2 + 1 by rw [Int.toNat_natCast], s1, s2]
    simp only at y1
    rw [y1]
    rfl

theorem coreEndR_ok (hP : RoundOk (b * b) u P) (hu : 0 ≤ u) (hb : 1 ≤ b) (hd : ∀ j, dims j ≤ b) (hr : ∀ j, rk j ≤ b) (h1 : 1 ≤ N) (hN : N ≤ 31)
    {Ve Va : (Fin N → ℕ) → ℝ} {W : Fin N → ℕ → ℕ → ℝ} {c : ℝ} (hc : 1 ≤ c)
    {Y Wl : Tensor ℝ} (hY : TNear c dims rk Ve Va W {⟨N - 1, by omega⟩} Y)
    (hl : Wl.lens = [dims ⟨N - 1, by omega⟩, rk ⟨N - 1, by omega⟩]) (hW : mat Wl = W ⟨N - 1, by omega⟩) :
    ∃ C, coreEndR P N (List.ofFn rk) Y Wl = .ok C ∧ TNear (c * (1 + u)) dims rk Ve Va W ∅ C := by
  set j : Fin N := ⟨N - 1, by omega⟩ with hj
  have hinj := letter_injective (N := N) (by omega)
  have hs := tletter_ne_star hN
  have hinj' := update_inj hinj hs j
  have hne : ∀ k, update (fun k : Fin N => letter k.1) j star k ≠ letter j.1 := by
    intro k
    by_cases e : k = j
    · rw [e, update_self]; exact (hs j).symm
    · rw [update_of_ne e]; exact fun h => e (hinj h)
  obtain ⟨C, c1, c3⟩ := hY.step hP hu hb hd hr hc hinj' hne (j := j) (by simp) hl hW
  have he : ({j} : Finset (Fin N)).erase j = ∅ := by simp
  rw [he] at c1 c3
  refine ⟨C, ?_, c3⟩
  unfold coreEndR
  have hk : klens dims rk ∅ = rk := by funext k; simp [klens]
  rw [hk] at c1
  rw [update_self, update_idem, update_eq_self_iff.2 rfl] at c1
  rw [allLetters_ofFn]
  have := ofFn_set (fun j : Fin N => letter j.1) j star
  rw [show N - 1 = j.1 from rfl, this]
  exact c1

end

end Model
