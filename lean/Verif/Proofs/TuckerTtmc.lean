import Verif.Proofs.Tucker

/-! `TTMc`, `get_core_tensor`. -/

namespace Model

open Finset Function

variable {K : Type} {N : ℕ}

theorem tmats_get [Zero K] {dims rk : Fin N → ℕ} {V : Tensor K} {W : List (Tensor K)} (h : TuckShaped dims rk V W)
    (j : Fin N) : ∃ M, rd W ((j.1 : ℕ) : ℤ) = .ok M ∧ W[j.1]? = some M ∧ M.lens = [dims j, rk j] ∧ mat M = mats W j := by
  have hj : j.1 < W.length := by rw [h.count]; exact j.2
  have hg : W[j.1]? = some W[j.1] := List.getElem?_eq_getElem hj
  refine ⟨W[j.1], rd_ok hj, hg, h.lensW j _ hg, ?_⟩
  funext x r
  simp [mats, hg]

variable [CommRing K]

theorem ncol_of {M : Tensor K} {a b : ℕ} (h : M.lens = [a, b]) : ncol M = b := by simp [ncol, h]
theorem nrow_of {M : Tensor K} {a b : ℕ} (h : M.lens = [a, b]) : nrow M = a := by simp [nrow, h]

/-- The modes excluded from `TTMc`. -/
def keepOf (N : ℕ) (i : ℤ) : Finset (Fin N) := univ.filter fun j => (j.1 : ℤ) = i

theorem keepOf_self (i : Fin N) : keepOf N (i.1 : ℤ) = {i} := by
  ext j; simp [keepOf, Fin.ext_iff]

theorem keepOf_neg : keepOf N (-1) = ∅ := by
  ext j; simp [keepOf]

theorem letter_ne_k (hN : N ≤ 10) (k : Fin N) : letter k.1 ≠ lk := by
  rw [letter_eq (by omega)]; unfold lk
  change ¬ ((_ : ℤ) = _)
  omega

/-- State of `TTMc` before pass `k`. -/
def TtmcInv (dims rk : Fin N → ℕ) (V : Tensor K) (W : List (Tensor K)) (i : ℤ) (Y0 : Tensor K) (k : ℕ)
    (s : Tensor K × Tensor K × List ℕ) : Prop :=
  let keep := univ.filter fun j : Fin N => k ≤ j.1 ∨ (j.1 : ℤ) = i
  TValid dims rk (arr V N) (mats W) keep s.1 ∧ s.2.2 = List.ofFn (klens dims rk keep) ∧
    ((∃ j < k, (j : ℤ) ≠ i) → s.2.1 = s.1 ∧ Canon s.1) ∧ ((∀ j < k, (j : ℤ) = i) → s.2.1 = Y0)

theorem ttmcStep_ok (hN : N ≤ 10) {dims rk : Fin N → ℕ} {V : Tensor K} {W : List (Tensor K)}
    (hS : TuckShaped dims rk V W) (i : ℤ) (Y0 : Tensor K) {k : ℕ} (hk : k < N) {s : Tensor K × Tensor K × List ℕ}
    (h : TtmcInv dims rk V W i Y0 k s) :
    ∃ s', ttmcStep N W i s k = .ok s' ∧ TtmcInv dims rk V W i Y0 (k + 1) s' := by
  obtain ⟨h1, h2, h3, h4⟩ := h
  unfold ttmcStep
  by_cases hi : (k : ℤ) = i
  · rw [if_pos hi]
    have hk' : (univ.filter fun j : Fin N => k + 1 ≤ j.1 ∨ (j.1 : ℤ) = i) =
        univ.filter fun j : Fin N => k ≤ j.1 ∨ (j.1 : ℤ) = i := by
      ext j; simp; omega
    refine ⟨s, rfl, ?_⟩
    unfold TtmcInv
    rw [hk']
    refine ⟨h1, h2, ?_, ?_⟩
    · rintro ⟨j, hj, hne⟩
      exact h3 ⟨j, by rcases Nat.lt_succ_iff_lt_or_eq.1 hj with h | rfl; exacts [h, absurd hi hne], hne⟩
    · intro hall
      exact h4 fun j hj => hall j (by omega)
  · rw [if_neg hi]
    have he : (univ.filter fun j : Fin N => k + 1 ≤ j.1 ∨ (j.1 : ℤ) = i) =
        (univ.filter fun j : Fin N => k ≤ j.1 ∨ (j.1 : ℤ) = i).erase ⟨k, hk⟩ := by
      ext j; simp [Fin.ext_iff]; omega
    obtain ⟨Wk, r1, _, r2, r3⟩ := tmats_get hS ⟨k, hk⟩
    obtain ⟨T', e1, e2, e3⟩ := h1.step (letter_injective (by omega)) (s := lk) (letter_ne_k hN) (j := ⟨k, hk⟩)
      (by simp) r2 r3
    simp only [bind, Except.bind, pure, Except.pure]
    simp only at r1 e1
    rw [r1]
    simp only
    have hl : s.2.2.set k (ncol Wk) = List.ofFn (klens dims rk
        ((univ.filter fun j : Fin N => k ≤ j.1 ∨ (j.1 : ℤ) = i).erase ⟨k, hk⟩)) := by
      rw [h2, ncol_of r2, ← klens_update, ← ofFn_set]
    have hseq : (allLetters N).set k lk = List.ofFn (update (fun j : Fin N => letter j.1) ⟨k, hk⟩ lk) := by
      rw [allLetters_ofFn, ← ofFn_set]
    rw [hl, hseq, allLetters_ofFn, e1]
    refine ⟨_, rfl, ?_⟩
    unfold TtmcInv
    rw [he]
    refine ⟨e3, rfl, fun _ => ⟨rfl, e2⟩, ?_⟩
    intro hall
    exact absurd (hall k (by omega)) hi

theorem ttmc_loop (hN : N ≤ 10) {dims rk : Fin N → ℕ} {V : Tensor K} {W : List (Tensor K)}
    (hS : TuckShaped dims rk V W) (i : ℤ) (Y0 : Tensor K) :
    ∃ Y, ttmc Y0 V W i = .ok Y ∧ ((∃ j < N, (j : ℤ) ≠ i) → Canon Y ∧ TValid dims rk (arr V N) (mats W) (keepOf N i) Y) ∧
      ((∀ j < N, (j : ℤ) = i) → Y = Y0) := by
  have hlen : V.lens.length = N := by rw [hS.lensV]; simp
  obtain ⟨s, h1, h2⟩ := foldlM_range'_inv (P := TtmcInv dims rk V W i Y0) (f := ttmcStep N W i) (s := 0) (n := N)
    (a := (V, Y0, V.lens)) (by
      have hk : (univ.filter fun j : Fin N => 0 ≤ j.1 ∨ (j.1 : ℤ) = i) = univ := by ext j; simp
      unfold TtmcInv
      rw [hk]
      refine ⟨TValid.input _ hS.lensV, ?_, ?_, fun _ => rfl⟩
      · simp only
        rw [hS.lensV]
        congr 1
        funext j
        simp [klens]
      · rintro ⟨j, hj, _⟩; omega)
    (fun k s _ hk h => ttmcStep_ok hN hS i Y0 (by omega) h)
  rw [← List.range_eq_range'] at h1
  refine ⟨s.2.1, ?_, ?_, ?_⟩
  · unfold ttmc
    rw [hlen]
    simp only [bind, Except.bind, pure, Except.pure]
    rw [h1]
  · rintro ⟨j, hj, hne⟩
    unfold TtmcInv at h2
    have hk : (univ.filter fun j : Fin N => 0 + N ≤ j.1 ∨ (j.1 : ℤ) = i) = keepOf N i := by
      ext j; simp [keepOf]
    rw [hk] at h2
    obtain ⟨e1, e2⟩ := h2.2.2.1 ⟨j, by omega, hne⟩
    rw [e1]
    exact ⟨e2, h2.1⟩
  · intro hall
    exact h2.2.2.2 fun j hj => hall j (by omega)

/-! ### get_core_tensor -/

theorem tchr_ok {j : ℕ} (h : j < 18) : chr j = .ok (105 + (j : ℤ)) := by
  unfold chr charsTab
  rw [rd_ok (by simp; omega)]
  congr 1
  rw [List.getElem_append_left (by simpa using h)]
  simp

theorem tmapM_chr (hN : N ≤ 18) : (List.range N).mapM chr = .ok (List.ofFn fun j : Fin N => (105 + (j.1 : ℤ) : Label)) := by
  have h := mapM_ok (f := chr) (g := fun j => (105 + (j : ℤ) : Label)) (l := List.range N)
    (fun j hj => tchr_ok (by rw [List.mem_range] at hj; omega))
  rw [h]
  congr 1
  apply List.ext_getElem <;> simp

theorem chr_injective : Injective fun j : Fin N => (105 + (j.1 : ℤ) : Label) := by
  intro a b h
  change (_ : ℤ) = _ at h
  simp only at h
  exact Fin.ext (by omega)

theorem transposeT_ok {F : Tensor K} {n m : ℕ} (hF : F.lens = [n, m]) :
    ∃ T, transposeT F = .ok T ∧ Canon T ∧ T.lens = [m, n] ∧ ∀ x < n, ∀ r < m, mat T r x = mat F x r := by
  let d : Label → ℕ := fun l => if l = li then m else n
  have hlij : lj ≠ li := by decide
  obtain ⟨T, h1, h2, h3⟩ := einsum_rep (K := K) (d := d) (sc := [li, lj]) (ops := [(F, [lj, li])])
    (by simp [hF, d, hlij])
  have hl : ([li, lj] : List Label).map d = [m, n] := by simp [d, hlij]
  rw [hl] at h1
  refine ⟨T, ?_, h2, by rw [h3.1, hl], ?_⟩
  · unfold transposeT
    rw [ncol_of hF, nrow_of hF]
    exact h1
  · intro x hx r hr
    let env : Label → ℕ := fun l => if l = li then r else x
    have := h3.2 env (by simp [env, d, hlij, hx, hr])
    have hc : contracted [li, lj] [(F, [lj, li])] = [] := by
      apply contracted_eq_nil
      intro o ho
      simp only [List.mem_cons, List.not_mem_nil, or_false] at ho
      subst ho
      simp
    simp only [exprVal, hc, List.map_nil, sumOver, List.map_cons, List.prod_cons, List.prod_nil, mul_one] at this
    simpa [env, hlij, mat] using this

theorem coreStep_ok (hN : N ≤ 18) {dims rk : Fin N → ℕ} {V : Tensor K} {W : List (Tensor K)}
    (hS : TuckShaped dims rk V W) {k : ℕ} (hk : k < N) {s : Tensor K × List ℕ}
    (h : TValid dims rk (arr V N) (mats W) (univ.filter fun j : Fin N => k ≤ j.1) s.1 ∧
      s.2 = List.ofFn (klens dims rk (univ.filter fun j : Fin N => k ≤ j.1)) ∧ (0 < k → Canon s.1)) :
    ∃ s', coreStep (List.ofFn fun j : Fin N => (105 + (j.1 : ℤ) : Label)) W (List.ofFn rk) s k = .ok s' ∧
      (TValid dims rk (arr V N) (mats W) (univ.filter fun j : Fin N => k + 1 ≤ j.1) s'.1 ∧
      s'.2 = List.ofFn (klens dims rk (univ.filter fun j : Fin N => k + 1 ≤ j.1)) ∧ (0 < k + 1 → Canon s'.1)) := by
  obtain ⟨h1, h2, _⟩ := h
  have he : (univ.filter fun j : Fin N => k + 1 ≤ j.1) = (univ.filter fun j : Fin N => k ≤ j.1).erase ⟨k, hk⟩ := by
    ext j; simp [Fin.ext_iff]; omega
  obtain ⟨Wk, r1, _, r2, r3⟩ := tmats_get hS ⟨k, hk⟩
  obtain ⟨Wt, t1, t2, t3, t4⟩ := transposeT_ok r2
  obtain ⟨T', e1, e2, e3⟩ := h1.step' chr_injective (s := (97 : ℤ)) (by
    intro j; change ¬ ((_ : ℤ) = _); omega) (j := ⟨k, hk⟩) (by simp) t3
    (by intro x hx r hr; rw [t4 x hx r hr, r3])
  unfold coreStep
  simp only [bind, Except.bind, pure, Except.pure]
  have q1 : rd (List.ofFn rk) (k : ℤ) = .ok (rk ⟨k, hk⟩) := by
    rw [rd_ok (by simpa using hk)]; simp
  have q2 : rd (List.ofFn fun j : Fin N => (105 + (j.1 : ℤ) : Label)) (k : ℤ) = .ok (105 + (k : ℤ) : ℤ) := by
    rw [rd_ok (by simpa using hk)]; simp
  simp only at r1 e1
  rw [q1]
  simp only
  rw [q2]
  simp only
  rw [r1]
  simp only
  rw [t1]
  simp only
  have hl : s.2.set k (rk ⟨k, hk⟩) = List.ofFn (klens dims rk ((univ.filter fun j : Fin N => k ≤ j.1).erase ⟨k, hk⟩)) := by
    rw [h2, ← klens_update, ← ofFn_set]
  have hseq : (List.ofFn fun j : Fin N => (105 + (j.1 : ℤ) : Label)).set k 97 =
      List.ofFn (update (fun j : Fin N => (105 + (j.1 : ℤ) : Label)) ⟨k, hk⟩ 97) := by rw [← ofFn_set]
  rw [hl, hseq, e1]
  refine ⟨_, rfl, ?_⟩
  rw [he]
  exact ⟨e3, rfl, fun _ => e2⟩

theorem getCoreTensor_ok (h1N : 1 ≤ N) (hN : N ≤ 18) {dims rk : Fin N → ℕ} {V : Tensor K} {W : List (Tensor K)}
    (hS : TuckShaped dims rk V W) :
    ∃ C, getCoreTensor V W (List.ofFn rk) = .ok C ∧ Canon C ∧ TValid dims rk (arr V N) (mats W) ∅ C := by
  have hlen : V.lens.length = N := by rw [hS.lensV]; simp
  obtain ⟨s, h1, h2, h3, h4⟩ := foldlM_range'_inv
    (P := fun k (s : Tensor K × List ℕ) => TValid dims rk (arr V N) (mats W) (univ.filter fun j : Fin N => k ≤ j.1) s.1 ∧
      s.2 = List.ofFn (klens dims rk (univ.filter fun j : Fin N => k ≤ j.1)) ∧ (0 < k → Canon s.1))
    (f := coreStep (List.ofFn fun j : Fin N => (105 + (j.1 : ℤ) : Label)) W (List.ofFn rk)) (s := 0) (n := N)
    (a := (V, V.lens)) (by
      have hk : (univ.filter fun j : Fin N => 0 ≤ j.1) = univ := by ext j; simp
      rw [hk]
      refine ⟨TValid.input _ hS.lensV, ?_, fun h => absurd h (by omega)⟩
      simp only
      rw [hS.lensV]
      congr 1
      funext j
      simp [klens])
    (fun k s _ hk h => coreStep_ok hN hS (by omega) h)
  rw [← List.range_eq_range'] at h1
  have hk : (univ.filter fun j : Fin N => 0 + N ≤ j.1) = ∅ := by
    ext j; simp
  rw [hk] at h2
  refine ⟨s.1, ?_, h4 (by omega), h2⟩
  unfold getCoreTensor
  rw [hlen, tmapM_chr hN]
  simp only [bind, Except.bind, pure, Except.pure]
  rw [h1]

/-- Two multi-mode products of the same data are equal tensors. -/
theorem TValid.unique {dims rk : Fin N → ℕ} {V : (Fin N → ℕ) → K} {W : Fin N → ℕ → ℕ → K} {keep : Finset (Fin N)}
    {A B : Tensor K} (hA : TValid dims rk V W keep A) (hB : TValid dims rk V W keep B) (cA : Canon A) (cB : Canon B) :
    A = B := by
  refine Tensor.ext_canon cA cB (hA.1.trans hB.1.symm) ?_
  intro idx hidx
  rw [hA.1] at hidx
  have hl := fits_length hidx
  simp only [List.length_ofFn] at hl
  have hz : idx = List.ofFn fun j : Fin N => idx[j.1]'(by omega) := by
    apply List.ext_getElem
    · simp [hl]
    · intro k _ _; simp
  have hb : ∀ j : Fin N, idx[j.1]'(by omega) < klens dims rk keep j := by
    intro j
    have := (fits_iff_getElem.1 hidx).2 j.1 (by simp) (by omega)
    simpa using this
  rw [hz]
  exact (hA.2 _ hb).trans (hB.2 _ hb).symm

/-! ### orders above 10 -/

theorem ttmc_abort (hN : 11 ≤ N) (hN2 : N ≤ 256) {dims rk : Fin N → ℕ} {V : Tensor K} {W : List (Tensor K)}
    (hS : TuckShaped dims rk V W) (i : ℤ) (Y0 : Tensor K)
    (h : rk ⟨if i = 0 then 1 else 0, by split <;> omega⟩ ≠ dims ⟨10, by omega⟩) :
    ttmc Y0 V W i = .error .abort := by
  have hlen : V.lens.length = N := by rw [hS.lensV]; simp
  -- the first processed mode
  have key : ∀ j : Fin N, j.1 ≠ 10 → (j.1 : ℤ) ≠ i → rk j ≠ dims ⟨10, by omega⟩ →
      ttmcStep N W i (V, Y0, V.lens) j.1 = .error .abort := by
    intro j hj hi hne
    obtain ⟨Wj, r1, _, r2, _⟩ := tmats_get hS j
    unfold ttmcStep
    rw [if_neg hi]
    simp only [bind, Except.bind, pure, Except.pure]
    rw [r1]
    simp only
    have hk : letter 10 = lk := by rw [letter_eq (by omega)]; rfl
    rw [einsum_abort (l := lk) (m := rk j) (n := dims ⟨10, by omega⟩) (by simp [hS.lensV, allLetters_length])
      (by
        intro o ho
        simp only [List.mem_cons, List.not_mem_nil, or_false] at ho
        rcases ho with rfl | rfl
        · simp [hS.lensV, allLetters_length]
        · simp [r2]) hne ?_ ?_]
    · apply List.mem_append_right
      simp [opTable, r2]
    · apply List.mem_append_right
      simp only [List.flatMap_cons, opTable, List.mem_append]
      left
      rw [List.mem_iff_getElem]
      refine ⟨10, by simp [hS.lensV, allLetters_length]; omega, ?_⟩
      rw [List.getElem_zip]
      simp [hS.lensV, allLetters, hk]
  unfold ttmc
  rw [hlen]
  simp only [bind, Except.bind, pure, Except.pure]
  obtain ⟨n, rfl⟩ : ∃ n, N = n + 2 := ⟨N - 2, by omega⟩
  have hr : List.range (n + 2) = 0 :: 1 :: List.range' 2 n := by
    rw [List.range_eq_range', List.range'_succ, List.range'_succ]
  rw [hr, List.foldlM_cons]
  by_cases hi : i = 0
  · subst hi
    have e : ttmcStep (n + 2) W 0 (V, Y0, V.lens) 0 = .ok (V, Y0, V.lens) := by
      unfold ttmcStep; rw [if_pos (by simp)]; rfl
    simp only [bind, Except.bind]
    rw [e]
    simp only [List.foldlM_cons, bind, Except.bind]
    have := key ⟨1, by omega⟩ (by simp) (by simp) (by simpa using h)
    simp only at this
    rw [this]
  · have := key ⟨0, by omega⟩ (by simp) (by simpa using Ne.symm hi) (by simpa [hi] using h)
    simp only [bind, Except.bind]
    simp only at this
    rw [this]

end Model
