import Verif.Proofs.RoundDT

/-! Rounding errors of the normal-equation matrix, the gradient and the mode update. -/

namespace Model

open Finset

variable {N : ℕ}

theorem RelT.absVal {c : ℝ} {E A T : Tensor ℝ} (h : RelT c E A T) (idx : List ℕ) : |E.val idx| ≤ A.val idx := (h.2.2 idx).1

/-- Elementwise `±a ± b`. -/
theorem zp_rel {B : ℕ} {u : ℝ} {P : Arith} (hP : RoundOk B u P) (hu : 0 ≤ u) {f : ℝ → ℝ → ℝ} (hf : SignedSum f) {c : ℝ} (hc : 1 ≤ c)
    {E1 A1 T1 E2 A2 T2 E A : Tensor ℝ} (h1 : RelT c E1 A1 T1) (h2 : RelT c E2 A2 T2) (hE : zipT f E1 E2 = .ok E)
    (hA : zipT (· + ·) A1 A2 = .ok A) : ∃ T, P.zp f T1 T2 = .ok T ∧ RelT (c * (1 + u)) E A T := by
  have hl : T1.lens = T2.lens := by
    rw [← h1.1, ← h2.1]
    unfold zipT at hE
    split_ifs at hE with h
    exact h
  have hz : zipT f T1 T2 = .ok ⟨T1.lens, fun idx => if fits T1.lens idx = true then f (T1.val idx) (T2.val idx) else 0⟩ := by
    unfold zipT; rw [if_pos hl]
  have hE' : E = ⟨T1.lens, fun idx => if fits T1.lens idx = true then f (E1.val idx) (E2.val idx) else 0⟩ := by
    unfold zipT at hE
    rw [if_pos (by rw [h1.1, h2.1, hl])] at hE
    rw [← Except.ok.inj hE, h1.1]
  have hA' : A = ⟨T1.lens, fun idx => if fits T1.lens idx = true then A1.val idx + A2.val idx else 0⟩ := by
    unfold zipT at hA
    rw [if_pos (by rw [h1.2.1, h2.2.1, hl])] at hA
    rw [← Except.ok.inj hA, h1.2.1]
  obtain ⟨T, t1, t2, t3⟩ := hP.zp_ok hf hz
  refine ⟨T, t1, by rw [hE', t2], by rw [hA', t2], fun idx => ?_⟩
  have t3 := t3 idx
  rw [hE', hA']
  simp only at t3 ⊢
  by_cases hfit : fits T1.lens idx = true
  · rw [if_pos hfit] at t3
    rw [if_pos hfit, if_pos hfit]
    obtain ⟨s, t, hs, ht, hst⟩ := hf
    obtain ⟨a1, a2⟩ := h1.2.2 idx
    obtain ⟨b1, b2⟩ := h2.2.2 idx
    rw [hst] at t3 ⊢
    have g1 : |s * E1.val idx| ≤ A1.val idx := by rw [abs_mul, hs, one_mul]; exact a1
    have g2 : |t * E2.val idx| ≤ A2.val idx := by rw [abs_mul, ht, one_mul]; exact b1
    refine ⟨(abs_add_le _ _).trans (add_le_add g1 g2), ?_⟩
    rw [mul_comm c]
    refine Spec.add_rel hu hc g1 g2 ?_ ?_ t3
    · rw [← mul_sub, abs_mul, hs, one_mul]; exact a2
    · rw [← mul_sub, abs_mul, ht, one_mul]; exact b2
  · rw [if_neg hfit] at t3
    rw [if_neg hfit, if_neg hfit]
    simpa using t3

theorem signedSum_add : SignedSum (· + ·) := ⟨1, 1, by simp, by simp, by simp⟩

theorem signedSum_neg_add : SignedSum fun a b => -a + b := ⟨-1, 1, by simp, by simp, by simp⟩

theorem index_length {i : Fin N} {index : List ℕ} (hmem : ∀ m, m ∈ index ↔ m < N ∧ m ≠ i.1) (hnd : index.Nodup) :
    index.length = N - 1 := by
  have h : index.toFinset = (range N).erase i.1 := by
    ext m
    simp only [List.mem_toFinset, hmem, Finset.mem_erase, Finset.mem_range]
    exact and_comm
  rw [← List.toFinset_card_of_nodup hnd, h, Finset.card_erase_of_mem (by simp), Finset.card_range]

theorem canon_zero {E : Tensor ℝ} {n R : ℕ} (hc : Canon E) (hl : E.lens = [n, R]) {x r : ℕ} (h : ¬ (x < n ∧ r < R)) : mat E x r = 0 := by
  apply hc
  rw [hl, Ne, fits_two]
  exact h

/-- One step of the Hadamard product of the Gram matrices. -/
theorem gram_rel {B : ℕ} {u : ℝ} {P : Arith} (hP : RoundOk B u P) (hu : 0 ≤ u) (hB : 1 ≤ B) {n R : ℕ} (hn : n ≤ B) (hR : R ≤ B)
    {Wm : Tensor ℝ} (hl : Wm.lens = [n, R]) {c : ℝ} (hc : 1 ≤ c) {E A T E' : Tensor ℝ} (h : RelT c E A T) (hEl : E.lens = [R, R])
    (hE : einsum [R, R] [li, lj] [(E, [li, lj]), (Wm, [lk, li]), (Wm, [lk, lj])] = .ok E') :
    ∃ A' T', einsum [R, R] [li, lj] [(A, [li, lj]), (absT Wm, [lk, li]), (absT Wm, [lk, lj])] = .ok A' ∧
      P.ev [R, R] [li, lj] [(T, [li, lj]), (Wm, [lk, li]), (Wm, [lk, lj])] = .ok T' ∧ RelT (c * (1 + u)) E' A' T' := by
  obtain ⟨A', T', b1, b2, b3⟩ := ev_rel hP hu (lens := [R, R]) (sc := [li, lj])
    (l := [⟨E, A, T, [li, lj], c⟩, ⟨Wm, absT Wm, Wm, [lk, li], 1⟩, ⟨Wm, absT Wm, Wm, [lk, lj], 1⟩]) (by simp) (by simp)
    (by
      intro q hq
      simp only [List.mem_cons, List.not_mem_nil, or_false] at hq
      rcases hq with rfl | rfl | rfl
      · exact ⟨hc, h⟩
      · exact ⟨le_rfl, RelT.exact Wm⟩
      · exact ⟨le_rfl, RelT.exact Wm⟩) hE (by
      apply nTerms_le hB lk
      · simp [hl, hEl]
      · intro o ho m hm
        simp only [List.map_cons, List.map_nil, List.mem_cons, List.not_mem_nil, or_false] at ho
        rcases ho with rfl | rfl | rfl
        · simp [hEl] at hm; omega
        · simp [hl] at hm; omega
        · simp [hl] at hm; omega)
  simp only [List.map_cons, List.map_nil, List.prod_cons, List.prod_nil, mul_one] at b1 b2 b3
  exact ⟨A', T', b1, b2, b3⟩

theorem gram_rel0 {B : ℕ} {u : ℝ} {P : Arith} (hP : RoundOk B u P) (hu : 0 ≤ u) (hB : 1 ≤ B) {n R : ℕ} (hn : n ≤ B) (hR : R ≤ B)
    {Wm : Tensor ℝ} (hl : Wm.lens = [n, R]) {E' : Tensor ℝ}
    (hE : einsum [R, R] [li, lj] [(Wm, [lk, li]), (Wm, [lk, lj])] = .ok E') :
    ∃ A' T', einsum [R, R] [li, lj] [(absT Wm, [lk, li]), (absT Wm, [lk, lj])] = .ok A' ∧
      P.ev [R, R] [li, lj] [(Wm, [lk, li]), (Wm, [lk, lj])] = .ok T' ∧ RelT (1 + u) E' A' T' := by
  obtain ⟨A', T', b1, b2, b3⟩ := ev_rel hP hu (lens := [R, R]) (sc := [li, lj])
    (l := [⟨Wm, absT Wm, Wm, [lk, li], 1⟩, ⟨Wm, absT Wm, Wm, [lk, lj], 1⟩]) (by simp) (by simp)
    (by
      intro q hq
      simp only [List.mem_cons, List.not_mem_nil, or_false] at hq
      rcases hq with rfl | rfl
      · exact ⟨le_rfl, RelT.exact Wm⟩
      · exact ⟨le_rfl, RelT.exact Wm⟩) hE (by
      apply nTerms_le hB lk
      · simp [hl]
      · intro o ho m hm
        simp only [List.map_cons, List.map_nil, List.mem_cons, List.not_mem_nil, or_false] at ho
        rcases ho with rfl | rfl
        · simp [hl] at hm; omega
        · simp [hl] at hm; omega)
  simp only [List.map_cons, List.map_nil, List.prod_cons, List.prod_nil, mul_one, one_mul] at b1 b2 b3
  exact ⟨A', T', b1, b2, b3⟩

theorem gramLoop_rel {B : ℕ} {u : ℝ} {P : Arith} (hP : RoundOk B u P) (hu : 0 ≤ u) (hB : 1 ≤ B) {dims : Fin N → ℕ} {R : ℕ}
    (hd : ∀ j, dims j ≤ B) (hR : R ≤ B) {V : Tensor ℝ} {W : List (Tensor ℝ)} (hS : Shaped dims R V W) (rest : List ℕ)
    (hrest : ∀ m ∈ rest, m < N) {c : ℝ} (hc : 1 ≤ c) {E A T : Tensor ℝ} (h : RelT c E A T) (hEl : E.lens = [R, R]) :
    ∃ E' A' T', rest.foldlM (fun S (m : ℕ) => do
        let Wm ← rd W m
        einsum [R, R] [li, lj] [(S, [li, lj]), (Wm, [lk, li]), (Wm, [lk, lj])]) E = .ok E' ∧
      rest.foldlM (fun S (m : ℕ) => do
        let Wm ← rd (W.map absT) m
        einsum [R, R] [li, lj] [(S, [li, lj]), (Wm, [lk, li]), (Wm, [lk, lj])]) A = .ok A' ∧
      rest.foldlM (fun S (m : ℕ) => do
        let Wm ← rd W m
        P.ev [R, R] [li, lj] [(S, [li, lj]), (Wm, [lk, li]), (Wm, [lk, lj])]) T = .ok T' ∧
      RelT (c * (1 + u) ^ rest.length) E' A' T' ∧ E'.lens = [R, R] := by
  induction rest generalizing c E A T with
  | nil => exact ⟨E, A, T, rfl, rfl, rfl, by simpa using h, hEl⟩
  | cons m rest ih =>
    obtain ⟨Wm, hr, hg, hl, he⟩ := mats_get hS ⟨m, hrest m (by simp)⟩
    have hr' : rd (W.map absT) (m : ℤ) = .ok (absT Wm) := rd_of (by rw [List.getElem?_map, hg]; rfl)
    obtain ⟨E1, e1, _, e3, _⟩ := einsum_had_gram hEl hl hl
    obtain ⟨A1, T1, a1, t1, r1⟩ := gram_rel hP hu hB (hd _) hR hl hc h hEl e1
    obtain ⟨E', A', T', g1, g2, g3, g4, g5⟩ := ih (fun m hm => hrest m (by simp [hm])) (by nlinarith) r1 e3
    simp only at hr
    refine ⟨E', A', T', ?_, ?_, ?_, ?_, g5⟩
    · rw [List.foldlM_cons]
      simp only [bind, Except.bind, hr, e1] at g1 ⊢
      exact g1
    · rw [List.foldlM_cons]
      simp only [bind, Except.bind, hr', a1] at g2 ⊢
      exact g2
    · rw [List.foldlM_cons]
      simp only [bind, Except.bind, hr, t1] at g3 ⊢
      exact g3
    · rw [List.length_cons, pow_succ', ← mul_assoc]; exact g4

theorem regul_abs (R : ℕ) (lam : ℝ) : absT (regul R lam) = regul R |lam| := by
  unfold absT regul
  congr 1
  funext idx
  exact apply_ite abs _ _ _ |>.trans (by rw [abs_zero])

/-- The matrix of the normal equations. -/
theorem gramSR_ok {B : ℕ} {u : ℝ} {P : Arith} (hP : RoundOk B u P) (hu : 0 ≤ u) (hB : 1 ≤ B) (h2 : 2 ≤ N) {dims : Fin N → ℕ} {R : ℕ}
    (hd : ∀ j, dims j ≤ B) (hR : R ≤ B) {V : Tensor ℝ} {W : List (Tensor ℝ)}
    (hS : Shaped dims R V W) (lam : ℝ) (i : Fin N) {index : List ℕ} (hmem : ∀ m, m ∈ index ↔ m < N ∧ m ≠ i.1)
    (hnd : index.Nodup) :
    ∃ E A S, gramSR P index R lam W = .ok S ∧ Canon E ∧ Canon A ∧ E.lens = [R, R] ∧ A.lens = [R, R] ∧
      mat E = Spec.normalMat dims R lam (mats W) i ∧ mat A = Spec.normalMat dims R |lam| (Spec.absMats (mats W)) i ∧
      RelT ((1 + u) ^ N) E A S := by
  obtain ⟨E, E1, E2, E3, E4⟩ := gramS_ok h2 hS lam i hmem hnd
  obtain ⟨A, A1, A2, A3, A4⟩ := gramS_ok h2 hS.abs |lam| i hmem hnd
  rw [mats_abs] at A4
  have hlen := index_length hmem hnd
  obtain ⟨m0, rest, hidx⟩ : ∃ m0 rest, index = m0 :: rest := by
    cases index with
    | nil => simp at hlen; omega
    | cons a l => exact ⟨a, l, rfl⟩
  have hlt : ∀ m ∈ index, m < N := fun m h => ((hmem m).1 h).1
  obtain ⟨W0, hr, hg, hl, he⟩ := mats_get hS ⟨m0, hlt m0 (by simp [hidx])⟩
  have hr' : rd (W.map absT) (m0 : ℤ) = .ok (absT W0) := rd_of (by rw [List.getElem?_map, hg]; rfl)
  obtain ⟨E0, e1, _, e3, _⟩ := einsum_gram hl hl
  obtain ⟨A0, T0, a1, t1, r1⟩ := gram_rel0 hP hu hB (hd _) hR hl e1
  obtain ⟨E', A', T', g1, g2, g3, g4, g5⟩ := gramLoop_rel hP hu hB hd hR hS rest (fun m hm => hlt m (by simp [hidx, hm])) (by linarith) r1 e3
  simp only at hr
  have hE : zipT (· + ·) E' (regul R lam) = .ok E := by
    rw [← E1, hidx]
    unfold gramS
    rw [show (0 : ℤ) = ((0 : ℕ) : ℤ) from rfl, rd_of (x := m0) rfl]
    simp only [bind, Except.bind, hr, e1, List.drop_one, List.tail_cons] at g1 ⊢
    rw [g1]
  have hA : zipT (· + ·) A' (absT (regul R lam)) = .ok A := by
    rw [← A1, hidx, regul_abs]
    unfold gramS
    rw [show (0 : ℤ) = ((0 : ℕ) : ℤ) from rfl, rd_of (x := m0) rfl]
    simp only [bind, Except.bind, hr', a1, List.drop_one, List.tail_cons] at g2 ⊢
    rw [g2]
  have h1 : (1 : ℝ) ≤ 1 + u := by linarith
  rw [← pow_succ', show rest.length + 1 = N - 1 by rw [← hlen, hidx]; rfl] at g4
  obtain ⟨S, s1, s2⟩ := zp_rel hP hu signedSum_add (one_le_pow₀ h1) g4
    ((RelT.exact (regul R lam)).mono (one_le_pow₀ h1 : (1 : ℝ) ≤ (1 + u) ^ (N - 1))) hE hA
  rw [← pow_succ, show N - 1 + 1 = N by omega] at s2
  refine ⟨E, A, S, ?_, E2, A2, E3, A3, E4, A4, s2⟩
  rw [hidx]
  unfold gramSR
  rw [show (0 : ℤ) = ((0 : ℕ) : ℤ) from rfl, rd_of (x := m0) rfl]
  simp only [bind, Except.bind, hr, t1, List.drop_one, List.tail_cons] at g3 ⊢
  rw [g3]
  exact s1

/-- The tail of the update of mode `i`, for a right-hand side that approximates `m` with bound `a`. -/
theorem modeTailR_ok {B : ℕ} {u : ℝ} {P : Arith} (hP : RoundOk B u P) (hu : 0 ≤ u) (hB : 1 ≤ B) {dims : Fin N → ℕ} {R : ℕ}
    (hd : ∀ j, dims j ≤ B) (hR : R ≤ B) {V : Tensor ℝ} {f : Fac ℝ} (hS : Shaped dims R V f.W) (hG : f.G.length = N)
    (solve : Spec.Solver ℝ) (i : Fin N) {M ME MA S SE SA : Tensor ℝ} {c : ℝ} (hc : 1 ≤ c) (hMl : M.lens = [dims i, R])
    (hM : RelT (c * (1 + u)) ME MA M) (hSE : Canon SE) (hSl : SE.lens = [R, R]) (hSA : Canon SA) (hS' : RelT c SE SA S) :
    ∃ f', modeTailR P solve f i M S = .ok f' ∧ Shaped dims R V f'.W ∧ f'.G.length = N ∧
      (mats f'.W : Fin N → ℕ → ℕ → ℝ) = Function.update (mats f.W) i (Spec.clip (dims i) R (solve (dims i) R (mat M) (mat S))) ∧
      ∃ g, (mats f'.G : Fin N → ℕ → ℕ → ℝ) = Function.update (mats f.G) i g ∧
        (∀ x r, ¬ (x < dims i ∧ r < R) → g x r = 0) ∧
        ∀ x < dims i, ∀ r < R, |g x r - (-(mat ME x r) + ∑ k ∈ range R, mats f.W i x k * mat SE k r)| ≤
          (c * (1 + u) ^ 2 - 1) * (mat MA x r + ∑ k ∈ range R, |mats f.W i x k| * mat SA k r) := by
  obtain ⟨Wi, hr, _, hl, he⟩ := mats_get hS i
  have hSAl : SA.lens = [R, R] := by rw [hS'.2.1, ← hS'.1]; exact hSl
  have hMEl : ME.lens = [dims i, R] := by rw [hM.1, hMl]
  have hMAl : MA.lens = [dims i, R] := by rw [hM.2.1, hMl]
  obtain ⟨TE, e1, e2, e3, e4⟩ := einsum_matmul hl hSl
  obtain ⟨TA, a1, a2, a3, a4⟩ := einsum_matmul (A := absT Wi) (B := SA) hl hSAl
  obtain ⟨A', T', b1, b2, b3⟩ := ev_rel hP hu (lens := [dims i, R]) (sc := [li, lj])
    (l := [⟨Wi, absT Wi, Wi, [li, lk], 1⟩, ⟨SE, SA, S, [lk, lj], c⟩]) (by simp) (by simp)
    (by
      intro q hq
      simp only [List.mem_cons, List.not_mem_nil, or_false] at hq
      rcases hq with rfl | rfl
      · exact ⟨le_rfl, RelT.exact Wi⟩
      · exact ⟨hc, hS'⟩) e1 (by
      apply nTerms_le hB lk
      · simp [hl, hSl]
      · intro o ho m hm
        simp only [List.map_cons, List.map_nil, List.mem_cons, List.not_mem_nil, or_false] at ho
        rcases ho with rfl | rfl
        · simp [hl] at hm
          rcases hm with rfl | rfl
          · exact hd i
          · exact hR
        · simp [hSl] at hm; omega)
  simp only [List.map_cons, List.map_nil, List.prod_cons, List.prod_nil, mul_one, one_mul] at b1 b2 b3
  rw [a1] at b1
  rw [← Except.ok.inj b1] at b3
  obtain ⟨GE, z1, z2, z3, z4⟩ := zipT_ok (fun a b : ℝ => -a + b) (A := ME) (B := TE) (by rw [hMEl, e3])
  obtain ⟨GA, y1, y2, y3, y4⟩ := zipT_ok (fun a b : ℝ => a + b) (A := MA) (B := TA) (by rw [hMAl, a3])
  obtain ⟨g, g1, g2⟩ := zp_rel hP hu signedSum_neg_add (by nlinarith) hM b3 z1 y1
  refine ⟨⟨f.W.set i.1 (solveT solve M S), f.G.set i.1 g⟩, ?_, ?_, by simp [hG], ?_, mat g, ?_, ?_, ?_⟩
  · unfold modeTailR
    simp only [bind, Except.bind]
    rw [hr]
    simp only [hMl, b2]
    rw [g1]
    rfl
  · exact hS.set i (by simp [solveT, nrow, ncol, hMl])
  · rw [mats_set hS.count, mat_solveT solve hMl]
  · exact mats_set hG i g
  · intro x r hxr
    have := (g2.2.2 [x, r]).2
    have h1 : GE.val [x, r] = 0 := canon_zero z2 (by rw [z3, hMEl]) hxr
    have h2 : GA.val [x, r] = 0 := canon_zero y2 (by rw [y3, hMAl]) hxr
    rw [h1, h2] at this
    simpa [mat] using this
  · intro x hx r hr
    have := (g2.2.2 [x, r]).2
    rw [z4 _ (by rw [hMEl]; exact fits_two.2 ⟨hx, hr⟩), y4 _ (by rw [hMAl]; exact fits_two.2 ⟨hx, hr⟩)] at this
    have t1 := e4 x hx r hr
    have t2 := a4 x hx r hr
    simp only [mat] at t1 t2 this ⊢
    rw [t1, t2] at this
    rw [he]
    rw [mul_assoc, ← pow_two] at this
    exact this

/-- The update of mode `i` from an approximate MTTKRP. -/
theorem updateModeR_ok {B : ℕ} {u : ℝ} {P : Arith} (hP : RoundOk B u P) (hu : 0 ≤ u) (hB : 1 ≤ B) (h2 : 2 ≤ N) {dims : Fin N → ℕ}
    {R : ℕ} (hd : ∀ j, dims j ≤ B) (hR : R ≤ B) {V : Tensor ℝ} {f : Fac ℝ} (hS : Shaped dims R V f.W) (hG : f.G.length = N) (lam : ℝ)
    (solve : Spec.Solver ℝ) (i : Fin N) {index : List ℕ} (hmem : ∀ m, m ∈ index ↔ m < N ∧ m ≠ i.1)
    (hnd : index.Nodup) {M E A : Tensor ℝ} {cM : ℝ} (hMc : cM ≤ (1 + u) ^ (N + 1)) (hMl : M.lens = [dims i, R])
    (hM : RelT cM E A M) (hE : Canon E) (hA : Canon A) :
    ∃ f', (do
        let S ← gramSR P index R lam f.W
        modeTailR P solve f i M S : Except Fault (Fac ℝ)) = .ok f' ∧ Shaped dims R V f'.W ∧ f'.G.length = N ∧
      ∃ S g : ℕ → ℕ → ℝ, (∀ a < R, ∀ b < R, |S a b - Spec.normalMat dims R lam (mats f.W) i a b| ≤
          ((1 + u) ^ N - 1) * Spec.normalMat dims R |lam| (Spec.absMats (mats f.W)) i a b) ∧
        (∀ x < dims i, ∀ r < R, |g x r - (-(mat E x r) + ∑ k ∈ range R, mats f.W i x k * Spec.normalMat dims R lam (mats f.W) i k r)| ≤
          ((1 + u) ^ (N + 2) - 1) * (mat A x r + ∑ k ∈ range R, |mats f.W i x k| * Spec.normalMat dims R |lam| (Spec.absMats (mats f.W)) i k r)) ∧
        (mats f'.W : Fin N → ℕ → ℕ → ℝ) = Function.update (mats f.W) i
          (Spec.clip (dims i) R (solve (dims i) R (Spec.clip (dims i) R (mat M)) (Spec.clip R R S))) ∧
        (mats f'.G : Fin N → ℕ → ℕ → ℝ) = Function.update (mats f.G) i (Spec.clip (dims i) R g) := by
  obtain ⟨SE, SA, S, s1, s2, s3, s4, s5, s6, s7, s8⟩ := gramSR_ok hP hu hB h2 hd hR hS lam i hmem hnd
  have h1 : (1 : ℝ) ≤ 1 + u := by linarith
  have hM' := hM.mono hMc
  rw [pow_succ] at hM'
  obtain ⟨f', a1, a2, a3, a4, g, a5, a6, a7⟩ := modeTailR_ok hP hu hB hd hR hS hG solve i (one_le_pow₀ h1) hMl hM' s2 s4 s3 s8
  have hMz : mat M = Spec.clip (dims i) R (mat M) := by
    funext x r
    unfold Spec.clip
    split_ifs with h
    · rfl
    · have := (hM.2.2 [x, r]).2
      rw [show E.val [x, r] = 0 from canon_zero hE (by rw [hM.1, hMl]) h, show A.val [x, r] = 0 from canon_zero hA (by rw [hM.2.1, hMl]) h] at this
      simpa [mat] using this
  have hSz : mat S = Spec.clip R R (mat S) := by
    funext x r
    unfold Spec.clip
    split_ifs with h
    · rfl
    · have := (s8.2.2 [x, r]).2
      rw [show SE.val [x, r] = 0 from canon_zero s2 s4 h, show SA.val [x, r] = 0 from canon_zero s3 s5 h] at this
      simpa [mat] using this
  refine ⟨f', ?_, a2, a3, mat S, g, ?_, ?_, ?_, ?_⟩
  · simp only [bind, Except.bind]
    rw [s1]
    exact a1
  · intro a ha b hb
    rw [← s6, ← s7]
    exact (s8.2.2 [a, b]).2
  · intro x hx r hr
    have := a7 x hx r hr
    rw [← pow_add, s6, s7] at this
    exact this
  · rw [a4, ← hMz, ← hSz]
  · rw [a5]
    congr 1
    funext x r
    unfold Spec.clip
    split_ifs with h
    · rfl
    · exact a6 x r h

end Model
