import Verif.Model.RoundPP
import Verif.Proofs.RoundTuckerPP
import Verif.Proofs.RoundSteps
import Verif.Proofs.PPUpdate
import Verif.Spec.RoundPP

/-! Rounding errors of the CP pairwise-perturbation operators and right-hand sides. -/

namespace Model

open Finset Function

variable {N B : ℕ} {u : ℝ} {P : Arith} {dims : Fin N → ℕ} {R : ℕ} {V : Tensor ℝ} {W : List (Tensor ℝ)}

theorem abs_mttkrp_le (dims : Fin N → ℕ) (V : (Fin N → ℕ) → ℝ) (W : Fin N → ℕ → ℕ → ℝ) (i : Fin N) (x r : ℕ) :
    |Spec.mttkrp dims V W i x r| ≤ Spec.mttkrp dims (Spec.absArr V) (Spec.absMats W) i x r := by
  unfold Spec.mttkrp
  refine (abs_sum_le_sum_abs _ _).trans (le_of_eq (sum_congr rfl fun idx _ => ?_))
  rw [abs_mul, Finset.abs_prod]
  rfl

/-- A CP operator with rounding errors: one contraction for each mode of `ks`. -/
def PPNear (u : ℝ) (dims : Fin N → ℕ) (R : ℕ) (V : Tensor ℝ) (W : List (Tensor ℝ)) (ks : List (Fin N)) (T : Tensor ℝ) : Prop :=
  Near ((1 + u) ^ ks.length) dims R (arr V N) (mats W) T (compl ks)

theorem ppFromRootR_ok (hP : RoundOk B u P) (hu : 0 ≤ u) (hB : 1 ≤ B) (hN : N ≤ 31) (hd : ∀ j, dims j ≤ B) (hR : R ≤ B) (same : Bool)
    (hS : Shaped dims R V W) (m : Fin N) :
    ∃ T, ppFromRootR P same N V W ([m].map (idLab hN).lab) = .ok T ∧ PPNear u dims R V W [m] T := by
  have hs : [m].Sublist (List.finRange N) := List.singleton_sublist.2 (List.mem_finRange m)
  obtain ⟨Wm, h1, _, h2, h3⟩ := mats_get hS m
  obtain ⟨T, hT, hv⟩ := near_contract_init hP hu hB (idLab hN) hd hR (W := mats W) hS.lensV h2 h3.symm
    (ms' := compl [m]) (by ext x; simp [mem_compl'])
  refine ⟨T, ?_, by unfold PPNear; simpa using hv⟩
  unfold ppFromRootR
  simp only [bind, Except.bind]
  rw [stringbuilder_ok hN hs, stringbuilder0_ok hN]
  have e1 : rd ([m].map (idLab hN).lab) 0 = .ok (letter m.1) := rfl
  have e2 : lensInit V W ((compl [m]).map (idLab hN).lab ++ [star]) = .ok ((compl [m]).map dims ++ [R]) :=
    lensInit_ok hN hS (by have := m.2; omega) _
  simp only [e1]
  rw [e2]
  simp only
  rw [decode_letter (by omega), h1]
  simp only
  rw [allLetters_eq hN, ← List.ofFn_eq_map]
  exact hT

theorem ppFromParentR_ok (hP : RoundOk B u P) (hu : 0 ≤ u) (hB : 1 ≤ B) (hN : N ≤ 31) (hd : ∀ j, dims j ≤ B) (hR : R ≤ B)
    (hS : Shaped dims R V W) (ks : List (Fin N)) (m : Fin N) (hs : (ks ++ [m]).Sublist (List.finRange N)) (Tp : Tensor ℝ)
    (hp : PPNear u dims R V W ks Tp) :
    ∃ T, ppFromParentR P N V W ((ks ++ [m]).map (idLab hN).lab) Tp = .ok T ∧ PPNear u dims R V W (ks ++ [m]) T := by
  have hnd : (ks ++ [m]).Nodup := hs.nodup (List.nodup_finRange N)
  have hm : m ∉ ks := by
    rw [List.nodup_append] at hnd
    exact fun h => hnd.2.2 m h m (by simp) rfl
  obtain ⟨Wm, h1, _, h2, h3⟩ := mats_get hS m
  obtain ⟨T, hT, hv⟩ := near_contract hP hu hB (idLab hN) hd hR (one_le_pow₀ (by linarith)) hp h2 h3.symm (j := m) (mem_compl'.2 hm)
    (ms' := compl (ks ++ [m])) (by ext x; simp [mem_compl']; tauto)
  refine ⟨T, ?_, by unfold PPNear; rw [List.length_append, List.length_singleton, pow_succ]; exact hv⟩
  unfold ppFromParentR
  have hdl : ((ks ++ [m]).map (idLab hN).lab).dropLast = ks.map (idLab hN).lab := by
    rw [List.map_append, List.map_cons, List.map_nil, List.dropLast_concat]
  simp only [bind, Except.bind]
  rw [hdl, stringbuilder_ok hN hs, stringbuilder_ok hN ((List.sublist_append_left _ _).trans hs)]
  have e1 : rd ((ks ++ [m]).map (idLab hN).lab) ((((ks ++ [m]).map (idLab hN).lab).length : ℤ) - 1) = .ok (letter m.1) := by
    rw [show ((((ks ++ [m]).map (idLab hN).lab).length : ℤ) - 1) = ((ks.length : ℕ) : ℤ) by simp]
    apply rd_of
    simp [idLab]
  have e2 : lensInit V W ((compl (ks ++ [m])).map (idLab hN).lab ++ [star]) =
      .ok ((compl (ks ++ [m])).map dims ++ [R]) := lensInit_ok hN hS (by have := m.2; omega) _
  simp only [e1]
  rw [e2]
  simp only
  rw [decode_letter (by omega), h1]
  exact hT

/-- The operators are those of `V` and `Winit`, up to rounding. -/
def PPOpsNear (u : ℝ) (dims : Fin N → ℕ) (R : ℕ) (V : Tensor ℝ) (Winit : List (Tensor ℝ)) (ops : Cache ℝ) : Prop :=
  (∀ i : Fin N, ∃ T, ops.lookup (exceptOne (allLetters N) i.1) = some T ∧ PPNear u dims R V Winit (ex1 i) T) ∧
    ∀ i j : Fin N, i < j → ∃ T, ops.lookup (exceptTwo (allLetters N) i.1 j.1) = some T ∧ PPNear u dims R V Winit (ex2 i j) T

theorem ppOperatorsR_ok (hP : RoundOk B u P) (hu : 0 ≤ u) (hB : 1 ≤ B) (h3 : 3 ≤ N) (h9 : N ≤ 9) (hd : ∀ j, dims j ≤ B) (hR : R ≤ B)
    (same : Bool) (hS : Shaped dims R V W) :
    ∃ ops, ppOperatorsR P same N V W = .ok ops ∧ PPOpsNear u dims R V W ops :=
  buildAll_ok h3 h9 (fun m => ppFromRootR_ok hP hu hB (by omega) hd hR same hS m)
    (fun ks m hs _ Tp hp => ppFromParentR_ok hP hu hB (by omega) hd hR hS ks m hs Tp hp)

theorem ppAccumR_ok (hP : RoundOk B u P) (hu : 0 ≤ u) (hB : 1 ≤ B) (hd : ∀ j, dims j ≤ B) (hR : R ≤ B) {V : (Fin N → ℕ) → ℝ}
    {W : Fin N → ℕ → ℕ → ℝ} (L : Labelling N) {i j : Fin N} {T dWj M : Tensor ℝ} {ms : List (Fin N)} {c0 c : ℝ}
    (hij : i ≠ j) (hc0 : 1 ≤ c0) (hc : c0 * (1 + u) ≤ c)
    (hT : Near c0 dims R V W T ms) (hms : ms = [i, j] ∨ ms = [j, i]) (hl : dWj.lens = [dims j, R]) (hM : M.lens = [dims i, R])
    {ME MA : Tensor ℝ} (hME : Canon ME) (hMA : Canon MA) (hrel : RelT c ME MA M) :
    ∃ M' ME' MA', accumR P M [L.lab i, L.rk] [(T, ms.map L.lab ++ [L.rk]), (dWj, [L.lab j, L.rk])] = .ok M' ∧
      M'.lens = [dims i, R] ∧ Canon ME' ∧ Canon MA' ∧ RelT (c * (1 + u)) ME' MA' M' ∧
      ∀ x < dims i, ∀ r < R,
        mat ME' x r = mat ME x r + Spec.mttkrp dims V (update W j (mat dWj)) i x r ∧
        mat MA' x r = mat MA x r + Spec.mttkrp dims (Spec.absArr V) (Spec.absMats (update W j (mat dWj))) i x r := by
  have hT' : Near c0 dims R V (update W j (mat dWj)) T ms := hT.congr (by
    intro k hk
    rw [update_of_ne]
    rintro rfl
    rcases hms with rfl | rfl <;> simp at hk)
  obtain ⟨D, h1, h2⟩ := near_contract hP hu hB L hd hR hc0 hT' hl (by simp) (j := j) (ms' := [i])
    (by rcases hms with rfl | rfl <;> simp) (by
      ext m
      rcases hms with rfl | rfl <;> simp <;> grind)
  obtain ⟨E, A, k1, k2, v1, v2, v3⟩ := h2.mono hc
  obtain ⟨e1, e2⟩ := valid_single v1
  obtain ⟨a1, a2⟩ := valid_single v2
  have hMEl : ME.lens = [dims i, R] := by rw [hrel.1, hM]
  have hMAl : MA.lens = [dims i, R] := by rw [hrel.2.1, hM]
  obtain ⟨ME', z1, z2, z3, z4⟩ := zipT_ok (fun a b : ℝ => a + b) (A := ME) (B := E) (by rw [hMEl, e1])
  obtain ⟨MA', y1, y2, y3, y4⟩ := zipT_ok (fun a b : ℝ => a + b) (A := MA) (B := A) (by rw [hMAl, a1])
  have hc1 : 1 ≤ c := le_trans (by nlinarith) hc
  obtain ⟨M', g1, g2⟩ := zp_rel hP hu signedSum_add hc1 hrel v3 z1 y1
  refine ⟨M', ME', MA', ?_, ?_, z2, y2, g2, fun x hx r hr => ⟨?_, ?_⟩⟩
  · unfold accumR
    simp only [bind, Except.bind]
    rw [hM]
    have h1' : P.ev [dims i, R] [L.lab i, L.rk] [(T, ms.map L.lab ++ [L.rk]), (dWj, [L.lab j, L.rk])] = .ok D := h1
    rw [h1']
    exact g1
  · rw [← g2.1, z3, hMEl]
  · have := z4 [x, r] (by rw [hMEl]; exact fits_two.2 ⟨hx, hr⟩)
    rw [← e2 x hx r hr]
    exact this
  · have := y4 [x, r] (by rw [hMAl]; exact fits_two.2 ⟨hx, hr⟩)
    rw [← a2 x hx r hr]
    exact this

/-- The right-hand side approximates `E` with bound `A`. -/
def RhsNear (c : ℝ) (dims : Fin N → ℕ) (R : ℕ) (i : Fin N) (E A : ℕ → ℕ → ℝ) (M : Tensor ℝ) : Prop :=
  M.lens = [dims i, R] ∧ ∃ ME MA, Canon ME ∧ Canon MA ∧ RelT c ME MA M ∧ ∀ x < dims i, ∀ r < R, mat ME x r = E x r ∧ mat MA x r = A x r

theorem ppContribR_ok (hP : RoundOk B u P) (hu : 0 ≤ u) (hB : 1 ≤ B) (hd : ∀ j, dims j ≤ B) (hR : R ≤ B)
    {Winit dW : List (Tensor ℝ)} {ops : Cache ℝ} (ho : PPOpsNear u dims R V Winit ops) (hD : Shaped dims R V dW) {i j : Fin N}
    (hij : i ≠ j) {M : Tensor ℝ} {c : ℝ} (hc : (1 + u) ^ (N - 1) ≤ c) {E A : ℕ → ℕ → ℝ} (hM : RhsNear c dims R i E A M) :
    ∃ M', ppContribR P N ops dW i.1 M j.1 = .ok M' ∧ RhsNear (c * (1 + u)) dims R i
      (fun x r => E x r + Spec.mttkrp dims (arr V N) (update (mats Winit) j (mats dW j)) i x r)
      (fun x r => A x r + Spec.mttkrp dims (Spec.absArr (arr V N)) (Spec.absMats (update (mats Winit) j (mats dW j))) i x r) M' := by
  obtain ⟨Dj, d1, _, d2, d3⟩ := mats_get hD j
  obtain ⟨hMl, ME, MA, c1, c2, c3, c4⟩ := hM
  have hi := i.2
  have hj := j.2
  have hne : i.1 ≠ j.1 := fun e => hij (Fin.ext e)
  have hcc : (1 + u) ^ (N - 2) * (1 + u) ≤ c := by
    rw [← pow_succ, show N - 2 + 1 = N - 1 by omega]; exact hc
  unfold ppContribR
  simp only [bind, Except.bind]
  rw [d1]
  simp only
  by_cases h : j.1 < i.1
  · rw [if_pos h]
    have hlt : j < i := h
    obtain ⟨T, t1, t2⟩ := ho.2 j i hlt
    rw [t1]
    simp only
    unfold PPNear at t2
    rw [compl_ex2 hlt, ex2_length hlt] at t2
    have hL1 : (pairLab j i hij.symm).lab j = li := by simp [pairLab]
    have hL2 : (pairLab j i hij.symm).lab i = lj := by simp [pairLab, hij]
    obtain ⟨M', ME', MA', b1, b2, b3, b4, b5, b6⟩ := ppAccumR_ok hP hu hB hd hR (pairLab j i hij.symm) hij (one_le_pow₀ (by linarith)) hcc t2
      (.inr rfl) d2 hMl c1 c2 c3
    refine ⟨M', by simpa only [List.map_cons, List.map_nil, hL1, hL2, pairLab_rk, List.cons_append, List.nil_append] using b1,
      b2, ME', MA', b3, b4, b5, fun x hx r hr => ?_⟩
    have := b6 x hx r hr
    rw [(c4 x hx r hr).1, (c4 x hx r hr).2, ← d3] at this
    exact this
  · rw [if_neg h]
    have hlt : i < j := lt_of_le_of_ne (not_lt.1 h) hij
    obtain ⟨T, t1, t2⟩ := ho.2 i j hlt
    rw [t1]
    simp only
    unfold PPNear at t2
    rw [compl_ex2 hlt, ex2_length hlt] at t2
    have hL1 : (pairLab i j hij).lab i = li := by simp [pairLab]
    have hL2 : (pairLab i j hij).lab j = lj := by simp [pairLab, hij.symm]
    obtain ⟨M', ME', MA', b1, b2, b3, b4, b5, b6⟩ := ppAccumR_ok hP hu hB hd hR (pairLab i j hij) hij (one_le_pow₀ (by linarith)) hcc t2
      (.inl rfl) d2 hMl c1 c2 c3
    refine ⟨M', by simpa only [List.map_cons, List.map_nil, hL1, hL2, pairLab_rk, List.cons_append, List.nil_append] using b1,
      b2, ME', MA', b3, b4, b5, fun x hx r hr => ?_⟩
    have := b6 x hx r hr
    rw [(c4 x hx r hr).1, (c4 x hx r hr).2, ← d3] at this
    exact this

theorem absMats_update (W dW : Fin N → ℕ → ℕ → ℝ) (j : Fin N) :
    Spec.absMats (update W j (dW j)) = update (Spec.absMats W) j (Spec.absMats dW j) := by
  funext m x r
  unfold Spec.absMats
  by_cases e : m = j
  · subst e; rw [update_self, update_self]
  · rw [update_of_ne e, update_of_ne e]

theorem ppMR_ok (hP : RoundOk B u P) (hu : 0 ≤ u) (hB : 1 ≤ B) (hd : ∀ j, dims j ≤ B) (hR : R ≤ B)
    {Winit dW : List (Tensor ℝ)} {ops : Cache ℝ} (ho : PPOpsNear u dims R V Winit ops) (hD : Shaped dims R V dW) (i : Fin N) :
    ∃ M, ppMR P N ops dW i.1 = .ok M ∧ RhsNear ((1 + u) ^ (2 * (N - 1))) dims R i
      (Spec.ppMttkrp dims (arr V N) (mats Winit) (mats dW) i)
      (Spec.ppMttkrp dims (Spec.absArr (arr V N)) (Spec.absMats (mats Winit)) (Spec.absMats (mats dW)) i) M := by
  obtain ⟨M0, h1, h2⟩ := ho.1 i
  unfold PPNear at h2
  rw [compl_ex1, ex1_length] at h2
  have h2l := h2.lens
  obtain ⟨E0, A0, k1, k2, v1, v2, v3⟩ := h2
  obtain ⟨e1, e2⟩ := valid_single v1
  obtain ⟨a1, a2⟩ := valid_single v2
  obtain ⟨M, m1, m2⟩ := foldlM_inv (f := ppContribR P N ops dW i.1)
    (P := fun done (M : Tensor ℝ) => RhsNear ((1 + u) ^ (N - 1 + done.length)) dims R i
      (fun x r => Spec.mttkrp dims (arr V N) (mats Winit) i x r + (done.map fun n => if h : n < N then
        Spec.mttkrp dims (arr V N) (update (mats Winit) ⟨n, h⟩ (mats dW ⟨n, h⟩)) i x r else 0).sum)
      (fun x r => Spec.mttkrp dims (Spec.absArr (arr V N)) (Spec.absMats (mats Winit)) i x r + (done.map fun n => if h : n < N then
        Spec.mttkrp dims (Spec.absArr (arr V N)) (Spec.absMats (update (mats Winit) ⟨n, h⟩ (mats dW ⟨n, h⟩))) i x r else 0).sum) M)
    (List.range i.1 ++ List.range' (i.1 + 1) (N - (i.1 + 1))) [] M0
    ⟨by simpa using h2l, E0, A0, k1, k2, v3, fun x hx r hr => by
      rw [e2 x hx r hr, a2 x hx r hr]; simp⟩
    (by
      rintro done n M hn - hM
      have hi := i.2
      rw [List.mem_append, List.mem_range, List.mem_range'_1] at hn
      have hnN : n < N := by omega
      obtain ⟨M', b1, b2⟩ := ppContribR_ok hP hu hB hd hR ho hD (i := i) (j := ⟨n, hnN⟩)
        (fun e => by have := congrArg Fin.val e; simp at this; omega) (c := (1 + u) ^ (N - 1 + done.length))
        (pow_le_pow_right₀ (by linarith) (by omega)) hM
      refine ⟨M', b1, ?_⟩
      rw [← pow_succ] at b2
      obtain ⟨q1, ME, MA, q2, q3, q4, q5⟩ := b2
      refine ⟨q1, ME, MA, q2, q3, by rw [List.length_append]; exact q4, fun x hx r hr => ?_⟩
      rw [(q5 x hx r hr).1, (q5 x hx r hr).2]
      beta_reduce
      rw [List.map_append, List.sum_append, List.map_append, List.sum_append]
      simp [hnN, add_assoc])
  refine ⟨M, ?_, ?_⟩
  · unfold ppMR
    simp only [h1]
    exact m1
  · obtain ⟨q1, ME, MA, q2, q3, q4, q5⟩ := m2
    have hlen : N - 1 + (List.range i.1 ++ List.range' (i.1 + 1) (N - (i.1 + 1))).length = 2 * (N - 1) := by
      have hi := i.2
      simp only [List.length_append, List.length_range, List.length_range']
      omega
    rw [List.nil_append, hlen] at q4
    refine ⟨q1, ME, MA, q2, q3, q4, fun x hx r hr => ?_⟩
    rw [(q5 x hx r hr).1, (q5 x hx r hr).2]
    beta_reduce
    rw [List.nil_append,
      sum_others i fun j => Spec.mttkrp dims (arr V N) (update (mats Winit) j (mats dW j)) i x r,
      sum_others i fun j => Spec.mttkrp dims (Spec.absArr (arr V N)) (Spec.absMats (update (mats Winit) j (mats dW j))) i x r]
    simp only [absMats_update]
    exact ⟨rfl, rfl⟩

/-- The state of the phase as functions. -/
noncomputable def ppPhase (N : ℕ) (s : PPState ℝ) : Spec.PPPhase N := ⟨mats s.W, mats s.G, mats s.dW⟩

theorem ppUpdateR_ok (hP : RoundOk B u P) (hu : 0 ≤ u) (hB : 1 ≤ B) (h3 : 3 ≤ N) (hd : ∀ j, dims j ≤ B) (hR : R ≤ B)
    {Winit : List (Tensor ℝ)} {ops : Cache ℝ} (ho : PPOpsNear u dims R V Winit ops) (hW0 : Shaped dims R V Winit)
    {s : PPState ℝ} (hs : PPShaped dims R V s) (lam : ℝ) (solve : Spec.Solver ℝ) (i : Fin N) :
    ∃ s', ppUpdateR P N R lam solve ops Winit s i.1 = .ok s' ∧ PPShaped dims R V s' ∧
      Spec.RoundedPP dims R lam solve (arr V N) (mats Winit) ((1 + u) ^ (2 * (N - 1)) - 1) ((1 + u) ^ N - 1) ((1 + u) ^ (2 * N - 1) - 1) u
        i (ppPhase N s) (ppPhase N s') := by
  obtain ⟨M, m1, m2, ME, MA, m3, m4, m5, m6⟩ := ppMR_ok hP hu hB hd hR ho hs.dW i
  obtain ⟨SE, SA, S, s1, s2, s3, s4, s5, s6, s7, s8⟩ := gramSR_ok hP hu hB (by omega) hd hR hs.W lam i (index := swapIdx N i.1)
    (fun m => mem_swapIdx i.2) (swapIdx_nodup i.1)
  have h1 : (1 : ℝ) ≤ 1 + u := by linarith
  have hM' := m5
  rw [show 2 * (N - 1) = 2 * N - 3 + 1 by omega, pow_succ] at hM'
  obtain ⟨f', a1, a2, a3, a4, g, a5, a6, a7⟩ := modeTailR_ok hP hu hB hd hR (f := ⟨s.W, s.G⟩) hs.W hs.G solve i (one_le_pow₀ h1) m2 hM'
    s2 s4 s3 (s8.mono (pow_le_pow_right₀ h1 (by omega)))
  simp only at a4 a5 a7
  have hMz : mat M = Spec.clip (dims i) R (mat M) := by
    funext x r
    unfold Spec.clip
    split_ifs with h
    · rfl
    · have := (m5.2.2 [x, r]).2
      rw [show ME.val [x, r] = 0 from canon_zero m3 (by rw [m5.1, m2]) h, show MA.val [x, r] = 0 from canon_zero m4 (by rw [m5.2.1, m2]) h] at this
      simpa [mat] using this
  have hSz : mat S = Spec.clip R R (mat S) := by
    funext x r
    unfold Spec.clip
    split_ifs with h
    · rfl
    · have := (s8.2.2 [x, r]).2
      rw [show SE.val [x, r] = 0 from canon_zero s2 s4 h, show SA.val [x, r] = 0 from canon_zero s3 s5 h] at this
      simpa [mat] using this
  obtain ⟨Wi, w1, _, w2, w3⟩ := mats_get a2 i
  obtain ⟨W0, v1, _, v2, v3⟩ := mats_get hW0 i
  obtain ⟨D0, z1, z2, z3, z4⟩ := zipT_ok (fun a b : ℝ => a - b) (A := Wi) (B := W0) (by rw [w2, v2])
  obtain ⟨D, y1, y2, y3⟩ := hP.zp_ok (f := fun a b : ℝ => a - b) ⟨1, -1, by simp, by simp, fun a b => by ring⟩ z1
  have hDl : D.lens = [dims i, R] := by rw [y2, z3, w2]
  refine ⟨⟨f'.W, f'.G, s.dW.set i.1 D⟩, ?_, ⟨a2, a3, hs.dW.set i hDl⟩, mat M, mat S, g, mat D, ?_, ?_, ?_, ?_, ?_, ?_, ?_⟩
  · unfold ppUpdateR
    simp only [bind, Except.bind]
    rw [m1]
    simp only
    rw [s1]
    simp only
    rw [a1]
    simp only
    rw [w1]
    simp only
    rw [v1]
    simp only
    rw [y1]
    rfl
  · intro x hx r hr
    have := (m5.2.2 [x, r]).2
    rw [show ME.val [x, r] = _ from (m6 x hx r hr).1, show MA.val [x, r] = _ from (m6 x hx r hr).2] at this
    exact this
  · intro a ha b hb
    have := (s8.2.2 [a, b]).2
    rw [show SE.val [a, b] = _ from congrFun (congrFun s6 a) b, show SA.val [a, b] = _ from congrFun (congrFun s7 a) b] at this
    exact this
  · intro x hx r hr
    have := a7 x hx r hr
    rw [← pow_add, show 2 * N - 3 + 2 = 2 * N - 1 by omega, s6, s7, (m6 x hx r hr).1, (m6 x hx r hr).2] at this
    exact this
  · change (mats f'.W : Fin N → ℕ → ℕ → ℝ) = _
    rw [a4, ← hMz, ← hSz]
    rfl
  · change (mats f'.G : Fin N → ℕ → ℕ → ℝ) = _
    rw [a5]
    congr 1
    funext x r
    unfold Spec.clip
    split_ifs with h
    · rfl
    · exact a6 x r h
  · exact mats_set hs.dW.count i D
  · intro x hx r hr
    have h := y3 [x, r]
    rw [z4 [x, r] (by rw [w2]; exact fits_two.2 ⟨hx, hr⟩)] at h
    change |mat D x r - (mats f'.W i x r - mats Winit i x r)| ≤ u * |mats f'.W i x r - mats Winit i x r|
    rw [w3, v3]
    exact h

theorem RoundedPPRun.snoc {lam : ℝ} {solve : Spec.Solver ℝ} {A : (Fin N → ℕ) → ℝ} {W0 : Fin N → ℕ → ℕ → ℝ} {a b c d : ℝ} {l : List (Fin N)}
    {i : Fin N} {st st' st'' : Spec.PPPhase N} (h : Spec.RoundedPPRun dims R lam solve A W0 a b c d l st st')
    (h' : Spec.RoundedPP dims R lam solve A W0 a b c d i st' st'') : Spec.RoundedPPRun dims R lam solve A W0 a b c d (l ++ [i]) st st'' := by
  induction h with
  | nil st => exact .cons h' (.nil _)
  | cons h1 _ ih => exact .cons h1 (ih h')

theorem ppUpdatesR_ok (hP : RoundOk B u P) (hu : 0 ≤ u) (hB : 1 ≤ B) (h3 : 3 ≤ N) (hd : ∀ j, dims j ≤ B) (hR : R ≤ B)
    {Winit : List (Tensor ℝ)} {ops : Cache ℝ} (ho : PPOpsNear u dims R V Winit ops) (hW0 : Shaped dims R V Winit)
    {s : PPState ℝ} (hs : PPShaped dims R V s) (lam : ℝ) (solve : Spec.Solver ℝ) :
    ∃ s', ppUpdatesR P N R lam solve ops Winit s = .ok s' ∧ PPShaped dims R V s' ∧
      Spec.RoundedPPRun dims R lam solve (arr V N) (mats Winit) ((1 + u) ^ (2 * (N - 1)) - 1) ((1 + u) ^ N - 1) ((1 + u) ^ (2 * N - 1) - 1) u
        (List.finRange N) (ppPhase N s) (ppPhase N s') := by
  obtain ⟨s', h1, h2, l, h4, h5⟩ := foldlM_inv (f := ppUpdateR P N R lam solve ops Winit)
    (P := fun done (s' : PPState ℝ) => PPShaped dims R V s' ∧ ∃ l : List (Fin N), l.map Fin.val = done ∧
      Spec.RoundedPPRun dims R lam solve (arr V N) (mats Winit) ((1 + u) ^ (2 * (N - 1)) - 1) ((1 + u) ^ N - 1) ((1 + u) ^ (2 * N - 1) - 1) u
        l (ppPhase N s) (ppPhase N s')) (List.range N) [] s ⟨hs, [], rfl, .nil _⟩ (by
      rintro done n t hn - ⟨g1, l, g2, g3⟩
      rw [List.mem_range] at hn
      obtain ⟨t', b1, b2, b3⟩ := ppUpdateR_ok hP hu hB h3 hd hR ho hW0 g1 lam solve ⟨n, hn⟩
      exact ⟨t', b1, b2, l ++ [⟨n, hn⟩], by simp [g2], RoundedPPRun.snoc g3 b3⟩)
  refine ⟨s', h1, h2, ?_⟩
  have : l = List.finRange N := by
    apply List.map_injective_iff.2 Fin.val_injective
    rw [h4]
    simp
  rw [this] at h5
  exact h5

end Model

namespace Spec

open Finset Function

variable {N : ℕ} {dims : Fin N → ℕ} {R : ℕ}

theorem mttkrp_update_le {V : (Fin N → ℕ) → ℝ} {W : Fin N → ℕ → ℕ → ℝ} {A B : ℕ → ℕ → ℝ} {k : ℝ} {i j : Fin N} (hij : j ≠ i) {r : ℕ}
    (h : ∀ y < dims j, |A y r| ≤ k * |B y r|) (x : ℕ) :
    |mttkrp dims V (update W j A) i x r| ≤ k * mttkrp dims (absArr V) (update (absMats W) j fun y r => |B y r|) i x r := by
  unfold mttkrp
  rw [mul_sum]
  refine (abs_sum_le_sum_abs _ _).trans (sum_le_sum fun idx hidx => ?_)
  have hj : j ∈ univ.erase i := mem_erase.2 ⟨hij, mem_univ j⟩
  have hb := mem_Box.1 (mem_filter.1 hidx).1 j
  have hp : ∀ (C : ℕ → ℕ → ℝ) (U : Fin N → ℕ → ℕ → ℝ), ∏ m ∈ univ.erase i, update U j C m (idx m) r =
      C (idx j) r * ∏ m ∈ (univ.erase i).erase j, U m (idx m) r := by
    intro C U
    rw [← mul_prod_erase _ _ hj, update_self]
    congr 1
    refine prod_congr rfl fun m hm => ?_
    rw [update_of_ne (ne_of_mem_erase hm)]
  rw [hp, hp, abs_mul, abs_mul, Finset.abs_prod]
  have h0 : 0 ≤ ∏ m ∈ (univ.erase i).erase j, |W m (idx m) r| := prod_nonneg fun _ _ => abs_nonneg _
  change |V idx| * (|A (idx j) r| * ∏ m ∈ (univ.erase i).erase j, |W m (idx m) r|) ≤
    k * (|V idx| * (|B (idx j) r| * ∏ m ∈ (univ.erase i).erase j, |W m (idx m) r|))
  calc _ ≤ |V idx| * ((k * |B (idx j) r|) * ∏ m ∈ (univ.erase i).erase j, |W m (idx m) r|) :=
        mul_le_mul_of_nonneg_left (mul_le_mul_of_nonneg_right (h _ hb) h0) (abs_nonneg _)
    _ = _ := by ring

theorem mttkrp_update_sub {V : (Fin N → ℕ) → ℝ} {W : Fin N → ℕ → ℕ → ℝ} {A B : ℕ → ℕ → ℝ} {i j : Fin N} (hij : j ≠ i) (x r : ℕ) :
    mttkrp dims V (update W j A) i x r - mttkrp dims V (update W j B) i x r = mttkrp dims V (update W j fun y r => A y r - B y r) i x r := by
  unfold mttkrp
  rw [← sum_sub_distrib]
  refine sum_congr rfl fun idx _ => ?_
  have hj : j ∈ univ.erase i := mem_erase.2 ⟨hij, mem_univ j⟩
  have hp : ∀ (C : ℕ → ℕ → ℝ), ∏ m ∈ univ.erase i, update W j C m (idx m) r =
      C (idx j) r * ∏ m ∈ (univ.erase i).erase j, W m (idx m) r := by
    intro C
    rw [← mul_prod_erase _ _ hj, update_self]
    congr 1
    refine prod_congr rfl fun m hm => ?_
    rw [update_of_ne (ne_of_mem_erase hm)]
  rw [hp, hp, hp]
  ring

/-- With displacements known up to a relative error, the first-order expression is known up to that error. -/
theorem pp_tracks {V : (Fin N → ℕ) → ℝ} {W0 dW D : Fin N → ℕ → ℕ → ℝ} {c cD v : ℝ} (hc : 1 ≤ c) (hD : 0 ≤ cD) {i : Fin N} {x r : ℕ}
    (ht : ∀ j, ∀ y < dims j, |dW j y r - D j y r| ≤ cD * |D j y r|)
    (hv : |v - ppMttkrp dims V W0 dW i x r| ≤ (c - 1) * ppMttkrp dims (absArr V) (absMats W0) (absMats dW) i x r) :
    |v - ppMttkrp dims V W0 D i x r| ≤ (c * (1 + cD) - 1) * ppMttkrp dims (absArr V) (absMats W0) (absMats D) i x r := by
  have h1 : |ppMttkrp dims V W0 dW i x r - ppMttkrp dims V W0 D i x r| ≤
      cD * ∑ j ∈ univ.erase i, mttkrp dims (absArr V) (update (absMats W0) j (absMats D j)) i x r := by
    unfold ppMttkrp
    rw [add_sub_add_left_eq_sub, ← sum_sub_distrib, mul_sum]
    refine (abs_sum_le_sum_abs _ _).trans (sum_le_sum fun j hj => ?_)
    rw [mttkrp_update_sub (ne_of_mem_erase hj)]
    exact mttkrp_update_le (ne_of_mem_erase hj) (fun y hy => ht j y hy) x
  have h2 : ∑ j ∈ univ.erase i, mttkrp dims (absArr V) (update (absMats W0) j (absMats dW j)) i x r ≤
      (1 + cD) * ∑ j ∈ univ.erase i, mttkrp dims (absArr V) (update (absMats W0) j (absMats D j)) i x r := by
    rw [mul_sum]
    refine sum_le_sum fun j hj => ?_
    have h := mttkrp_update_le (dims := dims) (V := absArr V) (W := absMats W0) (A := absMats dW j) (B := D j) (k := 1 + cD)
      (ne_of_mem_erase hj) (r := r) (fun y hy => by
        have := ht j y hy
        have h3 : |dW j y r| ≤ |dW j y r - D j y r| + |D j y r| := by
          simpa using abs_add_le (dW j y r - D j y r) (D j y r)
        unfold absMats
        rw [abs_abs]
        linarith) x
    have e1 : absArr (absArr V) = absArr V := by funext z; exact abs_abs _
    have e2 : absMats (absMats W0) = absMats W0 := by funext m y s; exact abs_abs _
    rw [e1, e2] at h
    exact (le_abs_self _).trans h
  have h0 : 0 ≤ mttkrp dims (absArr V) (absMats W0) i x r :=
    sum_nonneg fun idx _ => mul_nonneg (abs_nonneg _) (prod_nonneg fun _ _ => abs_nonneg _)
  have hs0 : 0 ≤ ∑ j ∈ univ.erase i, mttkrp dims (absArr V) (update (absMats W0) j (absMats D j)) i x r := by
    refine sum_nonneg fun j _ => sum_nonneg fun idx _ => mul_nonneg (abs_nonneg _) (prod_nonneg fun m _ => ?_)
    by_cases e : m = j
    · subst e; rw [update_self]; exact abs_nonneg _
    · rw [update_of_ne e]; exact abs_nonneg _
  have htri := abs_add_le (v - ppMttkrp dims V W0 dW i x r) (ppMttkrp dims V W0 dW i x r - ppMttkrp dims V W0 D i x r)
  rw [sub_add_sub_cancel] at htri
  have hA : ppMttkrp dims (absArr V) (absMats W0) (absMats dW) i x r = mttkrp dims (absArr V) (absMats W0) i x r +
    ∑ j ∈ univ.erase i, mttkrp dims (absArr V) (update (absMats W0) j (absMats dW j)) i x r := rfl
  have hB : ppMttkrp dims (absArr V) (absMats W0) (absMats D) i x r = mttkrp dims (absArr V) (absMats W0) i x r +
    ∑ j ∈ univ.erase i, mttkrp dims (absArr V) (update (absMats W0) j (absMats D j)) i x r := rfl
  rw [hA] at hv
  rw [hB]
  generalize mttkrp dims (absArr V) (absMats W0) i x r = m0 at *
  generalize ∑ j ∈ univ.erase i, mttkrp dims (absArr V) (update (absMats W0) j (absMats dW j)) i x r = s1 at *
  generalize ∑ j ∈ univ.erase i, mttkrp dims (absArr V) (update (absMats W0) j (absMats D j)) i x r = s0 at *
  have h3 : (c - 1) * (m0 + s1) ≤ (c - 1) * (m0 + (1 + cD) * s0) := mul_le_mul_of_nonneg_left (by linarith) (by linarith)
  have h4 : 0 ≤ c * cD * m0 := mul_nonneg (mul_nonneg (by linarith) hD) h0
  nlinarith

theorem RoundedPP.tracks {lam : ℝ} {solve : Solver ℝ} {V : (Fin N → ℕ) → ℝ} {W0 : Fin N → ℕ → ℕ → ℝ} {a b c cD : ℝ} {i : Fin N}
    {st st' : PPPhase N} (h : RoundedPP dims R lam solve V W0 a b c cD i st st') (ht : Tracks dims R W0 cD st) : Tracks dims R W0 cD st' := by
  obtain ⟨M, S, g, d, _, _, _, h4, _, h6, h7⟩ := h
  intro j y hy r hr
  by_cases e : j = i
  · subst e
    rw [h6, update_self]
    exact h7 y hy r hr
  · have e1 : st'.W j = st.W j := by rw [h4, update_of_ne e]
    rw [h6, update_of_ne e, e1]
    exact ht j y hy r hr

end Spec
