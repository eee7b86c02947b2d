import Verif.Proofs.RoundTuckerRun

/-! Rounding errors of the Tucker pairwise-perturbation operators and right-hand sides. -/

namespace Model

open Finset Function

variable {N : ℕ}

theorem abs_multiTTM_le (dims : Fin N → ℕ) (V : (Fin N → ℕ) → ℝ) (W : Fin N → ℕ → ℕ → ℝ) (keep : Finset (Fin N)) (z : Fin N → ℕ) :
    |Spec.multiTTM dims V W keep z| ≤ Spec.multiTTM dims (Spec.absArr V) (Spec.absMats W) keep z := by
  unfold Spec.multiTTM
  refine (abs_sum_le_sum_abs _ _).trans (le_of_eq (sum_congr rfl fun idx _ => ?_))
  rw [abs_mul, Finset.abs_prod]
  rfl

section

variable {b : ℕ} {u : ℝ} {P : Arith} {dims rk : Fin N → ℕ} {V : Tensor ℝ} {W : List (Tensor ℝ)}

/-- A Tucker operator with rounding errors. -/
def TPPNear (u : ℝ) (dims rk : Fin N → ℕ) (V : Tensor ℝ) (W : List (Tensor ℝ)) (ks : List (Fin N)) (T : Tensor ℝ) : Prop :=
  TNear (accU u (univ.filter (· ∉ ks))) dims rk (arr V N) (Spec.absArr (arr V N)) (mats W) (univ.filter (· ∉ ks)) T

theorem ttmNodeR_ok (hP : RoundOk (b * b) u P) (hu : 0 ≤ u) (hb : 1 ≤ b) (hd : ∀ j, dims j ≤ b) (hr : ∀ j, rk j ≤ b) (hN : N ≤ 31)
    (hS : TuckShaped dims rk V W) {ks : List (Fin N)} {m : Fin N} (hm : m ∉ ks) {T : Tensor ℝ} (hT : TPPNear u dims rk V W ks T) :
    ∃ T', ttmNodeR P N W ((ks ++ [m]).map (idLab hN).lab) T = .ok T' ∧ TPPNear u dims rk V W (ks ++ [m]) T' := by
  obtain ⟨Wc, r1, r2, r3⟩ := tdecode_rd hN hS m.2
  have hmem : m ∈ univ.filter fun x => x ∉ ks := by simp [hm]
  have hTl := hT.lens
  obtain ⟨T', e1, e3⟩ := TNear.step hP hu hb hd hr (accU_one hu _) hT (letter_injective (by omega)) (s := star) (tletter_ne_star hN) (j := m)
    hmem r2 r3
  rw [accU_erase u hmem] at e3
  have hk : (univ.filter fun x => x ∉ ks).erase m = univ.filter fun x => x ∉ ks ++ [m] := by
    ext x; simp; tauto
  refine ⟨T', ?_, by unfold TPPNear; rw [← hk]; exact e3⟩
  have hc : rd ((ks ++ [m]).map (idLab hN).lab) ((((ks ++ [m]).map (idLab hN).lab).length : ℤ) - 1) = .ok (letter m.1) := by
    have : ((((ks ++ [m]).map (idLab hN).lab).length : ℤ) - 1) = (ks.length : ℕ) := by simp
    rw [this, rd_ok (by simp)]
    simp [idLab]
  unfold ttmNodeR
  simp only [bind, Except.bind]
  rw [hc]
  simp only
  have hm2 := m.2
  rw [if_neg (letter_range (by omega) hm2), r1]
  simp only
  rw [toNat_letter (by omega)]
  have hl : T.lens.set m.1 (ncol Wc) = List.ofFn (klens dims rk ((univ.filter fun x => x ∉ ks).erase m)) := by
    rw [hTl, ncol_of r2, ← klens_update, ← ofFn_set]
  have hseq : (allLetters N).set m.1 star = List.ofFn (update (fun j : Fin N => letter j.1) m star) := by
    rw [allLetters_ofFn, ← ofFn_set]
  rw [hl, hseq, allLetters_ofFn]
  exact e1

/-- The operators are those of `V` and `Winit`, up to rounding. -/
def TPPOpsNear (u : ℝ) (dims rk : Fin N → ℕ) (V : Tensor ℝ) (Winit : List (Tensor ℝ)) (ops : Cache ℝ) : Prop :=
  (∀ i : Fin N, ∃ T, ops.lookup (exceptOne (allLetters N) i.1) = some T ∧ TPPNear u dims rk V Winit (ex1 i) T) ∧
    ∀ i j : Fin N, i < j → ∃ T, ops.lookup (exceptTwo (allLetters N) i.1 j.1) = some T ∧ TPPNear u dims rk V Winit (ex2 i j) T

theorem tuckOperatorsR_ok (hP : RoundOk (b * b) u P) (hu : 0 ≤ u) (hb : 1 ≤ b) (hd : ∀ j, dims j ≤ b) (hr : ∀ j, rk j ≤ b)
    (h3 : 3 ≤ N) (h9 : N ≤ 9) (hS : TuckShaped dims rk V W) :
    ∃ ops, tuckOperatorsR P N V W = .ok ops ∧ TPPOpsNear u dims rk V W ops :=
  buildAll_ok h3 h9 (fun m => by
    have h : TPPNear u dims rk V W [] V := by
      have e : (univ : Finset (Fin N)) = univ.filter (· ∉ ([] : List (Fin N))) := by simp
      unfold TPPNear
      rw [← e, accU_univ]
      exact TNear.input _ hS.lensV (RelT.exact V)
    exact ttmNodeR_ok hP hu hb hd hr (by omega) hS (ks := []) (m := m) (by simp) h)
    (fun ks m hs _ Tp hp => by
      have hnd : (ks ++ [m]).Nodup := hs.nodup (List.nodup_finRange N)
      refine ttmNodeR_ok hP hu hb hd hr (by omega) hS ?_ hp
      intro h
      rw [List.nodup_append] at hnd
      exact hnd.2.2 m h m (by simp) rfl)

/-- `v` approximates `E` with factor `c` relative to `A`. -/
def RelV (c E A v : ℝ) : Prop := |E| ≤ A ∧ |v - E| ≤ (c - 1) * A

theorem RelV.mono {c c' E A v : ℝ} (h : RelV c E A v) (hc : c ≤ c') : RelV c' E A v :=
  ⟨h.1, h.2.trans (mul_le_mul_of_nonneg_right (by linarith) ((abs_nonneg _).trans h.1))⟩

theorem tuckPPContribR_ok (hP : RoundOk (b * b) u P) (hu : 0 ≤ u) (hb : 1 ≤ b) (hd : ∀ j, dims j ≤ b) (hr : ∀ j, rk j ≤ b) (hN : N ≤ 31)
    {Winit dW : List (Tensor ℝ)} {ops : Cache ℝ}
    (ho : TPPOpsNear u dims rk V Winit ops) (hD : TuckShaped dims rk V dW) {i j : Fin N} (hij : i ≠ j) {Y : Tensor ℝ}
    (hY : Y.lens = List.ofFn (klens dims rk {i})) {c : ℝ} (hc : (1 + u) ^ (N - 1) ≤ c) :
    ∃ Y', tuckPPContribR P N ops dW i.1 Y j.1 = .ok Y' ∧ Y'.lens = List.ofFn (klens dims rk {i}) ∧
      ∀ z : Fin N → ℕ, (∀ m, z m < klens dims rk {i} m) → ∀ E A : ℝ, RelV c E A (arr Y N z) →
        RelV ((1 + u) * c) (E + Spec.multiTTM dims (arr V N) (update (mats Winit) j (mats dW j)) {i} z)
          (A + Spec.multiTTM dims (Spec.absArr (arr V N)) (Spec.absMats (update (mats Winit) j (mats dW j))) {i} z) (arr Y' N z) := by
  obtain ⟨Dj, d1, _, d2, d3⟩ := tmats_get hD j
  have hcard : accU u ({i, j} : Finset (Fin N)) * (1 + u) = accU u (({i, j} : Finset (Fin N)).erase j) := accU_erase u (by simp)
  have hk : ({i, j} : Finset (Fin N)).erase j = {i} := by
    ext m; simp only [mem_erase, mem_insert, mem_singleton]
    constructor
    · rintro ⟨a, b | b⟩
      · exact b
      · exact absurd b a
    · rintro rfl; exact ⟨hij, .inl rfl⟩
  obtain ⟨T, t1, t2⟩ : ∃ T, ops.lookup (if j.1 < i.1 then exceptTwo (allLetters N) j.1 i.1 else exceptTwo (allLetters N) i.1 j.1)
      = some T ∧ TNear (accU u {i, j}) dims rk (arr V N) (Spec.absArr (arr V N)) (mats Winit) {i, j} T := by
    by_cases h : j.1 < i.1
    · rw [if_pos h]
      obtain ⟨T, a, b⟩ := ho.2 j i h
      refine ⟨T, a, ?_⟩
      unfold TPPNear at b
      rwa [keep_ex2 h, Finset.pair_comm] at b
    · rw [if_neg h]
      have hlt : i < j := lt_of_le_of_ne (not_lt.1 h) hij
      obtain ⟨T, a, b⟩ := ho.2 i j hlt
      refine ⟨T, a, ?_⟩
      unfold TPPNear at b
      rwa [keep_ex2 hlt] at b
  have t3 : TNear (accU u {i, j}) dims rk (arr V N) (Spec.absArr (arr V N)) (update (mats Winit) j (mats dW j)) {i, j} T := t2.congr (by
    intro m hm x _ r _
    rw [update_of_ne]
    rintro rfl
    simp at hm)
  obtain ⟨E, e1, e3⟩ := t3.step hP hu hb hd hr (accU_one hu _) (letter_injective (by omega)) (s := star) (tletter_ne_star hN) (j := j) (by simp) d2
    (by rw [update_self, d3])
  rw [hcard, hk] at e3
  rw [hk] at e1
  have hEl := e3.lens
  have hz : zipT (fun a b : ℝ => a + b) Y E = .ok ⟨Y.lens, fun idx => if fits Y.lens idx = true then Y.val idx + E.val idx else 0⟩ := by
    unfold zipT
    rw [if_pos (by rw [hY, hEl])]
  obtain ⟨Y', y1, y2, y3⟩ := hP.zp_ok (f := fun a b => a + b) ⟨1, 1, by simp, by simp, fun a b => by ring⟩ hz
  refine ⟨Y', ?_, by rw [y2]; exact hY, ?_⟩
  · unfold tuckPPContribR
    simp only [bind, Except.bind]
    rw [d1]
    simp only
    rw [t1]
    simp only [accumR, bind, Except.bind]
    have hseq : (allLetters N).set j.1 star = List.ofFn (update (fun j : Fin N => letter j.1) j star) := by
      rw [allLetters_ofFn, ← ofFn_set]
    rw [hY, hseq, allLetters_ofFn, e1]
    exact y1
  · intro z hzk E0 A0 hrel
    have h1 := y3 (List.ofFn z)
    simp only at h1
    rw [if_pos (by rw [hY, fits_ofFn]; exact hzk)] at h1
    have h2 := e3.val hzk
    have habs := abs_multiTTM_le dims (arr V N) (update (mats Winit) j (mats dW j)) {i} z
    have hci : accU u ({i} : Finset (Fin N)) ≤ c := by
      have : accU u ({i} : Finset (Fin N)) = (1 + u) ^ (N - 1) := by simp [accU]
      rw [this]; exact hc
    have hc1 : 1 ≤ c := (accU_one hu _).trans hci
    refine ⟨(abs_add_le _ _).trans (add_le_add hrel.1 habs), ?_⟩
    exact Spec.add_rel hu hc1 hrel.1 habs hrel.2
      (h2.trans (mul_le_mul_of_nonneg_right (by linarith) ((abs_nonneg _).trans habs))) h1

theorem tuckPPYR_ok (hP : RoundOk (b * b) u P) (hu : 0 ≤ u) (hb : 1 ≤ b) (hd : ∀ j, dims j ≤ b) (hr : ∀ j, rk j ≤ b) (hN : N ≤ 31)
    {Winit dW : List (Tensor ℝ)} {ops : Cache ℝ} (ho : TPPOpsNear u dims rk V Winit ops) (hD : TuckShaped dims rk V dW) (i : Fin N) :
    ∃ Y, tuckPPYR P N ops dW i.1 = .ok Y ∧ Y.lens = List.ofFn (klens dims rk {i}) ∧
      ∀ z : Fin N → ℕ, (∀ m, z m < klens dims rk {i} m) →
        |arr Y N z - Spec.ppTTM dims (arr V N) (mats Winit) (mats dW) i z| ≤ ((1 + u) ^ (2 * (N - 1)) - 1) *
          Spec.ppTTM dims (Spec.absArr (arr V N)) (Spec.absMats (mats Winit)) (Spec.absMats (mats dW)) i z := by
  obtain ⟨Y0, h1, h3⟩ := ho.1 i
  unfold TPPNear at h3
  rw [keep_ex1] at h3
  have hacc : accU u ({i} : Finset (Fin N)) = (1 + u) ^ (N - 1) := by simp [accU]
  obtain ⟨Y, m1, m2, m4⟩ := foldlM_inv (f := tuckPPContribR P N ops dW i.1)
    (P := fun done (Y : Tensor ℝ) => Y.lens = List.ofFn (klens dims rk {i}) ∧
      ∀ z : Fin N → ℕ, (∀ m, z m < klens dims rk {i} m) → RelV ((1 + u) ^ (N - 1 + done.length))
        (Spec.multiTTM dims (arr V N) (mats Winit) {i} z + (done.map fun n => if h : n < N then
          Spec.multiTTM dims (arr V N) (update (mats Winit) ⟨n, h⟩ (mats dW ⟨n, h⟩)) {i} z else 0).sum)
        (Spec.multiTTM dims (Spec.absArr (arr V N)) (Spec.absMats (mats Winit)) {i} z + (done.map fun n => if h : n < N then
          Spec.multiTTM dims (Spec.absArr (arr V N)) (Spec.absMats (update (mats Winit) ⟨n, h⟩ (mats dW ⟨n, h⟩))) {i} z else 0).sum)
        (arr Y N z))
    (List.range i.1 ++ List.range' (i.1 + 1) (N - (i.1 + 1))) [] Y0
    ⟨h3.lens, fun z hz => by
      simp only [List.map_nil, List.sum_nil, add_zero, List.length_nil]
      rw [← hacc]
      exact ⟨abs_multiTTM_le _ _ _ _ _, h3.val hz⟩⟩
    (by
      rintro done j Y hj - ⟨g2, g3⟩
      simp only [List.mem_append, List.mem_range, List.mem_range'_1] at hj
      have hi := i.2
      obtain ⟨Y', a, c, d⟩ := tuckPPContribR_ok hP hu hb hd hr hN ho hD (i := i) (j := ⟨j, by omega⟩)
        (fun e => by have := congrArg Fin.val e; simp at this; omega) g2 (c := (1 + u) ^ (N - 1 + done.length))
        (pow_le_pow_right₀ (by linarith) (by omega))
      refine ⟨Y', a, c, fun z hz => ?_⟩
      have := d z hz _ _ (g3 z hz)
      rw [mul_comm (1 + u), ← pow_succ] at this
      rw [List.map_append, List.sum_append, List.map_append, List.sum_append, List.length_append]
      simp only [List.map_cons, List.map_nil, List.sum_cons, List.sum_nil, add_zero, List.length_cons, List.length_nil, zero_add]
      rw [dif_pos (show j < N by omega), dif_pos (show j < N by omega), ← add_assoc, ← add_assoc, ← add_assoc]
      exact this)
  refine ⟨Y, ?_, m2, fun z hz => ?_⟩
  · unfold tuckPPYR
    rw [h1]
    exact m1
  · have := (m4 z hz).2
    rw [List.nil_append, sum_others i fun j => Spec.multiTTM dims (arr V N) (update (mats Winit) j (mats dW j)) {i} z,
      sum_others i fun j => Spec.multiTTM dims (Spec.absArr (arr V N)) (Spec.absMats (update (mats Winit) j (mats dW j))) {i} z] at this
    have hlen : N - 1 + (List.range i.1 ++ List.range' (i.1 + 1) (N - (i.1 + 1))).length = 2 * (N - 1) := by
      have hi := i.2
      simp only [List.length_append, List.length_range, List.length_range']
      omega
    rw [hlen] at this
    have hupd : ∀ j : Fin N, Spec.absMats (update (mats Winit) j (mats dW j)) =
        update (Spec.absMats (mats Winit)) j (Spec.absMats (mats dW) j) := by
      intro j
      funext m x r
      unfold Spec.absMats
      by_cases e : m = j
      · subst e; rw [update_self, update_self]
      · rw [update_of_ne e, update_of_ne e]
    simp only [hupd] at this
    exact this

end

end Model
