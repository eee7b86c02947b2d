import Verif.Proofs.TuckerSign
import Verif.Proofs.HooiSweep
import Verif.Proofs.PPUpdate
import Verif.Proofs.Build

/-! Tucker pairwise perturbation. -/

namespace Spec

open Finset

variable {K : Type*} {N : ℕ} [CommSemiring K] {dims : Fin N → ℕ} {V : (Fin N → ℕ) → K}

/-- The multi-mode product at displaced factors, expanded over the sets of displaced modes. -/
theorem multiTTM_displace (W dW : Fin N → ℕ → ℕ → K) (i : Fin N) (z : Fin N → ℕ) :
    multiTTM dims V (displace W dW) {i} z = ∑ S ∈ (univ.erase i).powerset, multiTTM dims V (mix W dW S) {i} z := by
  have hc : ({i} : Finset (Fin N))ᶜ = univ.erase i := by ext m; simp
  unfold multiTTM
  rw [hc, Finset.sum_comm]
  refine Finset.sum_congr rfl fun idx _ => ?_
  rw [← Finset.mul_sum]
  congr 1
  unfold displace
  simp_rw [add_comm (W _ _ _) (dW _ _ _)]
  rw [Finset.prod_add]
  refine Finset.sum_congr rfl fun S hS => ?_
  rw [Finset.mem_powerset] at hS
  rw [← Finset.prod_sdiff hS, mul_comm]
  congr 1
  · refine Finset.prod_congr rfl fun j hj => ?_
    rw [mix, if_neg (Finset.mem_sdiff.1 hj).2]
  · refine Finset.prod_congr rfl fun j hj => ?_
    rw [mix, if_pos hj]

theorem powerset_card_le_one (i : Fin N) : (univ.erase i).powerset.filter (fun S => S.card ≤ 1) =
    insert ∅ ((univ.erase i).image fun j => ({j} : Finset (Fin N))) := by
  haveI : Nonempty (Fin N) := ⟨i⟩
  ext S
  simp only [mem_filter, mem_powerset, mem_insert, mem_image, Finset.card_le_one_iff_subset_singleton]
  constructor
  · rintro ⟨h1, j, h2⟩
    rcases Finset.subset_singleton_iff.1 h2 with h | h
    · exact .inl h
    · exact .inr ⟨j, h1 (by simp [h]), h.symm⟩
  · rintro (rfl | ⟨j, hj, rfl⟩)
    · exact ⟨by simp, i, by simp⟩
    · exact ⟨by simpa using hj, j, Finset.Subset.refl _⟩

theorem ppTTM_eq (W dW : Fin N → ℕ → ℕ → K) (i : Fin N) (z : Fin N → ℕ) :
    ppTTM dims V W dW i z = ∑ S ∈ (univ.erase i).powerset with S.card ≤ 1, multiTTM dims V (mix W dW S) {i} z := by
  rw [powerset_card_le_one, Finset.sum_insert (by simp), Finset.sum_image (by intro a _ b _ h; simpa using h)]
  unfold ppTTM
  congr 1
  refine Finset.sum_congr rfl fun j _ => ?_
  rw [mix_singleton]

/-- The exact product is the pairwise-perturbation one plus the terms with two or more displaced modes. -/
theorem multiTTM_displace_eq (W dW : Fin N → ℕ → ℕ → K) (i : Fin N) (z : Fin N → ℕ) :
    multiTTM dims V (displace W dW) {i} z = ppTTM dims V W dW i z +
      ∑ S ∈ (univ.erase i).powerset with 2 ≤ S.card, multiTTM dims V (mix W dW S) {i} z := by
  rw [multiTTM_displace, ppTTM_eq, ← Finset.sum_filter_add_sum_filter_not _ (fun S : Finset (Fin N) => S.card ≤ 1)]
  congr 1
  refine Finset.sum_congr ?_ fun _ _ => rfl
  apply Finset.filter_congr
  intro S _
  omega

theorem multiTTM_zero {W : Fin N → ℕ → ℕ → K} {i j : Fin N} (hij : j ≠ i) {z : Fin N → ℕ} (h : ∀ y < dims j, W j y (z j) = 0) :
    multiTTM dims V W {i} z = 0 := by
  unfold multiTTM
  refine Finset.sum_eq_zero fun idx hidx => ?_
  rw [Finset.prod_eq_zero (i := j) (by simp [hij]) (h _ (mem_Box.1 (Finset.mem_filter.1 hidx).1 j)), mul_zero]

/-- If at most one of the other modes is displaced, pairwise perturbation is exact. -/
theorem ppTTM_exact {W dW : Fin N → ℕ → ℕ → K} {i j0 : Fin N} {z : Fin N → ℕ}
    (h : ∀ j, j ≠ i → j ≠ j0 → ∀ y < dims j, dW j y (z j) = 0) :
    multiTTM dims V (displace W dW) {i} z = ppTTM dims V W dW i z := by
  rw [multiTTM_displace_eq]
  rw [Finset.sum_eq_zero, add_zero]
  intro S hS
  simp only [mem_filter, mem_powerset] at hS
  obtain ⟨a, ha, b, hb, hab⟩ := Finset.one_lt_card.1 (show 1 < S.card by omega)
  obtain ⟨c, hc, hcj⟩ : ∃ c ∈ S, c ≠ j0 := by
    by_cases e : a = j0
    · exact ⟨b, hb, fun h => hab (e.trans h.symm)⟩
    · exact ⟨a, ha, e⟩
  have hci : c ≠ i := Finset.ne_of_mem_erase (hS.1 hc)
  refine multiTTM_zero hci (fun y hy => ?_)
  rw [mix, if_pos hc]
  exact h c hci hcj y hy

/-- Scaling the displacements by `t` scales the term of `S` by `t^|S|`. -/
theorem multiTTM_mix_scale (t : K) (W dW : Fin N → ℕ → ℕ → K) {i : Fin N} {S : Finset (Fin N)} (hS : S ⊆ univ.erase i)
    (z : Fin N → ℕ) :
    multiTTM dims V (mix W (fun j y r => t * dW j y r) S) {i} z = t ^ S.card * multiTTM dims V (mix W dW S) {i} z := by
  have hc : ({i} : Finset (Fin N))ᶜ = univ.erase i := by ext m; simp
  unfold multiTTM
  rw [hc, Finset.mul_sum]
  refine Finset.sum_congr rfl fun idx _ => ?_
  rw [← Finset.prod_sdiff hS, ← Finset.prod_sdiff hS]
  have h1 : ∏ j ∈ S, mix W (fun j y r => t * dW j y r) S j (idx j) (z j) = t ^ S.card * ∏ j ∈ S, mix W dW S j (idx j) (z j) := by
    rw [← Finset.prod_const, ← Finset.prod_mul_distrib]
    refine Finset.prod_congr rfl fun j hj => ?_
    simp [mix, hj]
  have h2 : ∏ j ∈ univ.erase i \ S, mix W (fun j y r => t * dW j y r) S j (idx j) (z j) =
      ∏ j ∈ univ.erase i \ S, mix W dW S j (idx j) (z j) := by
    refine Finset.prod_congr rfl fun j hj => ?_
    simp [mix, (Finset.mem_sdiff.1 hj).2]
  rw [h1, h2]
  ring

end Spec

namespace Model

open Finset Function

variable {K : Type} {N : ℕ} [CommRing K]

/-- A good Tucker operator: exact multi-mode product outside `ks`. -/
def TPPGood (dims rk : Fin N → ℕ) (V : Tensor K) (W : List (Tensor K)) (ks : List (Fin N)) (T : Tensor K) : Prop :=
  Canon T ∧ TValid dims rk (arr V N) (mats W) (univ.filter (· ∉ ks)) T

theorem ttmNode_ok (hN : N ≤ 31) {dims rk : Fin N → ℕ} {V : Tensor K} {W : List (Tensor K)} (hS : TuckShaped dims rk V W)
    {ks : List (Fin N)} {m : Fin N} (hm : m ∉ ks) {T : Tensor K}
    (hT : TValid dims rk (arr V N) (mats W) (univ.filter (· ∉ ks)) T) :
    ∃ T', ttmNode N W ((ks ++ [m]).map (idLab hN).lab) T = .ok T' ∧ TPPGood dims rk V W (ks ++ [m]) T' := by
  obtain ⟨Wc, r1, r2, r3⟩ := tdecode_rd hN hS m.2
  obtain ⟨T', e1, e2, e3⟩ := hT.step (letter_injective (by omega)) (s := star) (tletter_ne_star hN) (j := m)
    (by simp [hm]) r2 r3
  have hk : (univ.filter fun x => x ∉ ks).erase m = univ.filter fun x => x ∉ ks ++ [m] := by
    ext x; simp; tauto
  refine ⟨T', ?_, e2, hk ▸ e3⟩
  have hc : rd ((ks ++ [m]).map (idLab hN).lab) ((((ks ++ [m]).map (idLab hN).lab).length : ℤ) - 1) = .ok (letter m.1) := by
    have : ((((ks ++ [m]).map (idLab hN).lab).length : ℤ) - 1) = (ks.length : ℕ) := by simp
    rw [this, rd_ok (by simp)]
    simp [idLab]
  unfold ttmNode
  simp only [bind, Except.bind]
  rw [hc]
  simp only
  have hm2 := m.2
  rw [if_neg (letter_range (by omega) hm2), r1]
  simp only
  rw [toNat_letter (by omega)]
  have hl : T.lens.set m.1 (ncol Wc) = List.ofFn (klens dims rk ((univ.filter fun x => x ∉ ks).erase m)) := by
    rw [hT.1, ncol_of r2, ← klens_update, ← ofFn_set]
  have hseq : (allLetters N).set m.1 star = List.ofFn (update (fun j : Fin N => letter j.1) m star) := by
    rw [allLetters_ofFn, ← ofFn_set]
  rw [hl, hseq, allLetters_ofFn]
  exact e1

theorem ttm_root (hN : N ≤ 31) {dims rk : Fin N → ℕ} {V : Tensor K} {W : List (Tensor K)} (hS : TuckShaped dims rk V W)
    (m : Fin N) : ∃ T', ttmNode N W ([m].map (idLab hN).lab) V = .ok T' ∧ TPPGood dims rk V W [m] T' := by
  have h := TValid.input (rk := rk) (mats W) hS.lensV
  have e : (univ : Finset (Fin N)) = univ.filter (· ∉ ([] : List (Fin N))) := by simp
  rw [e] at h
  exact ttmNode_ok hN hS (ks := []) (m := m) (by simp) h

theorem ttm_parent (hN : N ≤ 31) {dims rk : Fin N → ℕ} {V : Tensor K} {W : List (Tensor K)} (hS : TuckShaped dims rk V W)
    (ks : List (Fin N)) (m : Fin N) (hs : (ks ++ [m]).Sublist (List.finRange N)) (Tp : Tensor K)
    (hp : TPPGood dims rk V W ks Tp) :
    ∃ T, ttmNode N W ((ks ++ [m]).map (idLab hN).lab) Tp = .ok T ∧ TPPGood dims rk V W (ks ++ [m]) T := by
  have hnd : (ks ++ [m]).Nodup := hs.nodup (List.nodup_finRange N)
  refine ttmNode_ok hN hS ?_ hp.2
  intro h
  rw [List.nodup_append] at hnd
  exact hnd.2.2 m h m (by simp) rfl

/-- The operators are those of `V` and `Winit`. -/
def TPPOps (dims rk : Fin N → ℕ) (V : Tensor K) (Winit : List (Tensor K)) (ops : Cache K) : Prop :=
  (∀ i : Fin N, ∃ T, ops.lookup (exceptOne (allLetters N) i.1) = some T ∧ TPPGood dims rk V Winit (ex1 i) T) ∧
    ∀ i j : Fin N, i < j → ∃ T, ops.lookup (exceptTwo (allLetters N) i.1 j.1) = some T ∧ TPPGood dims rk V Winit (ex2 i j) T

theorem tuckOperators_ok (h3 : 3 ≤ N) (h9 : N ≤ 9) {dims rk : Fin N → ℕ} {V : Tensor K}
    {W : List (Tensor K)} (hS : TuckShaped dims rk V W) :
    ∃ ops, tuckOperators N V W = .ok ops ∧ TPPOps dims rk V W ops :=
  buildAll_ok h3 h9 (fun m => ttm_root (by omega) hS m)
    (fun ks m hs _ Tp hp => ttm_parent (by omega) hS ks m hs Tp hp)

theorem tuckOperators_overflow (h : (1 ≤ N ∧ N ≤ 2) ∨ 10 ≤ N) {dims rk : Fin N → ℕ} {V : Tensor K}
    {W : List (Tensor K)} (hS : TuckShaped dims rk V W) : tuckOperators N V W = .error .ub :=
  buildAll_overflow h (Good := TPPGood dims rk V W) (fun hN m => ttm_root hN hS m)
    (fun hN ks m hs _ Tp hp => ttm_parent hN hS ks m hs Tp hp)

theorem keep_ex1 (i : Fin N) : univ.filter (· ∉ ex1 i) = {i} := by
  ext m; simp [mem_ex1]

theorem keep_ex2 {i j : Fin N} (h : i < j) : univ.filter (· ∉ ex2 i j) = {i, j} := by
  ext m; simp only [mem_filter, mem_univ, true_and, mem_ex2 h, mem_insert, mem_singleton]; tauto

/-- One contribution. -/
theorem tuckPPContrib_ok (hN : N ≤ 31) {dims rk : Fin N → ℕ} {V : Tensor K} {Winit dW : List (Tensor K)} {ops : Cache K}
    (ho : TPPOps dims rk V Winit ops) (hD : TuckShaped dims rk V dW) {i j : Fin N} (hij : i ≠ j) {Y : Tensor K}
    (hY : Y.lens = List.ofFn (klens dims rk {i})) :
    ∃ Y', tuckPPContrib N ops dW i.1 Y j.1 = .ok Y' ∧ Canon Y' ∧ Y'.lens = List.ofFn (klens dims rk {i}) ∧
      ∀ z : Fin N → ℕ, (∀ m, z m < klens dims rk {i} m) → arr Y' N z = arr Y N z +
        Spec.multiTTM dims (arr V N) (update (mats Winit) j (mats dW j)) {i} z := by
  obtain ⟨Dj, d1, _, d2, d3⟩ := tmats_get hD j
  obtain ⟨T, t1, t2⟩ : ∃ T, ops.lookup (if j.1 < i.1 then exceptTwo (allLetters N) j.1 i.1 else exceptTwo (allLetters N) i.1 j.1)
      = some T ∧ TValid dims rk (arr V N) (mats Winit) {i, j} T := by
    by_cases h : j.1 < i.1
    · rw [if_pos h]
      obtain ⟨T, a, b⟩ := ho.2 j i h
      refine ⟨T, a, ?_⟩
      have := b.2
      rwa [keep_ex2 h, Finset.pair_comm] at this
    · rw [if_neg h]
      have hlt : i < j := lt_of_le_of_ne (not_lt.1 h) hij
      obtain ⟨T, a, b⟩ := ho.2 i j hlt
      refine ⟨T, a, ?_⟩
      have := b.2
      rwa [keep_ex2 hlt] at this
  have t3 : TValid dims rk (arr V N) (update (mats Winit) j (mats dW j)) {i, j} T := t2.congr (by
    intro m hm x _ r _
    rw [update_of_ne]
    rintro rfl
    simp at hm)
  obtain ⟨E, e1, _, e3⟩ := t3.step (letter_injective (by omega)) (s := star) (tletter_ne_star hN) (j := j) (by simp) d2
    (by rw [update_self, d3])
  have hk : ({i, j} : Finset (Fin N)).erase j = {i} := by
    ext m; simp only [mem_erase, mem_insert, mem_singleton]
    constructor
    · rintro ⟨a, b | b⟩
      · exact b
      · exact absurd b a
    · rintro rfl; exact ⟨hij, .inl rfl⟩
  rw [hk] at e1 e3
  obtain ⟨Y', y1, y2, y3, y4⟩ := zipT_ok (fun a b : K => a + b) (A := Y) (B := E) (by rw [hY, e3.1])
  refine ⟨Y', ?_, y2, by rw [y3, hY], ?_⟩
  · unfold tuckPPContrib
    simp only [bind, Except.bind]
    rw [d1]
    simp only
    rw [t1]
    simp only [accum, bind, Except.bind]
    have hseq : (allLetters N).set j.1 star = List.ofFn (update (fun j : Fin N => letter j.1) j star) := by
      rw [allLetters_ofFn, ← ofFn_set]
    rw [hY, hseq, allLetters_ofFn, e1]
    exact y1
  · intro z hz
    have := y4 (List.ofFn z) (by rw [hY]; exact fits_ofFn.2 hz)
    rw [← e3.2 z hz]
    exact this

/-- The tensor `Y` of mode `i`. -/
theorem tuckPPY_ok (hN : N ≤ 31) {dims rk : Fin N → ℕ} {V : Tensor K} {Winit dW : List (Tensor K)} {ops : Cache K}
    (ho : TPPOps dims rk V Winit ops) (hD : TuckShaped dims rk V dW) (i : Fin N) :
    ∃ Y, tuckPPY N ops dW i.1 = .ok Y ∧ Canon Y ∧ Y.lens = List.ofFn (klens dims rk {i}) ∧
      ∀ z : Fin N → ℕ, (∀ m, z m < klens dims rk {i} m) →
        arr Y N z = Spec.ppTTM dims (arr V N) (mats Winit) (mats dW) i z := by
  obtain ⟨Y0, h1, h2, h3⟩ := ho.1 i
  rw [keep_ex1] at h3
  obtain ⟨Y, m1, m2, m3, m4⟩ := foldlM_inv (f := tuckPPContrib N ops dW i.1)
    (P := fun done (Y : Tensor K) => Canon Y ∧ Y.lens = List.ofFn (klens dims rk {i}) ∧
      ∀ z : Fin N → ℕ, (∀ m, z m < klens dims rk {i} m) →
      arr Y N z = Spec.multiTTM dims (arr V N) (mats Winit) {i} z + (done.map fun n => if h : n < N then
        Spec.multiTTM dims (arr V N) (update (mats Winit) ⟨n, h⟩ (mats dW ⟨n, h⟩)) {i} z else 0).sum)
    (List.range i.1 ++ List.range' (i.1 + 1) (N - (i.1 + 1))) [] Y0
    ⟨h2, h3.1, fun z hz => by rw [h3.2 z hz]; simp⟩
    (by
      rintro done j Y hj - ⟨g1, g2, g3⟩
      simp only [List.mem_append, List.mem_range, List.mem_range'_1] at hj
      have hi := i.2
      obtain ⟨Y', a, b, c, d⟩ := tuckPPContrib_ok hN ho hD (i := i) (j := ⟨j, by omega⟩)
        (fun e => by have := congrArg Fin.val e; simp at this; omega) g2
      refine ⟨Y', a, b, c, fun z hz => ?_⟩
      rw [d z hz, g3 z hz, List.map_append, List.sum_append]
      simp only [List.map_cons, List.map_nil, List.sum_cons, List.sum_nil, add_zero]
      rw [dif_pos (by omega), add_assoc])
  refine ⟨Y, ?_, m2, m3, fun z hz => ?_⟩
  · unfold tuckPPY
    rw [h1]
    exact m1
  · rw [m4 z hz, List.nil_append,
      sum_others i fun j => Spec.multiTTM dims (arr V N) (update (mats Winit) j (mats dW j)) {i} z]
    rfl

end Model
