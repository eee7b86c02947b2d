import Verif.Model.Common
import Verif.Spec.Common
import Verif.Proofs.LowRank

/-! `apply_rankR_update` -/

namespace Model

open Finset

variable {K : Type} {N : ℕ}

/-- Label extents of the contraction. -/
def rkD (dims : Fin N → ℕ) (R q : ℕ) (l : Label) : ℕ :=
  if h : (l - 97).toNat < N then dims ⟨(l - 97).toNat, h⟩ else if (l - 97).toNat = N then R else q

theorem sub_letter {t : ℕ} (h : t ≤ 30) : (letter t - 97).toNat = t := by
  rw [letter_eq h]
  show ((97 + (t : ℤ)) - 97).toNat = t
  omega

theorem rkD_mode (hN : N ≤ 29) (dims : Fin N → ℕ) (R q : ℕ) (m : Fin N) : rkD dims R q (letter m.1) = dims m := by
  have := m.2
  simp [rkD, sub_letter (show m.1 ≤ 30 by omega)]

theorem rkD_R (hN : N ≤ 29) (dims : Fin N → ℕ) (R q : ℕ) : rkD dims R q (letter N) = R := by
  simp [rkD, sub_letter (show N ≤ 30 by omega)]

theorem rkD_q (hN : N ≤ 29) (dims : Fin N → ℕ) (R q : ℕ) : rkD dims R q (letter (N + 1)) = q := by
  simp [rkD, sub_letter (show N + 1 ≤ 30 by omega)]

theorem seq2_map {α : Type} (i : Fin N) (g : Label → α) :
    (((List.range N).map letter).set i.1 (letter N)).map g =
      List.ofFn fun m : Fin N => if m = i then g (letter N) else g (letter m.1) := by
  apply List.ext_getElem
  · simp
  · intro k h1 h2
    simp only [List.getElem_map, List.getElem_set, List.getElem_range, List.getElem_ofFn, Fin.ext_iff]
    by_cases h : i.1 = k
    · simp [h]
    · rw [if_neg h, if_neg fun e => h e.symm]

theorem mem_seq2 {i : Fin N} {l : Label} (h : l ∈ (((List.range N).map letter).set i.1 (letter N))) :
    l = letter N ∨ ∃ m : Fin N, m ≠ i ∧ l = letter m.1 := by
  have : l ∈ (((List.range N).map letter).set i.1 (letter N)).map id := by simpa using h
  rw [seq2_map, List.mem_ofFn] at this
  obtain ⟨m, hm⟩ := this
  by_cases e : m = i
  · left; simpa [e] using hm.symm
  · right; exact ⟨m, e, by simpa [e] using hm.symm⟩

theorem mem_seq2_of {i m : Fin N} (h : m ≠ i) : letter m.1 ∈ (((List.range N).map letter).set i.1 (letter N)) := by
  have : letter m.1 ∈ (((List.range N).map letter).set i.1 (letter N)).map id := by
    rw [seq2_map, List.mem_ofFn]
    exact ⟨m, by simp [h]⟩
  simpa using this

theorem mem_seq2_R {i : Fin N} : letter N ∈ (((List.range N).map letter).set i.1 (letter N)) := by
  have : letter N ∈ (((List.range N).map letter).set i.1 (letter N)).map id := by
    rw [seq2_map, List.mem_ofFn]
    exact ⟨i, by simp⟩
  simpa using this

variable [CommRing K]

/-- Result of `apply_rankR_update`, before comparing it with the specification. -/
theorem applyRankR_ok (hN : N ≤ 29) {dims : Fin N → ℕ} {R q : ℕ} {V : Tensor K} (hV : V.lens = List.ofFn dims)
    (i : Fin N) {u : LR K} (hu : LRShape u (dims i) q R) {A c : Tensor K} (hA : A.lens = [dims i, R])
    (hc : c.lens = List.ofFn (Function.update dims i R)) :
    ∃ U' c' A', applyRankR u.U u.s u.VT A V c i.1 = .ok (U', c', A') ∧ U'.lens = [dims i, q] ∧ c'.lens = c.lens ∧
      A'.lens = [dims i, R] ∧ (∀ x < dims i, ∀ k < q, mat U' x k = mat u.U x k * u.s.val [k]) ∧
      (∀ x < dims i, ∀ r < R, mat A' x r = lrDelta q u x r) ∧
      ∀ idx ∈ Spec.Box (Function.update dims i R), arr c' N idx = arr c N idx + Spec.ttm dims (arr V N) i (lrDelta q u) idx := by
  obtain ⟨u', s1, s2, s3, s4⟩ := scaleU_ok hu
  have hVl : V.lens.length = N := by simp [hV]
  have hinj : ∀ {a b : ℕ}, a ≤ 30 → b ≤ 30 → letter a = letter b → a = b := by
    intro a b ha hb h
    rw [← sub_letter ha, ← sub_letter hb, h]
  set sc : List Label := ((List.range N).map letter).set i.1 (letter N) with hsc
  have hisc : letter i.1 ∉ sc := by
    intro h
    rcases mem_seq2 h with h | ⟨m, hm, h⟩
    · have := hinj (by omega) (by omega) h; omega
    · exact hm (Fin.ext (hinj (by omega) (by omega) h).symm)
  have hqsc : letter (N + 1) ∉ sc := by
    intro h
    rcases mem_seq2 h with h | ⟨m, hm, h⟩
    · have := hinj (by omega) (by omega) h; omega
    · have := hinj (by omega) (by omega) h; omega
  have hlens : sc.map (rkD dims R q) = c.lens := by
    rw [hsc, seq2_map, hc]
    congr 1
    funext m
    by_cases e : m = i
    · subst e; simp [rkD_R hN]
    · simp [e, rkD_mode hN]
  obtain ⟨D, d1, d2, d3⟩ := einsum_pair (K := K) (d := rkD dims R q) (sc := sc)
    (ops := [(u'.VT, [letter (N + 1), letter N]), (u'.U, [letter i.1, letter (N + 1)]), (V, (List.range N).map letter)])
    (by
      simp only [List.mem_cons, List.not_mem_nil, or_false, forall_eq_or_imp, forall_eq]
      refine ⟨?_, ?_, ?_⟩
      · simp [s2.VT, rkD_q hN, rkD_R hN]
      · simp [s2.U, rkD_q hN, rkD_mode hN]
      · rw [hV, range_letter, List.map_ofFn]
        congr 1
        funext m
        exact (rkD_mode hN dims R q m).symm)
    (letter i.1) (letter (N + 1)) (fun h => by have := hinj (by omega) (by omega) h; omega)
    ⟨(u'.U, [letter i.1, letter (N + 1)]), by simp, by simp⟩ hisc
    ⟨(u'.U, [letter i.1, letter (N + 1)]), by simp, by simp⟩ hqsc
    (by
      simp only [List.mem_cons, List.not_mem_nil, or_false, forall_eq_or_imp, forall_eq]
      refine ⟨⟨fun _ => Or.inr trivial, fun h => absurd mem_seq2_R h⟩, ⟨fun _ => Or.inl trivial, fun _ => Or.inr trivial⟩, ?_⟩
      intro l hl hn
      rw [range_letter, List.mem_ofFn] at hl
      obtain ⟨m, rfl⟩ := hl
      left
      by_contra hne
      exact hn (mem_seq2_of fun e => hne (by rw [e])))
  rw [hlens] at d1
  obtain ⟨c', c1, c2, c3, c4⟩ := zipT_ok (· + ·) (A := c) (B := D) (by rw [d3.1, hlens])
  obtain ⟨A', a1, a2, a3, a4⟩ := einsum_matmul s2.U s2.VT
  refine ⟨u'.U, c', A', ?_, s2.U, c3, a3, ?_, ?_, ?_⟩
  · unfold applyRankR
    rw [hVl, if_neg (by have := i.2; omega)]
    unfold scaleU at s1
    simp only [bind, Except.bind, pure, Except.pure] at s1 ⊢
    split at s1
    · cases s1
    · rename_i U' hU
      have hu' := Except.ok.inj s1
      subst hu'
      simp only at d1 a1 ⊢
      rw [d1]
      simp only
      rw [c1]
      simp only
      rw [hA, a1]
  · intro x hx k hk
    rw [s4 x hx k hk]
  · intro x hx r hr
    rw [a4 x hx r hr, lrDelta]
    exact sum_congr rfl fun k hk => by rw [s4 x hx k (mem_range.1 hk), s3]
  · intro idx hidx
    rw [Spec.Box, Fintype.mem_piFinset] at hidx
    have hi : idx i < R := by simpa using hidx i
    have hm : ∀ m, m ≠ i → idx m < dims m := fun m hm => by simpa [hm] using hidx m
    have hscm : sc.map (rkD idx (idx i) 0) = List.ofFn idx := by
      rw [hsc, seq2_map]
      congr 1
      funext m
      by_cases e : m = i
      · subst e; simp [rkD_R hN]
      · simp [e, rkD_mode hN]
    have hD := d3.2 (rkD idx (idx i) 0) (by
      intro l hl
      rcases mem_seq2 hl with rfl | ⟨m, hmi, rfl⟩
      · rw [rkD_R hN, rkD_R hN]; exact hi
      · rw [rkD_mode hN, rkD_mode hN]; exact hm m hmi)
    rw [hscm] at hD
    have hfit : fits c.lens (List.ofFn idx) = true := by
      rw [hc, fits_iff_getElem]
      refine ⟨by simp, fun k h1 h2 => ?_⟩
      simpa using hidx ⟨k, by simpa using h1⟩
    rw [arr, c4 _ hfit, hD, arr, Spec.ttm, rkD_mode hN, rkD_q hN]
    congr 1
    refine sum_congr rfl fun x hx => ?_
    rw [lrDelta, mul_sum]
    refine sum_congr rfl fun k hk => ?_
    have hne1 : letter N ≠ letter (N + 1) := fun h => by have := hinj (by omega) (by omega) h; omega
    have hne2 : letter N ≠ letter i.1 := fun h => by have := hinj (by omega) (by omega) h; omega
    have hne3 : letter i.1 ≠ letter (N + 1) := fun h => by have := hinj (by omega) (by omega) h; omega
    have hVx : ((List.range N).map letter).map (Function.update (Function.update (rkD idx (idx i) 0) (letter i.1) x) (letter (N + 1)) k) =
        List.ofFn (Function.update idx i x) := by
      rw [range_letter, List.map_ofFn]
      congr 1
      funext m
      simp only [Function.comp]
      rw [Function.update_of_ne fun h => by have := hinj (by omega) (by omega) h; omega]
      by_cases e : m = i
      · subst e; simp
      · rw [Function.update_of_ne fun h => e (Fin.ext (hinj (by omega) (by omega) h)), Function.update_of_ne e, rkD_mode hN]
    simp only [List.map_cons, List.map_nil, List.prod_cons, List.prod_nil, mul_one]
    rw [hVx]
    simp only [Function.update_self, Function.update_of_ne hne1, Function.update_of_ne hne2, Function.update_of_ne hne3,
      rkD_R hN, arr]
    have h4 := s4 x (mem_range.1 hx) k (mem_range.1 hk)
    rw [mat, mat] at h4
    rw [h4, s3, mat, mat]
    ring

end Model
