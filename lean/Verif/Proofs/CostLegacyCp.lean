import Verif.Proofs.CostLegacyTree

/-! The work of the nodes of the legacy CP tree. -/

namespace Model

open Spec (Tag Work termsOf storedOf countOf)
open Finset

variable {N : ℕ}

/-- Product of the edge lengths of the modes of an interval. -/
def ivP (dims : Fin N → ℕ) (n : Iv) : ℕ := ∏ k ∈ Finset.Icc n.1 n.2, dimN dims k

theorem ivModes_prod (h0 : 0 < N) (dims : Fin N → ℕ) {n : Iv} (hn : n.2 < N) : ((ivModes h0 n).map dims).prod = ivP dims n := by
  unfold ivModes ivP
  rw [List.map_map]
  have e : (List.range' n.1 (n.2 + 1 - n.1)).map (dims ∘ modeOf h0) = (List.range' n.1 (n.2 + 1 - n.1)).map (dimN dims) := by
    apply List.map_congr_left
    intro k hk
    rw [List.mem_range'_1] at hk
    rw [Function.comp, ← dimN_val dims (modeOf h0 k), modeOf_val h0 (by omega)]
  rw [e, ← List.prod_toFinset _ List.nodup_range']
  congr 1
  ext k
  simp only [List.mem_toFinset, List.mem_range'_1, Finset.mem_Icc]
  omega

theorem ivP_split (dims : Fin N → ℕ) {a m e : ℕ} (h1 : a ≤ m + 1) (h2 : m ≤ e) :
    ivP dims (a, e) = ivP dims (a, m) * ivP dims (m + 1, e) := by
  unfold ivP
  rw [← Finset.prod_union]
  · congr 1
    ext k
    simp only [Finset.mem_union, Finset.mem_Icc]
    omega
  · rw [Finset.disjoint_left]
    intro k
    simp only [Finset.mem_Icc]
    omega

/-- The record of the computation of a node: the modes of the sibling are contracted one after the other. -/
def cpNodeW (dims : Fin N → ℕ) (R : ℕ) (t : Nd) : List Work :=
  (List.range (t.2.2.2 + 1 - t.2.2.1)).map fun j =>
    ⟨if t.2.1 = (0, N - 1) ∧ j = 0 then .input else .mttkrp, ivP dims t.1 * ivP dims (t.2.2.1 + j, t.2.2.2) * R,
      ivP dims t.1 * ivP dims (t.2.2.1 + j + 1, t.2.2.2) * R⟩

variable {K : Type} [CommRing K]

/-- A contraction of one mode, from shapes alone. -/
theorem contractC_runs (tag : Tag) (hN : N ≤ 31) {dims : Fin N → ℕ} {R : ℕ} {T Wj : Tensor K} {seq : Key} {ms ms' : List (Fin N)}
    (hsrc : (seq = ms.map (idLab hN).lab ++ [star] ∧ T.lens = ms.map dims ++ [R]) ∨
      (seq = ms.map (idLab hN).lab ∧ T.lens = ms.map dims))
    (hnd : ms.Nodup) {j : Fin N} (hj : j ∈ ms) (hsub : ∀ m ∈ ms', m ∈ ms) (hl : Wj.lens = [dims j, R]) :
    ∃ T', Runs (einsumC tag (ms'.map dims ++ [R]) (ms'.map (idLab hN).lab ++ [star]) [(T, seq), (Wj, [letter j.1, star])]) T'
        [⟨tag, (ms.map dims).prod * R, (ms'.map dims).prod * R⟩] ∧ T'.lens = ms'.map dims ++ [R] := by
  have hlab : letter j.1 = (idLab hN).lab j := rfl
  obtain ⟨T', h1, h2⟩ := einsumC_runs (K := K) tag (d := (idLab hN).d dims R) (lensC := ms'.map dims ++ [R])
    (sc := ms'.map (idLab hN).lab ++ [star]) (ops := [(T, seq), (Wj, [letter j.1, star])])
    (s := (ms.map (idLab hN).lab ++ [(idLab hN).rk]).toFinset) ((idLab hN).map_d dims R _).symm (by
      intro o ho
      simp only [List.mem_cons, List.not_mem_nil, or_false] at ho
      rcases ho with rfl | rfl
      · rcases hsrc with ⟨e1, e2⟩ | ⟨e1, e2⟩
        · simp only
          rw [e1, e2]
          exact ((idLab hN).map_d dims R _).symm
        · simp only
          rw [e1, e2, List.map_map]
          apply List.map_congr_left
          intro m _
          exact ((idLab hN).d_lab dims R m).symm
      · simp only [hl, hlab, List.map_cons, List.map_nil, (idLab hN).d_lab]
        rw [show (idLab hN).d dims R star = R from (idLab hN).d_rk dims R]) (by
      ext l
      have hrk : (idLab hN).rk = star := rfl
      simp only [List.flatMap_cons, List.flatMap_nil, List.append_nil, List.mem_toFinset, List.mem_append, List.mem_cons,
        List.not_mem_nil, or_false, hrk]
      have hseq : l ∈ seq → l ∈ ms.map (idLab hN).lab ∨ l = star := by
        rcases hsrc with ⟨e1, _⟩ | ⟨e1, _⟩ <;> rw [e1] <;> simp
        · rintro m hm rfl; exact .inl ⟨m, hm, rfl⟩
      have hseq' : l ∈ ms.map (idLab hN).lab → l ∈ seq := by
        rcases hsrc with ⟨e1, _⟩ | ⟨e1, _⟩ <;> rw [e1]
        · intro h; exact List.mem_append_left _ h
        · exact id
      constructor
      · rintro ((h | h) | (h | (h | h)))
        · obtain ⟨m, hm, rfl⟩ := List.mem_map.1 h
          exact .inl (List.mem_map.2 ⟨m, hsub m hm, rfl⟩)
        · exact .inr h
        · exact hseq h
        · rw [h, hlab]
          exact .inl (List.mem_map.2 ⟨j, hj, rfl⟩)
        · exact .inr h
      · rintro (h | h)
        · exact .inr (.inl (hseq' h))
        · exact .inl (.inr h))
  rw [(idLab hN).prod_d dims R hnd] at h2
  refine ⟨T', ?_, h1⟩
  rw [List.prod_append, List.prod_singleton] at h2
  exact h2

theorem sibLoopC_runs (tag : ℕ → Tag) (hN : N ≤ 31) {dims : Fin N → ℕ} {R : ℕ} {V : Tensor K} {W : List (Tensor K)}
    (hS : Shaped dims R V W) {T0 : Tensor K} {seq0 : Key} {ms : List (Fin N)} (hnd : ms.Nodup)
    (h0 : (seq0 = ms.map (idLab hN).lab ++ [star] ∧ T0.lens = ms.map dims ++ [R]) ∨
      (seq0 = ms.map (idLab hN).lab ∧ T0.lens = ms.map dims))
    {start len : ℕ} (hlen : start + len ≤ ms.length) (hpos : 0 < len)
    {wat : ℕ → Label → Except Fault (Tensor K)}
    (hwat : ∀ j < len, ∀ m, ms[start + j]? = some m → wat j (letter m.1) = rd W ((m.1 : ℕ) : ℤ)) :
    ∃ T, Runs (sibLoopC tag (ms.map (idLab hN).lab) (((ms.drop start).take len).map (idLab hN).lab) (ms.map dims) R start wat T0
        seq0) T ((List.range len).map fun j => ⟨tag j, ((ms.take start ++ ms.drop (start + j)).map dims).prod * R,
          ((ms.take start ++ ms.drop (start + j + 1)).map dims).prod * R⟩) ∧
      T.lens = (ms.take start ++ ms.drop (start + len)).map dims ++ [R] := by
  have hsl : (((ms.drop start).take len).map (idLab hN).lab).length = len := by simp; omega
  obtain ⟨s, hs, hP, hP2⟩ := Runs.foldlM_range' (s := 0) (n := len)
    (P := fun j (s : Tensor K × Key) =>
      ((s.2 = (ms.take start ++ ms.drop (start + j)).map (idLab hN).lab ++ [star] ∧
          s.1.lens = (ms.take start ++ ms.drop (start + j)).map dims ++ [R]) ∨
        (s.2 = (ms.take start ++ ms.drop (start + j)).map (idLab hN).lab ∧
          s.1.lens = (ms.take start ++ ms.drop (start + j)).map dims)) ∧
      (0 < j → s.1.lens = (ms.take start ++ ms.drop (start + j)).map dims ++ [R]))
    (w := fun j => [⟨tag j, ((ms.take start ++ ms.drop (start + j)).map dims).prod * R,
          ((ms.take start ++ ms.drop (start + j + 1)).map dims).prod * R⟩])
    (f := fun (s : Tensor K × Key) (j : ℕ) => (do
      let c ← rd (((ms.drop start).take len).map (idLab hN).lab) j
      let seqF := (ms.map (idLab hN).lab).take start ++ (ms.map (idLab hN).lab).drop (start + j + 1) ++ [star]
      let lens := (ms.map dims).take start ++ (ms.map dims).drop (start + j + 1) ++ [R]
      let Wj ← wat j c
      let T ← einsumC (tag j) lens seqF [(s.1, s.2), (Wj, [c, star])]
      pure (T, seqF) : CM (Tensor K × Key))) (a := (T0, seq0))
    ⟨by simpa using h0, fun h => absurd h (by omega)⟩
    (by
      rintro j ⟨T, seq⟩ _ hj ⟨hP, _⟩
      have hjl : start + j < ms.length := by omega
      have hget : ms[start + j]? = some (ms[start + j]) := List.getElem?_eq_getElem hjl
      have hrd : rd (((ms.drop start).take len).map (idLab hN).lab) ((j : ℕ) : ℤ) = .ok (letter (ms[start + j]).1) := by
        apply rd_of
        rw [List.getElem?_map, List.getElem?_take_of_lt (by omega), List.getElem?_drop, hget]
        rfl
      have hsplit : ms.drop (start + j) = ms[start + j] :: ms.drop (start + j + 1) := List.drop_eq_getElem_cons hjl
      obtain ⟨Wj, hW1, _, hW2, hW3⟩ := mats_get hS ms[start + j]
      have hnd' : (ms.take start ++ ms.drop (start + j)).Nodup := by
        refine List.Sublist.nodup ?_ hnd
        conv_rhs => rw [← List.take_append_drop start ms]
        refine List.Sublist.append (List.Sublist.refl _) ?_
        rw [← List.drop_drop]
        exact List.drop_sublist _ _
      obtain ⟨T', hT', hl'⟩ := contractC_runs (tag j) hN hP hnd' (j := ms[start + j])
        (ms' := ms.take start ++ ms.drop (start + j + 1))
        (by rw [hsplit]; exact List.mem_append_right _ List.mem_cons_self) (by
          rw [hsplit]
          intro m hm
          rcases List.mem_append.1 hm with h | h
          · exact List.mem_append_left _ h
          · exact List.mem_append_right _ (List.mem_cons_of_mem _ h)) hW2
      refine ⟨(T', (ms.take start ++ ms.drop (start + j + 1)).map (idLab hN).lab ++ [star]), ?_, .inl ⟨rfl, hl'⟩, fun _ => hl'⟩
      refine (Runs.lift hrd).bind0 ((Runs.lift ((hwat j (by omega) _ hget).trans hW1)).bind0 ?_)
      rw [← List.map_take, ← List.map_take, ← List.map_drop, ← List.map_drop, ← List.map_append, ← List.map_append]
      exact hT'.bind (Runs.pure _))
  rw [Nat.zero_add] at hP hP2
  refine ⟨s.1, ?_, hP2 hpos⟩
  rw [flatMap_single, ← List.range_eq_range'] at hs
  unfold sibLoopC
  rw [hsl]
  have := hs.bind (f := fun r : Tensor K × Key => (pure r.1 : CM (Tensor K))) (Runs.pure s.1)
  rw [List.append_nil] at this
  exact this

/-- The modes that are left after `j` passes. -/
theorem sub_modes_prod (h0 : 0 < N) (dims : Fin N → ℕ) {n p b : Iv} (h : Sub 0 (N - 1) n p b) {j : ℕ} (hj : j ≤ b.2 + 1 - b.1) :
    (((ivModes h0 p).take (b.1 - p.1) ++ (ivModes h0 p).drop (b.1 - p.1 + j)).map dims).prod =
      ivP dims n * ivP dims (b.1 + j, b.2) := by
  have hnl := h.node_le
  obtain ⟨a1, a2, a3, (⟨e1, e2⟩ | ⟨e1, e2⟩)⟩ := h.shape
  · subst e1 e2
    simp only at hj hnl ⊢
    rw [ivModes_take h0 (a := p.1) (e := p.2) (by omega), List.map_append, List.prod_append,
      ivModes_prod h0 dims (by simp only; omega)]
    congr 1
    rw [show (p.1 + p.2) / 2 + 1 - p.1 + j = ((p.1 + p.2) / 2 + j) + 1 - p.1 by omega,
      ivModes_drop h0 (a := p.1) (e := p.2) (by omega), ivModes_prod h0 dims (by simp only; omega)]
    congr 2
    omega
  · subst e1 e2
    simp only at hj hnl ⊢
    rw [Nat.sub_self, List.take_zero, List.nil_append, Nat.zero_add]
    rw [show ((ivModes h0 p).drop j).map dims = (ivModes h0 (p.1 + j, p.2)).map dims from ?_,
      ivModes_prod h0 dims (by simp only; omega), ivP_split dims (m := (p.1 + p.2) / 2) (by omega) (by omega), Nat.mul_comm]
    congr 1
    rcases Nat.eq_zero_or_pos j with rfl | hj0
    · rw [List.drop_zero, Nat.add_zero]
    · have := ivModes_drop h0 (a := p.1) (m := p.1 + j - 1) (e := p.2) (by omega)
      rw [show p.1 + j - 1 + 1 - p.1 = j by omega, show p.1 + j - 1 + 1 = p.1 + j by omega] at this
      exact this

/-- Shape of the tensor of a node. -/
def CpShape (h0 : 0 < N) (dims : Fin N → ℕ) (R : ℕ) (n : Iv) (T : Tensor K) : Prop :=
  T.lens = (ivModes h0 n).map dims ++ [R]

theorem cpNodeW_eq (h0 : 0 < N) (dims : Fin N → ℕ) (R : ℕ) {n p b : Iv} (h : Sub 0 (N - 1) n p b) {tag : ℕ → Tag}
    (ht : ∀ j, tag j = if p = (0, N - 1) ∧ j = 0 then .input else .mttkrp) :
    ((List.range (b.2 + 1 - b.1)).map fun j => (⟨tag j,
      (((ivModes h0 p).take (b.1 - p.1) ++ (ivModes h0 p).drop (b.1 - p.1 + j)).map dims).prod * R,
      (((ivModes h0 p).take (b.1 - p.1) ++ (ivModes h0 p).drop (b.1 - p.1 + j + 1)).map dims).prod * R⟩ : Work)) =
      cpNodeW dims R (n, p, b) := by
  unfold cpNodeW
  simp only
  apply List.map_congr_left
  intro j hj
  rw [List.mem_range] at hj
  rw [sub_modes_prod h0 dims h (by omega), Nat.add_assoc (b.1 - p.1), sub_modes_prod h0 dims h (by omega), ht, Nat.add_assoc b.1]

theorem cpFromRootC_runs (h2 : 2 ≤ N) (hN : N ≤ 31) {dims : Fin N → ℕ} {R : ℕ} {V : Tensor K} {W : List (Tensor K)}
    (hS : Shaped dims R V W) {n b : Iv} (h : Sub 0 (N - 1) n (0, N - 1) b) :
    ∃ T, Runs (cpFromRootC N (constructDT 0 (N - 1) {}) V W (ivStr n)) T (cpNodeW dims R (n, (0, N - 1), b)) ∧
      CpShape (by omega) dims R n T := by
  have h0 : 0 < N := by omega
  obtain ⟨m1, m2, m3, m4, m5⟩ := sub_modes h0 h
  simp only at m3 m5
  obtain ⟨W0, hW0, _, hW0l, _⟩ := mats_get hS ⟨0, h0⟩
  obtain ⟨t1, t2⟩ := mapGet_tree (by omega) h
  obtain ⟨T, hT, hv⟩ := sibLoopC_runs (fun j => if j = 0 then Tag.input else Tag.mttkrp) hN hS (T0 := V)
    (seq0 := ivStr (0, N - 1)) (ivModes_nodup h0 (n := (0, N - 1)) (by simp only; omega))
    (.inr ⟨(ivModes_lab h0 hN (by simp only; omega)).symm, by rw [hS.lensV, ivModes_root, List.ofFn_eq_map]⟩) (start := b.1 - 0)
    (len := b.2 + 1 - b.1) (by rw [ivModes_length]; simp only; omega) (by omega)
    (wat := fun j _ => rd W (((letter b.1 : ℤ) - 97).toNat + j : ℤ)) (by
      intro j hj m hm
      rw [ivModes_get h0 (by simp only; omega)] at hm
      cases hm
      rw [modeOf_val h0 (by simp only; omega), letter_eq (by omega)]
      simp only
      congr 1
      change (_ : ℤ) = _
      omega)
  rw [m1] at hv
  refine ⟨T, ?_, hv⟩
  rw [cpNodeW_eq h0 dims R h (fun j => by simp)] at hT
  unfold cpFromRootC
  simp only [t1, t2]
  have e0 : rd W 0 = .ok W0 := hW0
  have e1 : rd (ivStr b) 0 = .ok (letter b.1) := rd_strOf (n := b) (j := 0) (by omega)
  refine (Runs.lift e0).bind0 ((Runs.lift e1).bind0 ?_)
  rw [if_neg]
  · have hcast : ((letter b.1 : ℤ) - 97).toNat = b.1 - 0 := by
      rw [letter_eq (by omega)]
      omega
    simp only [hcast] at hT ⊢
    rw [m2, ivModes_lab h0 hN (by omega), ivModes_lab h0 hN (by omega)] at hT
    rw [show ncol W0 = R by simp [ncol, hW0l]]
    rw [show V.lens = (ivModes h0 (0, N - 1)).map dims by rw [hS.lensV, ivModes_root, List.ofFn_eq_map]]
    exact hT
  · rw [letter_eq (by omega)]
    simp only [strOf_length]
    push Not
    refine ⟨by omega, ?_, ?_⟩
    · change ((_ : ℤ) ≤ _); omega
    · change ((_ : ℤ) < _); omega

theorem cpFromParentC_runs (h2 : 2 ≤ N) (hN : N ≤ 31) {dims : Fin N → ℕ} {R : ℕ} {V : Tensor K} {W : List (Tensor K)}
    (hS : Shaped dims R V W) {n p b : Iv} (h : Sub 0 (N - 1) n p b) (hpr : p ≠ (0, N - 1)) {Tp : Tensor K}
    (hp : CpShape (by omega) dims R p Tp) :
    ∃ T, Runs (cpFromParentC (constructDT 0 (N - 1) {}) W (ivStr n) Tp) T (cpNodeW dims R (n, p, b)) ∧
      CpShape (by omega) dims R n T := by
  have h0 : 0 < N := by omega
  unfold CpShape at hp
  obtain ⟨m1, m2, m3, m4, m5⟩ := sub_modes h0 h
  have hsh := h.shape
  have hp2 : p.2 < N := by omega
  obtain ⟨W0, hW0, _, hW0l, _⟩ := mats_get hS ⟨0, h0⟩
  obtain ⟨t1, t2⟩ := mapGet_tree (by omega) h
  have hplen := ivModes_length h0 p
  obtain ⟨T, hT, hv⟩ := sibLoopC_runs (fun _ => Tag.mttkrp) hN hS (T0 := Tp) (seq0 := ivStr p ++ [star]) (ivModes_nodup h0 hp2)
    (.inl ⟨by rw [ivModes_lab h0 hN hp2], hp⟩) (start := b.1 - p.1)
    (len := b.2 + 1 - b.1) (by rw [ivModes_length]; omega) (by omega)
    (wat := fun _ c => rd W (decode c)) (by
      intro j hj m hm
      rw [decode_letter (by omega)])
  rw [m1] at hv
  refine ⟨T, ?_, hv⟩
  rw [cpNodeW_eq h0 dims R h (fun j => by simp [hpr])] at hT
  unfold cpFromParentC
  simp only [t1, t2]
  have e0 : rd W 0 = .ok W0 := hW0
  have e1 : rd (ivStr b) 0 = .ok (letter b.1) := rd_strOf (n := b) (j := 0) (by omega)
  have e2 : rd (ivStr p) 0 = .ok (letter p.1) := rd_strOf (n := p) (j := 0) (by omega)
  refine (Runs.lift e0).bind0 ((Runs.lift e1).bind0 ((Runs.lift e2).bind0 ?_))
  rw [if_neg]
  · have hcast : ((letter b.1 : ℤ) - (letter p.1 : ℤ)).toNat = b.1 - p.1 := by
      rw [letter_eq (by omega), letter_eq (by omega)]
      omega
    simp only [hcast]
    rw [m2, ivModes_lab h0 hN (by omega), ivModes_lab h0 hN (by omega)] at hT
    rw [show ncol W0 = R by simp [ncol, hW0l]]
    rw [show Tp.lens.dropLast = (ivModes h0 p).map dims by rw [hp]; simp]
    exact hT
  · rw [letter_eq (by omega), letter_eq (by omega)]
    simp only [strOf_length, hp]
    push Not
    refine ⟨by simp [hplen], ?_⟩
    change ((_ : ℤ) ≤ _); omega

end Model
