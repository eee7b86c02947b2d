import Verif.Proofs.RoundSteps
import Verif.Proofs.LegacySweep

/-! Rounding errors of the sweeps of the legacy dimension tree. -/

namespace Model

open Finset

variable {N : ℕ}

/-- At most two summed labels, extents at most `b`. -/
theorem nTerms_le2 {lens : List ℕ} {sc : List Label} {ops : List (Tensor ℝ × List Label)} {b : ℕ} (hb : 1 ≤ b) (l1 l2 : Label)
    (h1 : ∀ o ∈ ops, ∀ l' ∈ o.2.take o.1.lens.length, l' ∉ sc.take lens.length → l' = l1 ∨ l' = l2)
    (h2 : ∀ o ∈ ops, ∀ n ∈ o.1.lens, n ≤ b) : nTerms lens sc ops ≤ b * b := by
  have hext : ∀ l, extent ((cutOps ops).flatMap opTable) l ≤ b := by
    intro l
    apply extent_le
    intro p hp
    obtain ⟨o, ho, hp⟩ := List.mem_flatMap.1 hp
    obtain ⟨q, hq, rfl⟩ := List.mem_map.1 ho
    exact h2 q hq _ (List.of_mem_zip hp).2
  unfold nTerms sumTab
  have hall : ∀ l' ∈ contracted (sc.take lens.length) (cutOps ops), l' = l1 ∨ l' = l2 := by
    intro l' hl'
    obtain ⟨⟨o, ho, h⟩, hn⟩ := mem_contracted.1 hl'
    obtain ⟨q, hq, rfl⟩ := List.mem_map.1 ho
    exact h1 q hq l' h hn
  have hnd := contracted_nodup (sc.take lens.length) (cutOps ops)
  generalize contracted (sc.take lens.length) (cutOps ops) = c at *
  match c, hnd, hall with
  | [], _, _ => simpa using Nat.mul_le_mul hb hb
  | [a], _, _ => simpa using (hext a).trans (Nat.le_mul_of_pos_right b hb)
  | [a, a'], _, _ => simpa using Nat.mul_le_mul (hext a) (hext a')
  | a :: a' :: a'' :: t, hnd, hall =>
    have ha := hall a (by simp)
    have hb := hall a' (by simp)
    have hc := hall a'' (by simp)
    simp only [List.nodup_cons, List.mem_cons, not_or] at hnd
    rcases ha with rfl | rfl <;> rcases hb with rfl | rfl <;> rcases hc with rfl | rfl <;> simp_all

/-- Contraction of two modes at once. -/
theorem near_contract2 {b : ℕ} {u : ℝ} {P : Arith} (hP : RoundOk (b * b) u P) (hu : 0 ≤ u) (hb : 1 ≤ b) (L : Labelling N)
    {dims : Fin N → ℕ} {R : ℕ} (hd : ∀ j, dims j ≤ b) (hR : R ≤ b) {V : (Fin N → ℕ) → ℝ} {W : Fin N → ℕ → ℕ → ℝ} {c : ℝ} (hc : 1 ≤ c)
    {T W1 W2 : Tensor ℝ} {j1 j2 : Fin N} {ms ms' : List (Fin N)} (hT : Near c dims R V W T ms) (hl1 : W1.lens = [dims j1, R])
    (hW1 : mat W1 = W j1) (hl2 : W2.lens = [dims j2, R]) (hW2 : mat W2 = W j2) (hj1 : j1 ∈ ms) (hj2 : j2 ∈ ms) (hne : j1 ≠ j2)
    (hms : ms'.toFinset = (ms.toFinset.erase j2).erase j1) :
    ∃ T', P.ev (ms'.map dims ++ [R]) (ms'.map L.lab ++ [L.rk]) [(T, ms.map L.lab ++ [L.rk]), (W1, [L.lab j1, L.rk]),
        (W2, [L.lab j2, L.rk])] = .ok T' ∧ Near (c * (1 + u)) dims R V W T' ms' := by
  obtain ⟨E, A, k1, k2, h1, h2, h3⟩ := hT
  obtain ⟨E', e1, e2, e3⟩ := contract_valid2 L h1 hl1 hW1 hl2 hW2 hj1 hj2 hne hms
  obtain ⟨A', a1, a2, a3⟩ := contract_valid2 L (W1 := absT W1) (W2 := absT W2) h2 hl1 (by rw [mat_absT, hW1]; rfl) hl2
    (by rw [mat_absT, hW2]; rfl) hj1 hj2 hne hms
  have hmem : ∀ k, k ∈ ms → k ≠ j1 → k ≠ j2 → L.lab k ∈ ms'.map L.lab ++ [L.rk] := by
    intro k hk hne hne2
    have : k ∈ ms'.toFinset := by rw [hms]; simp [hk, hne, hne2]
    simp only [List.mem_append, List.mem_map]
    exact Or.inl ⟨k, by simpa using this, rfl⟩
  obtain ⟨A'', T', b1, b2, b3⟩ := ev_rel hP hu (lens := ms'.map dims ++ [R]) (sc := ms'.map L.lab ++ [L.rk])
    (l := [⟨E, A, T, ms.map L.lab ++ [L.rk], c⟩, ⟨W1, absT W1, W1, [L.lab j1, L.rk], 1⟩, ⟨W2, absT W2, W2, [L.lab j2, L.rk], 1⟩])
    (by simp) (by simp)
    (by
      intro q hq
      simp only [List.mem_cons, List.not_mem_nil, or_false] at hq
      rcases hq with rfl | rfl | rfl
      · exact ⟨hc, h3⟩
      · exact ⟨le_rfl, RelT.exact W1⟩
      · exact ⟨le_rfl, RelT.exact W2⟩) (E' := E') e1 (by
      apply nTerms_le2 hb (L.lab j1) (L.lab j2)
      · intro o ho l' hl' hn
        rw [List.take_of_length_le (by simp)] at hn
        simp only [List.map_cons, List.map_nil, List.mem_cons, List.not_mem_nil, or_false] at ho
        rcases ho with rfl | rfl | rfl
        · have hl' := List.mem_of_mem_take hl'
          simp only [List.mem_append, List.mem_map, List.mem_singleton] at hl'
          rcases hl' with ⟨k, hk, rfl⟩ | rfl
          · by_contra hne
            rw [not_or] at hne
            exact hn (hmem k hk (fun e => hne.1 (by rw [e])) fun e => hne.2 (by rw [e]))
          · exact absurd (by simp) hn
        all_goals
          have hl' := List.mem_of_mem_take hl'
          simp only [List.mem_cons, List.not_mem_nil, or_false] at hl'
          rcases hl' with rfl | rfl
          · simp
          · exact absurd (by simp) hn
      · intro o ho n hn
        simp only [List.map_cons, List.map_nil, List.mem_cons, List.not_mem_nil, or_false] at ho
        rcases ho with rfl | rfl | rfl
        · simp only [h1.1, List.mem_append, List.mem_map, List.mem_singleton] at hn
          rcases hn with ⟨k, _, rfl⟩ | rfl
          · exact hd k
          · exact hR
        · simp only [hl1, List.mem_cons, List.not_mem_nil, or_false] at hn
          rcases hn with rfl | rfl
          · exact hd j1
          · exact hR
        · simp only [hl2, List.mem_cons, List.not_mem_nil, or_false] at hn
          rcases hn with rfl | rfl
          · exact hd j2
          · exact hR)
  simp only [List.map_cons, List.map_nil, List.prod_cons, List.prod_nil, mul_one] at b1 b2 b3
  rw [a1] at b1
  rw [← Except.ok.inj b1] at b3
  exact ⟨T', b2, E', A', e2, a2, e3, a3, b3⟩

/-- What is being contracted: an approximate node, or the input tensor itself. -/
def SrcR (u : ℝ) (hN : N ≤ 31) (dims : Fin N → ℕ) (R : ℕ) (V : Tensor ℝ) (W : List (Tensor ℝ)) (T : Tensor ℝ) (seq : Key)
    (ms : List (Fin N)) : Prop :=
  (seq = ms.map (idLab hN).lab ++ [star] ∧ Near ((1 + u) ^ (N - ms.length)) dims R (arr V N) (mats W) T ms) ∨
    (T = V ∧ seq = ms.map (idLab hN).lab ∧ ms = List.finRange N)

theorem srcR_step {B : ℕ} {u : ℝ} {P : Arith} (hP : RoundOk B u P) (hu : 0 ≤ u) (hB : 1 ≤ B) (hN : N ≤ 31) {dims : Fin N → ℕ} {R : ℕ}
    (hd : ∀ j, dims j ≤ B) (hR : R ≤ B) {V : Tensor ℝ} {W : List (Tensor ℝ)}
    (hS : Shaped dims R V W) {T : Tensor ℝ} {seq : Key} {ms ms' : List (Fin N)} (h : SrcR u hN dims R V W T seq ms)
    {j : Fin N} (hj : j ∈ ms) (hms : ms'.toFinset = ms.toFinset.erase j) (hlen : ms'.length + 1 = ms.length) (hle : ms.length ≤ N)
    {Wj : Tensor ℝ} (hl : Wj.lens = [dims j, R]) (hW : mat Wj = mats W j) :
    ∃ T', P.ev (ms'.map dims ++ [R]) (ms'.map (idLab hN).lab ++ [star]) [(T, seq), (Wj, [letter j.1, star])] = .ok T' ∧
      SrcR u hN dims R V W T' (ms'.map (idLab hN).lab ++ [star]) ms' := by
  rcases h with ⟨rfl, hv⟩ | ⟨rfl, rfl, rfl⟩
  · obtain ⟨T', h1, h3⟩ := near_contract hP hu hB (idLab hN) hd hR (one_le_pow₀ (by linarith)) hv hl hW hj hms
    refine ⟨T', h1, .inl ⟨rfl, ?_⟩⟩
    rwa [← pow_succ, show N - ms.length + 1 = N - ms'.length by omega] at h3
  · have huniv : (List.finRange N).toFinset = univ := by ext; simp
    rw [huniv] at hms
    obtain ⟨T', h1, h3⟩ := near_contract_init hP hu hB (idLab hN) hd hR (W := mats W) hS.lensV hl hW hms
    refine ⟨T', ?_, .inl ⟨rfl, ?_⟩⟩
    · rw [List.ofFn_eq_map] at h1
      exact h1
    · rw [List.length_finRange] at hlen
      rw [show N - ms'.length = 1 by omega, pow_one]
      exact h3

theorem sibLoopR_ok {B : ℕ} {u : ℝ} {P : Arith} (hP : RoundOk B u P) (hu : 0 ≤ u) (hB : 1 ≤ B) (hN : N ≤ 31) {dims : Fin N → ℕ} {R : ℕ}
    (hd : ∀ j, dims j ≤ B) (hR : R ≤ B) {V : Tensor ℝ} {W : List (Tensor ℝ)}
    (hS : Shaped dims R V W) {T0 : Tensor ℝ} {seq0 : Key} {ms : List (Fin N)} (hnd : ms.Nodup)
    (h0 : SrcR u hN dims R V W T0 seq0 ms) {start len : ℕ} (hlen : start + len ≤ ms.length) (hpos : 0 < len)
    {wat : ℕ → Label → Except Fault (Tensor ℝ)}
    (hwat : ∀ j < len, ∀ m, ms[start + j]? = some m → wat j (letter m.1) = rd W ((m.1 : ℕ) : ℤ)) :
    ∃ T, sibLoopR P (ms.map (idLab hN).lab) (((ms.drop start).take len).map (idLab hN).lab) (ms.map dims) R start wat T0
        seq0 = .ok T ∧ Near ((1 + u) ^ (N - (ms.length - len))) dims R (arr V N) (mats W) T (ms.take start ++ ms.drop (start + len)) := by
  have hsl : (((ms.drop start).take len).map (idLab hN).lab).length = len := by simp; omega
  obtain ⟨s, hs, hPs⟩ := foldlM_range'_inv (s := 0) (n := len)
    (P := fun j (s : Tensor ℝ × Key) => SrcR u hN dims R V W s.1 s.2 (ms.take start ++ ms.drop (start + j)) ∧
      (0 < j → s.2 = (ms.take start ++ ms.drop (start + j)).map (idLab hN).lab ++ [star]))
    (f := fun (s : Tensor ℝ × Key) (j : ℕ) => do
      let c ← rd (((ms.drop start).take len).map (idLab hN).lab) j
      let seqF := (ms.map (idLab hN).lab).take start ++ (ms.map (idLab hN).lab).drop (start + j + 1) ++ [star]
      let lens := (ms.map dims).take start ++ (ms.map dims).drop (start + j + 1) ++ [R]
      let Wj ← wat j c
      let T ← P.ev lens seqF [(s.1, s.2), (Wj, [c, star])]
      pure (T, seqF)) (a := (T0, seq0))
    ⟨by simpa using h0, fun h => absurd h (by omega)⟩
    (by
      rintro j ⟨T, seq⟩ _ hj ⟨hPj, _⟩
      have hjl : start + j < ms.length := by omega
      have hget : ms[start + j]? = some (ms[start + j]) := List.getElem?_eq_getElem hjl
      have hrd : rd (((ms.drop start).take len).map (idLab hN).lab) ((j : ℕ) : ℤ) = .ok (letter (ms[start + j]).1) := by
        apply rd_of
        rw [List.getElem?_map, List.getElem?_take_of_lt (by omega), List.getElem?_drop, hget]
        rfl
      have hsplit : ms.drop (start + j) = ms[start + j] :: ms.drop (start + j + 1) := List.drop_eq_getElem_cons hjl
      obtain ⟨Wj, hW1, _, hW2, hW3⟩ := mats_get hS ms[start + j]
      have hnd' : (ms.take start ++ ms[start + j] :: ms.drop (start + j + 1)).Nodup := by
        rw [← hsplit]
        refine List.Sublist.nodup ?_ hnd
        conv_rhs => rw [← List.take_append_drop start ms]
        refine List.Sublist.append (List.Sublist.refl _) ?_
        rw [← List.drop_drop]
        exact List.drop_sublist _ _
      obtain ⟨T', hT', hS'⟩ := srcR_step hP hu hB hN hd hR hS hPj (j := ms[start + j])
        (ms' := ms.take start ++ ms.drop (start + j + 1))
        (by rw [hsplit]; exact List.mem_append_right _ List.mem_cons_self) (by
          rw [hsplit]
          ext m
          simp only [List.mem_toFinset, List.mem_append, Finset.mem_erase, List.mem_cons]
          rw [List.nodup_append] at hnd'
          obtain ⟨_, n2, n3⟩ := hnd'
          rw [List.nodup_cons] at n2
          constructor
          · rintro (h | h)
            · exact ⟨fun e => n3 m h ms[start + j] List.mem_cons_self e, .inl h⟩
            · exact ⟨fun e => n2.1 (e ▸ h), .inr (.inr h)⟩
          · rintro ⟨h1, h | h | h⟩
            · exact .inl h
            · exact absurd h h1
            · exact .inr h) (by simp; omega) (by
          have := hnd.length_le_card
          rw [Fintype.card_fin] at this
          simp; omega) hW2 hW3.symm
      refine ⟨(T', (ms.take start ++ ms.drop (start + j + 1)).map (idLab hN).lab ++ [star]), ?_, hS', fun _ => rfl⟩
      simp only [bind, Except.bind]
      rw [hrd]
      simp only
      rw [hwat j (by omega) _ hget, hW1]
      simp only
      rw [← List.map_take, ← List.map_take, ← List.map_drop, ← List.map_drop, ← List.map_append, ← List.map_append, hT']
      rfl)
  obtain ⟨T, seq⟩ := s
  rw [Nat.zero_add] at hPs
  obtain ⟨hsrc, hseq⟩ := hPs
  refine ⟨T, ?_, ?_⟩
  · unfold sibLoopR
    rw [hsl, List.range_eq_range']
    simp only [bind, Except.bind] at hs ⊢
    rw [hs]
    rfl
  · rcases hsrc with ⟨_, h2⟩ | ⟨_, h2, _⟩
    · rwa [show (ms.take start ++ ms.drop (start + len)).length = ms.length - len by simp; omega] at h2
    · have := hseq hpos
      simp only at h2 this
      rw [h2] at this
      have := congrArg List.length this
      simp at this

/-- An approximate node. -/
def CpNear (u : ℝ) (h0 : 0 < N) (dims : Fin N → ℕ) (R : ℕ) (V : Tensor ℝ) (W : List (Tensor ℝ)) (n : Iv) (T : Tensor ℝ) : Prop :=
  Near ((1 + u) ^ (N - (n.2 + 1 - n.1))) dims R (arr V N) (mats W) T (ivModes h0 n)

theorem cpFromRootR_ok {B : ℕ} {u : ℝ} {P : Arith} (hP : RoundOk B u P) (hu : 0 ≤ u) (hB : 1 ≤ B) (h2 : 2 ≤ N) (hN : N ≤ 31) {dims : Fin N → ℕ} {R : ℕ}
    (hd : ∀ j, dims j ≤ B) (hR : R ≤ B) {V : Tensor ℝ} {W : List (Tensor ℝ)}
    (hS : Shaped dims R V W) {n b : Iv} (h : Sub 0 (N - 1) n (0, N - 1) b) :
    ∃ T, cpFromRootR P N (constructDT 0 (N - 1) {}) V W (ivStr n) = .ok T ∧ CpNear u (by omega) dims R V W n T := by
  have h0 : 0 < N := by omega
  obtain ⟨m1, m2, m3, m4, m5⟩ := sub_modes h0 h
  simp only at m3 m5
  obtain ⟨W0, hW0, _, hW0l, _⟩ := mats_get hS ⟨0, h0⟩
  obtain ⟨t1, t2⟩ := mapGet_tree (by omega) h
  obtain ⟨T, hT, hv⟩ := sibLoopR_ok hP hu hB hN hd hR hS (T0 := V) (seq0 := ivStr (0, N - 1)) (ivModes_nodup h0 (n := (0, N - 1)) (by simp only; omega))
    (.inr ⟨rfl, (ivModes_lab h0 hN (by simp only; omega)).symm, ivModes_root h0⟩) (start := b.1 - 0)
    (len := b.2 + 1 - b.1) (by rw [ivModes_length]; simp only; omega) (by omega)
    (wat := fun j _ => rd W (((letter b.1 : ℤ) - 97).toNat + j : ℤ)) (by
      intro j hj m hm
      rw [ivModes_get h0 (by simp only; omega)] at hm
      cases hm
      rw [modeOf_val h0 (by simp only; omega), letter_eq (by omega)]
      simp only
      congr 1
      change (_ : ℤ) = _
      omega)
  rw [m1] at hv
  refine ⟨T, ?_, ?_⟩
  case refine_2 =>
    unfold CpNear
    rwa [ivModes_length, show N - ((0, N - 1).2 + 1 - (0, N - 1).1 - (b.2 + 1 - b.1)) = N - (n.2 + 1 - n.1) by
      obtain ⟨s1, s2, s3, (⟨e1, e2⟩ | ⟨e1, e2⟩)⟩ := h.shape <;> rw [e1, e2] <;> simp only <;> omega] at hv
  unfold cpFromRootR
  simp only [t1, t2, bind, Except.bind]
  have e0 : rd W 0 = .ok W0 := hW0
  have e1 : rd (ivStr b) 0 = .ok (letter b.1) := rd_strOf (n := b) (j := 0) (by omega)
  rw [e0, e1]
  simp only
  rw [if_neg]
  · have hcast : ((letter b.1 : ℤ) - 97).toNat = b.1 - 0 := by
      rw [letter_eq (by omega)]
      omega
    simp only [hcast] at hT ⊢
    rw [m2, ivModes_lab h0 hN (by omega), ivModes_lab h0 hN (by omega)] at hT
    rw [show ncol W0 = R by simp [ncol, hW0l]]
    rw [show V.lens = (ivModes h0 (0, N - 1)).map dims by rw [hS.lensV, ivModes_root, List.ofFn_eq_map]]
    exact hT
  · rw [letter_eq (by omega)]
    simp only [strOf_length]
    push Not
    refine ⟨by omega, ?_, ?_⟩
    · change ((_ : ℤ) ≤ _); omega
    · change ((_ : ℤ) < _); omega

theorem cpFromParentR_ok {B : ℕ} {u : ℝ} {P : Arith} (hP : RoundOk B u P) (hu : 0 ≤ u) (hB : 1 ≤ B) (h2 : 2 ≤ N) (hN : N ≤ 31) {dims : Fin N → ℕ} {R : ℕ}
    (hd : ∀ j, dims j ≤ B) (hR : R ≤ B) {V : Tensor ℝ} {W : List (Tensor ℝ)}
    (hS : Shaped dims R V W) {n p b : Iv} (h : Sub 0 (N - 1) n p b) {Tp : Tensor ℝ}
    (hp : CpNear u (by omega) dims R V W p Tp) :
    ∃ T, cpFromParentR P (constructDT 0 (N - 1) {}) W (ivStr n) Tp = .ok T ∧ CpNear u (by omega) dims R V W n T := by
  have h0 : 0 < N := by omega
  obtain ⟨m1, m2, m3, m4, m5⟩ := sub_modes h0 h
  have hsh := h.shape
  have hp2 : p.2 < N := by omega
  obtain ⟨W0, hW0, _, hW0l, _⟩ := mats_get hS ⟨0, h0⟩
  obtain ⟨t1, t2⟩ := mapGet_tree (by omega) h
  have hplen := ivModes_length h0 p
  obtain ⟨T, hT, hv⟩ := sibLoopR_ok hP hu hB hN hd hR hS (T0 := Tp) (seq0 := ivStr p ++ [star]) (ivModes_nodup h0 hp2)
    (.inl ⟨by rw [ivModes_lab h0 hN hp2], by rw [ivModes_length]; exact hp⟩) (start := b.1 - p.1)
    (len := b.2 + 1 - b.1) (by rw [ivModes_length]; omega) (by omega)
    (wat := fun _ c => rd W (decode c)) (by
      intro j hj m hm
      rw [decode_letter (by omega)])
  rw [m1] at hv
  refine ⟨T, ?_, ?_⟩
  case refine_2 =>
    unfold CpNear
    rwa [ivModes_length, show N - (p.2 + 1 - p.1 - (b.2 + 1 - b.1)) = N - (n.2 + 1 - n.1) by
      obtain ⟨s1, s2, s3, (⟨e1, e2⟩ | ⟨e1, e2⟩)⟩ := h.shape <;> rw [e1, e2] <;> simp only <;> omega] at hv
  unfold cpFromParentR
  simp only [t1, t2, bind, Except.bind]
  have e0 : rd W 0 = .ok W0 := hW0
  have e1 : rd (ivStr b) 0 = .ok (letter b.1) := rd_strOf (n := b) (j := 0) (by omega)
  have e2 : rd (ivStr p) 0 = .ok (letter p.1) := rd_strOf (n := p) (j := 0) (by omega)
  rw [e0, e1, e2]
  simp only
  rw [if_neg]
  · have hcast : ((letter b.1 : ℤ) - (letter p.1 : ℤ)).toNat = b.1 - p.1 := by
      rw [letter_eq (by omega), letter_eq (by omega)]
      omega
    simp only [hcast]
    rw [m2, ivModes_lab h0 hN (by omega), ivModes_lab h0 hN (by omega)] at hT
    rw [show ncol W0 = R by simp [ncol, hW0l]]
    rw [show Tp.lens.dropLast = (ivModes h0 p).map dims by rw [hp.lens]; simp]
    exact hT
  · rw [letter_eq (by omega), letter_eq (by omega)]
    simp only [strOf_length, hp.lens]
    push Not
    refine ⟨by simp [hplen], ?_⟩
    change ((_ : ℤ) ≤ _); omega


theorem cpMapDTR_ok {B : ℕ} {u : ℝ} {P : Arith} (hP : RoundOk B u P) (hu : 0 ≤ u) (hB : 1 ≤ B) (h4 : 4 ≤ N) (h5 : N ≠ 5) (hN : N ≤ 31)
    {dims : Fin N → ℕ} {R : ℕ} (hd : ∀ j, dims j ≤ B) (hR : R ≤ B) {V : Tensor ℝ}
    {W : List (Tensor ℝ)} (hS : Shaped dims R V W) {i fuel : ℕ} {n p b : Iv} {cache : Cache ℝ}
    (hn : Sub 0 (N - 1) n p b) (h1 : n.1 ≤ i) (h2 : i ≤ n.2) (hf : N ≤ fuel)
    (hI : DInv N (CpNear u (by omega) dims R V W) i cache) :
    ∃ cache', cpMapDTR P N (constructDT 0 (N - 1) {}) V W fuel (ivStr n) cache = .ok cache' ∧
      DInv N (CpNear u (by omega) dims R V W) i cache' ∧
      ∃ T, cache'.lookup (ivStr n) = some T ∧ CpNear u (by omega) dims R V W n T :=
  dtNode_ok h4 h5 (by omega) (fun _ _ h => cpFromRootR_ok hP hu hB (by omega) hN hd hR hS h)
    (fun _ _ _ h _ _ hT => cpFromParentR_ok hP hu hB (by omega) hN hd hR hS h hT) i fuel n p b cache hn h1 h2 (by omega) hI

theorem legacyMR_ok {b : ℕ} {u : ℝ} {P : Arith} (hP : RoundOk (b * b) u P) (hu : 0 ≤ u) (hb : 1 ≤ b) (h4 : 4 ≤ N) (h5 : N ≠ 5) (hN : N ≤ 31) {dims : Fin N → ℕ} {R : ℕ} (hd : ∀ j, dims j ≤ b) (hR : R ≤ b) {V : Tensor ℝ}
    {W : List (Tensor ℝ)} (hS : Shaped dims R V W) (i : Fin N) {cache : Cache ℝ}
    (hI : DInv N (CpNear u (by omega) dims R V W) i.1 cache) :
    ∃ M cache', legacyMR P N (constructDT 0 (N - 1) {}) V W cache i.1 = .ok (M, cache') ∧ Near ((1 + u) ^ (N - 1)) dims R (arr V N) (mats W) M [i] ∧
      DInv N (CpNear u (by omega) dims R V W) i.1 cache' := by
  have h0 : 0 < N := by omega
  have hdB : ∀ j, dims j ≤ b * b := fun j => (hd j).trans (Nat.le_mul_of_pos_right b hb)
  have hRB : R ≤ b * b := hR.trans (Nat.le_mul_of_pos_right b hb)
  have hup : ∀ {k : ℕ}, (1 + u) ^ k * (1 + u) = (1 + u) ^ (k + 1) := fun {k} => (pow_succ _ k).symm
  obtain ⟨p, bb, p', b', hn, hpp, hp1, hp2, hp3, hcase⟩ := leaf_cases h4 i
  obtain ⟨t1, t2⟩ := mapGet_tree (by omega) hn
  simp only [ivStr, strOf_self] at t1 t2
  obtain ⟨c1, hc1, hI1, Tp, hTp, hTv⟩ : ∃ c1, (if (cache.lookup (ivStr p)).isNone then
      cpMapDTR P N (constructDT 0 (N - 1) {}) V W (N + 1) (ivStr p) cache else pure cache) = .ok c1 ∧
      DInv N (CpNear u (by omega) dims R V W) i.1 c1 ∧ ∃ T, c1.lookup (ivStr p) = some T ∧ CpNear u (by omega) dims R V W p T := by
    by_cases hnone : (cache.lookup (ivStr p)).isNone
    · rw [if_pos hnone]
      exact cpMapDTR_ok hP hu (Nat.mul_le_mul hb hb) h4 h5 hN hdB hRB hS hpp hp1 hp2 (by omega) hI
    · rw [if_neg hnone]
      obtain ⟨T, hT⟩ : ∃ T, cache.lookup (ivStr p) = some T := by
        rw [← Option.isSome_iff_exists]
        simpa [Option.isSome_iff_ne_none] using hnone
      exact ⟨cache, rfl, hI, T, hT, (hI p p' b' hpp T hT).2 hp2⟩
  obtain ⟨Wi, hWi, _, hWil, _⟩ := mats_get hS i
  have hnr : [nrow Wi, ncol Wi] = [i].map dims ++ [R] := by simp [nrow, ncol, hWil]
  have hlab : [letter i.1, star] = [i].map (idLab hN).lab ++ [(idLab hN).rk] := rfl
  have hplen : 2 ≤ p.2 + 1 - p.1 := by
    rcases hcase with ⟨rfl, _⟩ | ⟨_, rfl, _⟩ | ⟨_, rfl, _⟩ <;> simp only <;> omega
  have e0 : rd (ivStr p) 0 = .ok (letter p.1) := rd_strOf (n := p) (j := 0) (by omega)
  have e1 : rd (ivStr p) 1 = .ok (letter (p.1 + 1)) := rd_strOf (n := p) (j := 1) (by omega)
  have hpl := ivModes_lab h0 hN hp3
  unfold legacyMR
  simp only [t1, t2, bind, Except.bind]
  simp only [ivStr] at hc1 e0 e1 hTp hpl
  rw [hc1, hWi, e0, e1]
  simp only [hTp, strOf_length]
  have hli : ∀ k, k < 31 → (letter k = letter i.1 ↔ k = i.1) := by
    intro k hk
    constructor
    · intro h; exact letter_inj (by omega) (by omega) h
    · rintro rfl; rfl
  -- a two-mode parent, the other mode being `k`
  have two : ∀ k, k < N → k ≠ i.1 → p.2 = p.1 + 1 → (k = p.1 ∧ i.1 = p.1 + 1 ∨ k = p.1 + 1 ∧ i.1 = p.1) →
      ∃ Wc M, rd W (decode (letter k)) = .ok Wc ∧
        P.ev [nrow Wi, ncol Wi] [letter i.1, star] [(Tp, [letter p.1, letter (p.1 + 1), star]),
        (Wc, [letter k, star])] = .ok M ∧ Near ((1 + u) ^ (N - 1)) dims R (arr V N) (mats W) M [i] := by
    intro k hk hki hp12 hkp
    obtain ⟨Wc, hrd, hl, he⟩ := decode_rd hN hS hk
    obtain ⟨M, hM, hMv⟩ := near_contract hP hu (Nat.mul_le_mul hb hb) (idLab hN) hdB hRB (one_le_pow₀ (by linarith)) hTv hl he (j := ⟨k, hk⟩) (ms' := [i])
      ((mem_ivModes h0 hp3).2 (by simp only; omega)) (by
        ext m
        simp only [List.mem_toFinset, List.mem_singleton, Finset.mem_erase, mem_ivModes h0 hp3, Ne, Fin.ext_iff]
        omega)
    rw [hpl] at hM
    rw [show strOf p.1 p.2 = [letter p.1, letter (p.1 + 1)] by rw [hp12]; exact strOf_pair _] at hM
    refine ⟨Wc, M, hrd, ?_, ?_⟩
    case refine_2 =>
      rw [hup] at hMv
      exact hMv.mono (pow_le_pow_right₀ (by linarith) (by omega))
    rw [hnr, hlab]
    exact hM
  rcases hcase with ⟨rfl, rfl⟩ | ⟨hi1, rfl, rfl⟩ | ⟨hi2, rfl, rfl⟩
  · simp only at hp3 ⊢
    obtain ⟨Wc, M, hr, hM, hMv⟩ := two (i.1 + 1) hp3 (by omega) rfl (.inr ⟨rfl, rfl⟩)
    refine ⟨M, c1, ?_, hMv, hI1⟩
    rw [if_pos (by omega), if_pos trivial, hr]
    simp only
    simp only at hM
    rw [hM]
    rfl
  · simp only at hp3 ⊢
    obtain ⟨Wc, M, hr, hM, hMv⟩ := two (i.1 - 1) (by omega) (by omega) (by simp only; omega)
      (.inl ⟨rfl, by simp only; omega⟩)
    refine ⟨M, c1, ?_, hMv, hI1⟩
    rw [if_pos (by omega), if_neg (by rw [hli _ (by omega)]; omega), hr]
    simp only
    simp only at hM
    rw [hM]
    rfl
  · simp only at hp3 ⊢
    rw [if_neg (by omega)]
    simp only [if_neg (show ¬ letter (i.1 - 2) = letter i.1 by rw [hli _ (by omega)]; omega)]
    have e2 : rd (strOf (i.1 - 2) i.1) 2 = .ok (letter (i.1 - 2 + 2)) := rd_strOf (n := (i.1 - 2, i.1)) (j := 2) (by simp only; omega)
    rw [e2]
    simp only
    obtain ⟨W1, hW1, hl1, he1⟩ := decode_rd hN hS (k := i.1 - 2) (by omega)
    obtain ⟨W2, hW2, hl2, he2⟩ := decode_rd hN hS (k := i.1 - 2 + 1) (by omega)
    rw [hW1, hW2]
    simp only
    obtain ⟨M, hM, hMv⟩ := near_contract2 hP hu hb (idLab hN) hd hR (one_le_pow₀ (by linarith)) hTv hl1 he1 hl2 he2 (ms' := [i])
      ((mem_ivModes h0 hp3).2 (by simp only; omega)) ((mem_ivModes h0 hp3).2 (by simp only; omega))
      (by simp only [Ne, Fin.ext_iff]; omega) (by
        ext m
        simp only [List.mem_toFinset, List.mem_singleton, Finset.mem_erase, mem_ivModes h0 (n := (i.1 - 2, i.1)) hp3, Ne, Fin.ext_iff]
        omega)
    rw [hpl] at hM
    rw [show strOf (i.1 - 2) i.1 = [letter (i.1 - 2), letter (i.1 - 2 + 1), letter (i.1 - 2 + 2)] by
      unfold strOf
      rw [show i.1 + 1 - (i.1 - 2) = 3 by omega]
      rfl] at hM
    refine ⟨M, c1, ?_, ?_, hI1⟩
    case refine_2 =>
      rw [hup] at hMv
      exact hMv.mono (pow_le_pow_right₀ (by linarith) (by simp only; omega))
    rw [hnr, hlab]
    simp only [List.cons_append, List.nil_append] at hM
    erw [hM]
    rfl

/-- Adding a zero matrix, rounded. -/
theorem near_add_zero {B : ℕ} {u : ℝ} {P : Arith} (hP : RoundOk B u P) (hu : 0 ≤ u) {dims : Fin N → ℕ} {R : ℕ}
    {V : (Fin N → ℕ) → ℝ} {W : Fin N → ℕ → ℕ → ℝ} {c : ℝ} (hc : 1 ≤ c) {M F : Tensor ℝ} {i : Fin N} (hM : Near c dims R V W M [i])
    (hFl : F.lens = [dims i, R]) (hF : ∀ x < dims i, ∀ r < R, mat F x r = 0) :
    ∃ M', P.zp (· + ·) M F = .ok M' ∧ Near (c * (1 + u)) dims R V W M' [i] := by
  obtain ⟨E, A, k1, k2, h1, h2, h3⟩ := hM
  have hz : ∀ (T G : Tensor ℝ), Canon T → T.lens = [dims i, R] → G.lens = [dims i, R] → (∀ x < dims i, ∀ r < R, mat G x r = 0) →
      zipT (· + ·) T G = .ok T := by
    intro T G hc hl hGl hG
    obtain ⟨T', t1, t2, t3, t4⟩ := zipT_ok (· + ·) (A := T) (B := G) (by rw [hl, hGl])
    rw [t1]
    congr 1
    apply Tensor.ext_canon t2 hc t3
    intro idx hfit
    rw [t3] at hfit
    rw [t4 idx hfit]
    rw [hl] at hfit
    have hlen := fits_length hfit
    match idx, hlen with
    | [x, r], _ =>
      obtain ⟨hx, hr⟩ := fits_two.1 hfit
      have := hG x hx r hr
      unfold mat at this
      rw [this, add_zero]
  obtain ⟨M', m1, m2⟩ := zp_rel hP hu signedSum_add hc h3 ((RelT.exact F).mono hc) (hz E F k1 (by simpa using h1.1) hFl hF)
    (hz A (absT F) k2 (by simpa using h2.1) hFl (fun x hx r hr => by rw [mat_absT]; simp [hF x hx r hr]))
  exact ⟨M', m1, E, A, k1, k2, h1, h2, m2⟩

/-- Update of one mode. -/
theorem legacyUpdateR_ok {b : ℕ} {u : ℝ} {P : Arith} (hP : RoundOk (b * b) u P) (hu : 0 ≤ u) (hb : 1 ≤ b) (h4 : 4 ≤ N) (h5 : N ≠ 5)
    (hN : N ≤ 31) {dims : Fin N → ℕ} {R : ℕ} (hd : ∀ j, dims j ≤ b) (hR : R ≤ b) {V : Tensor ℝ}
    (lam : ℝ) (solve : Spec.Solver ℝ) {F : List (Tensor ℝ)} (hF : Shaped dims R V F) (hF0 : ∀ i x r, mats (N := N) F i x r = 0)
    {f : Fac ℝ} (hS : Shaped dims R V f.W) (hG : f.G.length = N) (i : Fin N) {cache : Cache ℝ}
    (hI : DInv N (CpNear u (by omega) dims R V f.W) i.1 cache) :
    ∃ f' cache', legacyUpdateR P N R lam solve (constructDT 0 (N - 1) {}) V F (f, cache) i.1 = .ok (f', cache') ∧
      Shaped dims R V f'.W ∧ f'.G.length = N ∧
      Spec.RoundedUpdate dims R lam solve (arr V N) ((1 + u) ^ N - 1) ((1 + u) ^ N - 1) ((1 + u) ^ (N + 2) - 1) i (absF N f) (absF N f') ∧
      DInv N (CpNear u (by omega) dims R V f'.W) (i.1 + 1) cache' := by
  have hdB : ∀ j, dims j ≤ b * b := fun j => (hd j).trans (Nat.le_mul_of_pos_right b hb)
  have hRB : R ≤ b * b := hR.trans (Nat.le_mul_of_pos_right b hb)
  obtain ⟨M, c1, hM, hMv, hI1⟩ := legacyMR_ok hP hu hb h4 h5 hN hd hR hS i hI
  obtain ⟨Fi, hFi, _, hFl, hFe⟩ := mats_get hF i
  obtain ⟨M', m1, m2⟩ := near_add_zero hP hu (one_le_pow₀ (by linarith)) hMv hFl (fun x _ r _ => by rw [← hFe]; exact hF0 i x r)
  rw [← pow_succ, show N - 1 + 1 = N by omega] at m2
  obtain ⟨f', q1, q2, q3, q4⟩ := near_update hP hu (Nat.mul_le_mul hb hb) (by omega) hdB hRB hS hG lam solve i (index := swapIdx N i.1)
    (fun _ => mem_swapIdx i.2) (swapIdx_nodup _) (pow_le_pow_right₀ (by linarith) (show N ≤ N + 1 by omega)) m2
  refine ⟨f', c1, ?_, q2, q3, q4, ?_⟩
  · simp only [bind, Except.bind] at q1
    unfold legacyUpdateR
    simp only [bind, Except.bind]
    rw [hM]
    simp only
    revert q1
    cases gramSR P (swapIdx N i.1) R lam f.W with
    | error e => intro q1; cases q1
    | ok S =>
      intro q1
      simp only at q1 ⊢
      rw [hFi]
      simp only
      rw [m1]
      simp only
      rw [q1]
      rfl
  · refine hI1.next ?_
    intro n p b hn hle hle' T hv
    refine Near.congr hv ?_
    intro j hj
    have hnl := hn.node_le
    rw [mem_ivModes (by omega) (by omega)] at hj
    exact (roundedUpdate_other q4 (m := j) (by rintro rfl; omega)).symm

/-- All updates of a sweep, starting with an empty cache. -/
theorem legacyUpdatesR_ok {b : ℕ} {u : ℝ} {P : Arith} (hP : RoundOk (b * b) u P) (hu : 0 ≤ u) (hb : 1 ≤ b) (h4 : 4 ≤ N) (h5 : N ≠ 5)
    (hN : N ≤ 31) {dims : Fin N → ℕ} {R : ℕ} (hd : ∀ j, dims j ≤ b) (hR : R ≤ b) {V : Tensor ℝ}
    (lam : ℝ) (solve : Spec.Solver ℝ) {F : List (Tensor ℝ)} (hF : Shaped dims R V F) (hF0 : ∀ i x r, mats (N := N) F i x r = 0)
    {f : Fac ℝ} (hS : Shaped dims R V f.W) (hG : f.G.length = N) :
    ∃ f', legacyUpdatesR P N R lam solve V F f = .ok f' ∧ Shaped dims R V f'.W ∧ f'.G.length = N ∧
      Spec.RoundedRun dims R lam solve (arr V N) ((1 + u) ^ N - 1) ((1 + u) ^ N - 1) ((1 + u) ^ (N + 2) - 1)
        (List.finRange N) (absF N f) (absF N f') := by
  obtain ⟨s, hs, h1, h2, h3, h4'⟩ := foldlM_range'_inv (s := 0) (n := N)
    (P := fun j (s : Fac ℝ × Cache ℝ) => Shaped dims R V s.1.W ∧ s.1.G.length = N ∧
      Spec.RoundedRun dims R lam solve (arr V N) ((1 + u) ^ N - 1) ((1 + u) ^ N - 1) ((1 + u) ^ (N + 2) - 1)
        ((List.finRange N).take j) (absF N f) (absF N s.1) ∧
      DInv N (CpNear u (by omega) dims R V s.1.W) j s.2)
    (f := legacyUpdateR P N R lam solve (constructDT 0 (N - 1) {}) V F) (a := (f, []))
    ⟨hS, hG, .nil _, DInv.nil _ _⟩
    (by
      rintro j ⟨g, c⟩ _ hj ⟨g1, g2, g3, g4⟩
      obtain ⟨f', c', b1, b2, b3, b4, b5⟩ := legacyUpdateR_ok hP hu hb h4 h5 hN hd hR lam solve hF hF0 g1 g2 ⟨j, by omega⟩ g4
      refine ⟨(f', c'), b1, b2, b3, ?_, b5⟩
      have := RoundedRun.snoc g3 b4
      rw [List.take_add_one, List.getElem?_eq_getElem (by simpa using hj)]
      simpa using this)
  refine ⟨s.1, ?_, h1, h2, ?_⟩
  · unfold legacyUpdatesR
    simp only
    rw [List.range_eq_range', hs]
    rfl
  · rwa [Nat.zero_add, List.take_of_length_le (by simp)] at h3

end Model
