import Verif.Proofs.LegacyTree
import Verif.Proofs.Contract2
import Verif.Proofs.Loop

/-! The caches of the legacy dimension trees. -/

namespace Model

open Finset

variable {K : Type} {N : ℕ}

/-! ### the traversal, for any kind of node -/

/-- The cache while mode `i` is treated: every cached node starts at or before `i`, and those that contain `i` are good. -/
def DInv {τ : Type} (N : ℕ) (Good : Iv → τ → Prop) (i : ℕ) (cache : List (Key × τ)) : Prop :=
  ∀ n p b, Sub 0 (N - 1) n p b → ∀ T, cache.lookup (ivStr n) = some T → n.1 ≤ i ∧ (i ≤ n.2 → Good n T)

theorem DInv.nil {τ : Type} (Good : Iv → τ → Prop) (i : ℕ) : DInv N Good i [] := by
  intro n p b _ T h; simp at h

/-- Passing to the next mode: nodes that contain the next mode and start at or before `i` contain `i`; they have to stay
good. -/
theorem DInv.next {τ : Type} {Good Good' : Iv → τ → Prop} {i : ℕ} {cache : List (Key × τ)} (h : DInv N Good i cache)
    (hg : ∀ n p b, Sub 0 (N - 1) n p b → n.1 ≤ i → i + 1 ≤ n.2 → ∀ T, Good n T → Good' n T) :
    DInv N Good' (i + 1) cache := by
  intro n p b hn T hT
  obtain ⟨h1, h2⟩ := h n p b hn T hT
  exact ⟨by omega, fun hi => hg n p b hn h1 hi T (h2 (by omega))⟩

theorem mapGet_tree (hN : N ≤ 159) {n p b : Iv} (h : Sub 0 (N - 1) n p b) :
    mapGet (constructDT 0 (N - 1) {}).parent (ivStr n) = ivStr p ∧
    mapGet (constructDT 0 (N - 1) {}).sibling (ivStr n) = ivStr b := by
  have hlt := h.lt
  obtain ⟨h1, h2⟩ := constructDT_sub (by omega) h {}
  unfold mapGet
  rw [h1, h2]
  exact ⟨rfl, rfl⟩

theorem DInv.cons {τ : Type} (hN : N ≤ 159) {Good : Iv → τ → Prop} {i : ℕ} {cache : List (Key × τ)}
    (h : DInv N Good i cache) {n p b : Iv} (hn : Sub 0 (N - 1) n p b) (hi : n.1 ≤ i) {T : τ} (hT : Good n T) :
    DInv N Good i ((ivStr n, T) :: cache) := by
  intro n' p' b' hn' T' hT'
  have hlt := hn.lt
  by_cases e : n' = n
  · subst e
    rw [lookup_cons_self] at hT'
    cases hT'
    exact ⟨hi, fun _ => hT⟩
  · have hle := hn'.node_le
    rw [lookup_cons_ne (iv_ne (by omega) hn (by omega) (by omega) e)] at hT'
    exact h n' p' b' hn' T' hT'

/-- `dtNode` makes a node that contains mode `i` available. -/
theorem dtNode_ok {τ : Type} (h4 : 4 ≤ N) (h5 : N ≠ 5) (hN : N ≤ 159) {Good : Iv → τ → Prop}
    {fromRoot : Key → Except Fault τ} {fromParent : Key → τ → Except Fault τ}
    (hroot : ∀ n b, Sub 0 (N - 1) n (0, N - 1) b → ∃ T, fromRoot (ivStr n) = .ok T ∧ Good n T)
    (hpar : ∀ n p b, Sub 0 (N - 1) n p b → p ≠ (0, N - 1) → ∀ Tp, Good p Tp →
      ∃ T, fromParent (ivStr n) Tp = .ok T ∧ Good n T) (i : ℕ) :
    ∀ (fuel : ℕ) (n p b : Iv) (cache : List (Key × τ)), Sub 0 (N - 1) n p b → n.1 ≤ i → i ≤ n.2 →
      N - (n.2 + 1 - n.1) ≤ fuel → DInv N Good i cache →
      ∃ cache', dtNode N (constructDT 0 (N - 1) {}) fromRoot fromParent fuel (ivStr n) cache = .ok cache' ∧
        DInv N Good i cache' ∧ ∃ T, cache'.lookup (ivStr n) = some T ∧ Good n T := by
  intro fuel
  induction fuel with
  | zero =>
    intro n p b cache hn h1 h2 hf
    have := hn.node_le
    omega
  | succ fuel ih =>
    intro n p b cache hn h1 h2 hf hI
    unfold dtNode
    by_cases hs : (cache.lookup (ivStr n)).isSome
    · rw [if_pos hs]
      obtain ⟨T, hT⟩ := Option.isSome_iff_exists.1 hs
      exact ⟨cache, rfl, hI, T, hT, (hI n p b hn T hT).2 h2⟩
    rw [if_neg hs]
    by_cases hl : (ivStr n).length = N / 2 ∨ (ivStr n).length = N / 2 + 1
    · rw [if_pos hl]
      have hp := (hn.length_test h4 h5).2 hl
      subst hp
      obtain ⟨T, hT, hG⟩ := hroot n b hn
      simp only [bind, Except.bind]
      rw [hT]
      exact ⟨_, rfl, hI.cons hN hn h1 hG, T, lookup_cons_self _ _ _, hG⟩
    · rw [if_neg hl]
      have hp : p ≠ (0, N - 1) := fun e => hl ((hn.length_test h4 h5).1 e)
      obtain ⟨p', b', hpp⟩ := hn.up.resolve_left hp
      have hsh := hn.shape
      have hlen : n.2 + 1 - n.1 < p.2 + 1 - p.1 ∧ p.1 ≤ i ∧ i ≤ p.2 := by
        obtain ⟨a1, a2, a3, (⟨e1, _⟩ | ⟨_, e1⟩)⟩ := hsh <;> rw [e1] at h1 h2 ⊢ <;> simp only at h1 h2 ⊢ <;> omega
      have hnl := hn.node_le
      obtain ⟨c1, hc1, hI1, Tp, hTp, hGp⟩ : ∃ c1, (if (cache.lookup (ivStr p)).isNone then
          dtNode N (constructDT 0 (N - 1) {}) fromRoot fromParent fuel (ivStr p) cache else pure cache) = .ok c1 ∧
          DInv N Good i c1 ∧ ∃ T, c1.lookup (ivStr p) = some T ∧ Good p T := by
        by_cases hnone : (cache.lookup (ivStr p)).isNone
        · rw [if_pos hnone]
          exact ih p p' b' cache hpp hlen.2.1 hlen.2.2 (by omega) hI
        · rw [if_neg hnone]
          obtain ⟨T, hT⟩ : ∃ T, cache.lookup (ivStr p) = some T := by
            rw [← Option.isSome_iff_exists]
            simpa [Option.isSome_iff_ne_none] using hnone
          exact ⟨cache, rfl, hI, T, hT, (hI p p' b' hpp T hT).2 hlen.2.2⟩
      obtain ⟨T, hT, hG⟩ := hpar n p b hn hp Tp hGp
      simp only [(mapGet_tree hN hn).1, bind, Except.bind]
      rw [hc1]
      simp only [hTp]
      rw [hT]
      exact ⟨_, rfl, hI1.cons hN hn h1 hG, T, lookup_cons_self _ _ _, hG⟩

/-! ### modes of an interval -/

/-- Mode number `k` (reduced modulo the order, which is immaterial for `k < N`). -/
def modeOf (h : 0 < N) (k : ℕ) : Fin N := ⟨k % N, Nat.mod_lt _ h⟩

theorem modeOf_val (h : 0 < N) {k : ℕ} (hk : k < N) : (modeOf h k).1 = k := Nat.mod_eq_of_lt hk

theorem modeOf_self (h : 0 < N) (m : Fin N) : modeOf h m.1 = m := Fin.ext (Nat.mod_eq_of_lt m.2)

/-- The modes `a..e`. -/
def ivModes (h : 0 < N) (n : Iv) : List (Fin N) := (List.range' n.1 (n.2 + 1 - n.1)).map (modeOf h)

theorem ivModes_length (h : 0 < N) (n : Iv) : (ivModes h n).length = n.2 + 1 - n.1 := by simp [ivModes]

theorem mem_ivModes (h : 0 < N) {n : Iv} (hn : n.2 < N) {m : Fin N} : m ∈ ivModes h n ↔ n.1 ≤ m.1 ∧ m.1 ≤ n.2 := by
  simp only [ivModes, List.mem_map, List.mem_range'_1]
  constructor
  · rintro ⟨k, hk, rfl⟩
    rw [modeOf_val h (by omega)]
    omega
  · intro hm
    exact ⟨m.1, by omega, modeOf_self h m⟩

theorem ivModes_nodup (h : 0 < N) {n : Iv} (hn : n.2 < N) : (ivModes h n).Nodup := by
  unfold ivModes
  refine List.Nodup.map_on ?_ List.nodup_range'
  intro a ha b hb e
  rw [List.mem_range'_1] at ha hb
  have := congrArg Fin.val e
  rwa [modeOf_val h (by omega), modeOf_val h (by omega)] at this

theorem ivModes_lab (h : 0 < N) (h31 : N ≤ 31) {n : Iv} (hn : n.2 < N) :
    (ivModes h n).map (idLab h31).lab = ivStr n := by
  unfold ivModes ivStr strOf
  rw [List.map_map]
  apply List.map_congr_left
  intro k hk
  rw [List.mem_range'_1] at hk
  simp only [idLab, Function.comp]
  rw [modeOf_val h (by omega)]

theorem ivModes_get (h : 0 < N) {n : Iv} {j : ℕ} (hj : j < n.2 + 1 - n.1) :
    (ivModes h n)[j]? = some (modeOf h (n.1 + j)) := by
  unfold ivModes
  rw [List.getElem?_map, List.getElem?_eq_getElem (by simpa using hj)]
  simp

theorem ivModes_take (h : 0 < N) {a m e : ℕ} (hm : m ≤ e) :
    (ivModes h (a, e)).take (m + 1 - a) = ivModes h (a, m) := by
  unfold ivModes
  rw [← List.map_take]
  congr 1
  apply List.ext_getElem
  · simp; omega
  · intro k h1 h2
    simp

theorem ivModes_drop (h : 0 < N) {a m e : ℕ} (ha : a ≤ m + 1) :
    (ivModes h (a, e)).drop (m + 1 - a) = ivModes h (m + 1, e) := by
  unfold ivModes
  rw [← List.map_drop, List.drop_range']
  simp only
  rw [show a + (m + 1 - a) * 1 = m + 1 by omega, show e + 1 - a - (m + 1 - a) = e + 1 - (m + 1) by omega]

theorem ivModes_root (h : 0 < N) : ivModes h (0, N - 1) = List.finRange N := by
  unfold ivModes
  apply List.ext_getElem
  · simp; omega
  · intro k h1 h2
    have hk : k < N := by simpa using h2
    apply Fin.ext
    simp [modeOf, Nat.mod_eq_of_lt hk]

variable [CommRing K]

/-! ### the contraction loop -/

/-- What is being contracted: a valid node, or the input tensor itself. -/
def Src (hN : N ≤ 31) (dims : Fin N → ℕ) (R : ℕ) (V : Tensor K) (W : List (Tensor K)) (T : Tensor K) (seq : Key)
    (ms : List (Fin N)) : Prop :=
  (seq = ms.map (idLab hN).lab ++ [star] ∧ Canon T ∧ Valid dims R (arr V N) (mats W) T ms) ∨
    (T = V ∧ seq = ms.map (idLab hN).lab ∧ ms = List.finRange N)

theorem src_step (hN : N ≤ 31) {dims : Fin N → ℕ} {R : ℕ} {V : Tensor K} {W : List (Tensor K)}
    (hS : Shaped dims R V W) {T : Tensor K} {seq : Key} {ms ms' : List (Fin N)} (h : Src hN dims R V W T seq ms)
    {j : Fin N} (hj : j ∈ ms) (hms : ms'.toFinset = ms.toFinset.erase j) {Wj : Tensor K}
    (hl : Wj.lens = [dims j, R]) (hW : mat Wj = mats W j) :
    ∃ T', einsum (ms'.map dims ++ [R]) (ms'.map (idLab hN).lab ++ [star]) [(T, seq), (Wj, [letter j.1, star])] = .ok T' ∧
      Src hN dims R V W T' (ms'.map (idLab hN).lab ++ [star]) ms' := by
  rcases h with ⟨rfl, _, hv⟩ | ⟨rfl, rfl, rfl⟩
  · obtain ⟨T', h1, h2, h3⟩ := contract_valid (idLab hN) hv hl hW hj hms
    exact ⟨T', h1, .inl ⟨rfl, h2, h3⟩⟩
  · have hu : (List.finRange N).toFinset = univ := by ext; simp
    rw [hu] at hms
    obtain ⟨T', h1, h2, h3⟩ := contract_valid_init (idLab hN) (W := mats W) hS.lensV hl hW hms
    refine ⟨T', ?_, .inl ⟨rfl, h2, h3⟩⟩
    rw [List.ofFn_eq_map] at h1
    exact h1

theorem sibLoop_ok (hN : N ≤ 31) {dims : Fin N → ℕ} {R : ℕ} {V : Tensor K} {W : List (Tensor K)}
    (hS : Shaped dims R V W) {T0 : Tensor K} {seq0 : Key} {ms : List (Fin N)} (hnd : ms.Nodup)
    (h0 : Src hN dims R V W T0 seq0 ms) {start len : ℕ} (hlen : start + len ≤ ms.length) (hpos : 0 < len)
    {wat : ℕ → Label → Except Fault (Tensor K)}
    (hwat : ∀ j < len, ∀ m, ms[start + j]? = some m → wat j (letter m.1) = rd W ((m.1 : ℕ) : ℤ)) :
    ∃ T, sibLoop (ms.map (idLab hN).lab) (((ms.drop start).take len).map (idLab hN).lab) (ms.map dims) R start wat T0
        seq0 = .ok T ∧ Canon T ∧ Valid dims R (arr V N) (mats W) T (ms.take start ++ ms.drop (start + len)) := by
  have hsl : (((ms.drop start).take len).map (idLab hN).lab).length = len := by simp; omega
  obtain ⟨s, hs, hP⟩ := foldlM_range'_inv (s := 0) (n := len)
    (P := fun j (s : Tensor K × Key) => Src hN dims R V W s.1 s.2 (ms.take start ++ ms.drop (start + j)) ∧
      (0 < j → s.2 = (ms.take start ++ ms.drop (start + j)).map (idLab hN).lab ++ [star]))
    (f := fun (s : Tensor K × Key) (j : ℕ) => do
      let c ← rd (((ms.drop start).take len).map (idLab hN).lab) j
      let seqF := (ms.map (idLab hN).lab).take start ++ (ms.map (idLab hN).lab).drop (start + j + 1) ++ [star]
      let lens := (ms.map dims).take start ++ (ms.map dims).drop (start + j + 1) ++ [R]
      let Wj ← wat j c
      let T ← einsum lens seqF [(s.1, s.2), (Wj, [c, star])]
      pure (T, seqF)) (a := (T0, seq0))
    ⟨by simpa using h0, fun h => absurd h (by omega)⟩
    (by
      rintro j ⟨T, seq⟩ _ hj ⟨hP, _⟩
      have hjl : start + j < ms.length := by omega
      have hget : ms[start + j]? = some (ms[start + j]) := List.getElem?_eq_getElem hjl
      have hrd : rd (((ms.drop start).take len).map (idLab hN).lab) ((j : ℕ) : ℤ) = .ok (letter (ms[start + j]).1) := by
        apply rd_of
        rw [List.getElem?_map, List.getElem?_take_of_lt (by omega), List.getElem?_drop, hget]
        rfl
      have hsplit : ms.drop (start + j) = ms[start + j] :: ms.drop (start + j + 1) := List.drop_eq_getElem_cons hjl
      obtain ⟨Wj, hW1, _, hW2, hW3⟩ := mats_get hS ms[start + j]
      have hnd' : (ms.take start ++ ms[start + j] :: ms.drop (start + j + 1)).Nodup := by
        rw [← hsplit]
        refine List.Sublist.nodup ?_ hnd
        conv_rhs => rw [← List.take_append_drop start ms]
        refine List.Sublist.append (List.Sublist.refl _) ?_
        rw [← List.drop_drop]
        exact List.drop_sublist _ _
      obtain ⟨T', hT', hS'⟩ := src_step hN hS hP (j := ms[start + j])
        (ms' := ms.take start ++ ms.drop (start + j + 1))
        (by rw [hsplit]; exact List.mem_append_right _ List.mem_cons_self) (by
          rw [hsplit]
          ext m
          simp only [List.mem_toFinset, List.mem_append, Finset.mem_erase, List.mem_cons]
          rw [List.nodup_append] at hnd'
          obtain ⟨_, n2, n3⟩ := hnd'
          rw [List.nodup_cons] at n2
          constructor
          · rintro (h | h)
            · exact ⟨fun e => n3 m h ms[start + j] List.mem_cons_self e, .inl h⟩
            · exact ⟨fun e => n2.1 (e ▸ h), .inr (.inr h)⟩
          · rintro ⟨h1, h | h | h⟩
            · exact .inl h
            · exact absurd h h1
            · exact .inr h) hW2 hW3.symm
      refine ⟨(T', (ms.take start ++ ms.drop (start + j + 1)).map (idLab hN).lab ++ [star]), ?_, hS', fun _ => rfl⟩
      simp only [bind, Except.bind]
      rw [hrd]
      simp only
      rw [hwat j (by omega) _ hget, hW1]
      simp only
      rw [← List.map_take, ← List.map_take, ← List.map_drop, ← List.map_drop, ← List.map_append, ← List.map_append, hT']
      rfl)
  obtain ⟨T, seq⟩ := s
  rw [Nat.zero_add] at hP
  obtain ⟨hsrc, hseq⟩ := hP
  refine ⟨T, ?_, ?_⟩
  · unfold sibLoop
    rw [hsl, List.range_eq_range']
    simp only [bind, Except.bind] at hs ⊢
    rw [hs]
    rfl
  · rcases hsrc with ⟨_, h1, h2⟩ | ⟨_, h2, _⟩
    · exact ⟨h1, h2⟩
    · have := hseq hpos
      simp only at h2 this
      rw [h2] at this
      have := congrArg List.length this
      simp at this

/-! ### the nodes of the CP tree -/

/-- A good node: the exact contraction with all factors outside the interval. -/
def CpGood (hN : 0 < N) (dims : Fin N → ℕ) (R : ℕ) (V : Tensor K) (W : List (Tensor K)) (n : Iv) (T : Tensor K) : Prop :=
  Canon T ∧ Valid dims R (arr V N) (mats W) T (ivModes hN n)

/-- The kept modes after the loop are those of the node. -/
theorem sub_modes (h0 : 0 < N) {n p b : Iv} (h : Sub 0 (N - 1) n p b) :
    (ivModes h0 p).take (b.1 - p.1) ++ (ivModes h0 p).drop (b.1 - p.1 + (b.2 + 1 - b.1)) = ivModes h0 n ∧
    ((ivModes h0 p).drop (b.1 - p.1)).take (b.2 + 1 - b.1) = ivModes h0 b ∧
    p.1 ≤ b.1 ∧ b.1 ≤ b.2 ∧ b.2 ≤ p.2 := by
  obtain ⟨a1, a2, a3, (⟨e1, e2⟩ | ⟨e1, e2⟩)⟩ := h.shape
  · rw [e1, e2]
    simp only
    refine ⟨?_, ?_, by omega, by omega, by omega⟩
    · rw [ivModes_take h0 (a := p.1) (e := p.2) (by omega), List.drop_eq_nil_of_le (by rw [ivModes_length]; omega)]
      simp
    · rw [ivModes_drop h0 (a := p.1) (e := p.2) (by omega), List.take_of_length_le (by rw [ivModes_length])]
  · rw [e1, e2]
    simp only
    refine ⟨?_, ?_, by omega, by omega, by omega⟩
    · rw [show p.1 - p.1 + ((p.1 + p.2) / 2 + 1 - p.1) = (p.1 + p.2) / 2 + 1 - p.1 by omega,
        ivModes_drop h0 (a := p.1) (e := p.2) (by omega)]
      simp
    · rw [Nat.sub_self, List.drop_zero, ivModes_take h0 (a := p.1) (e := p.2) (by omega)]

theorem rd_strOf {n : Iv} {j : ℕ} (hj : j < n.2 + 1 - n.1) : rd (ivStr n) ((j : ℕ) : ℤ) = .ok (letter (n.1 + j)) := by
  apply rd_of
  unfold ivStr strOf
  rw [List.getElem?_map, List.getElem?_eq_getElem (by simpa using hj)]
  simp

theorem cpFromRoot_ok (h2 : 2 ≤ N) (hN : N ≤ 31) {dims : Fin N → ℕ} {R : ℕ} {V : Tensor K} {W : List (Tensor K)}
    (hS : Shaped dims R V W) {n b : Iv} (h : Sub 0 (N - 1) n (0, N - 1) b) :
    ∃ T, cpFromRoot N (constructDT 0 (N - 1) {}) V W (ivStr n) = .ok T ∧ CpGood (by omega) dims R V W n T := by
  have h0 : 0 < N := by omega
  obtain ⟨m1, m2, m3, m4, m5⟩ := sub_modes h0 h
  simp only at m3 m5
  obtain ⟨W0, hW0, _, hW0l, _⟩ := mats_get hS ⟨0, h0⟩
  obtain ⟨t1, t2⟩ := mapGet_tree (by omega) h
  obtain ⟨T, hT, hc, hv⟩ := sibLoop_ok hN hS (T0 := V) (seq0 := ivStr (0, N - 1)) (ivModes_nodup h0 (n := (0, N - 1)) (by simp only; omega))
    (.inr ⟨rfl, (ivModes_lab h0 hN (by simp only; omega)).symm, ivModes_root h0⟩) (start := b.1 - 0)
    (len := b.2 + 1 - b.1) (by rw [ivModes_length]; simp only; omega) (by omega)
    (wat := fun j _ => rd W (((letter b.1 : ℤ) - 97).toNat + j : ℤ)) (by
      intro j hj m hm
      rw [ivModes_get h0 (by simp only; omega)] at hm
      cases hm
      rw [modeOf_val h0 (by simp only; omega), letter_eq (by omega)]
      simp only
      congr 1
      change (_ : ℤ) = _
      omega)
  rw [m1] at hv
  refine ⟨T, ?_, hc, hv⟩
  unfold cpFromRoot
  simp only [t1, t2, bind, Except.bind]
  have e0 : rd W 0 = .ok W0 := hW0
  have e1 : rd (ivStr b) 0 = .ok (letter b.1) := rd_strOf (n := b) (j := 0) (by omega)
  rw [e0, e1]
  simp only
  rw [if_neg]
  · have hcast : ((letter b.1 : ℤ) - 97).toNat = b.1 - 0 := by
      rw [letter_eq (by omega)]
      omega
    simp only [hcast] at hT ⊢
    rw [m2, ivModes_lab h0 hN (by omega), ivModes_lab h0 hN (by omega)] at hT
    rw [show ncol W0 = R by simp [ncol, hW0l]]
    rw [show V.lens = (ivModes h0 (0, N - 1)).map dims by rw [hS.lensV, ivModes_root, List.ofFn_eq_map]]
    exact hT
  · rw [letter_eq (by omega)]
    simp only [strOf_length]
    push Not
    refine ⟨by omega, ?_, ?_⟩
    · change ((_ : ℤ) ≤ _); omega
    · change ((_ : ℤ) < _); omega

theorem cpFromParent_ok (h2 : 2 ≤ N) (hN : N ≤ 31) {dims : Fin N → ℕ} {R : ℕ} {V : Tensor K} {W : List (Tensor K)}
    (hS : Shaped dims R V W) {n p b : Iv} (h : Sub 0 (N - 1) n p b) {Tp : Tensor K}
    (hp : CpGood (by omega) dims R V W p Tp) :
    ∃ T, cpFromParent (constructDT 0 (N - 1) {}) W (ivStr n) Tp = .ok T ∧ CpGood (by omega) dims R V W n T := by
  have h0 : 0 < N := by omega
  obtain ⟨m1, m2, m3, m4, m5⟩ := sub_modes h0 h
  have hsh := h.shape
  have hp2 : p.2 < N := by omega
  obtain ⟨W0, hW0, _, hW0l, _⟩ := mats_get hS ⟨0, h0⟩
  obtain ⟨t1, t2⟩ := mapGet_tree (by omega) h
  have hplen := ivModes_length h0 p
  obtain ⟨T, hT, hc, hv⟩ := sibLoop_ok hN hS (T0 := Tp) (seq0 := ivStr p ++ [star]) (ivModes_nodup h0 hp2)
    (.inl ⟨by rw [ivModes_lab h0 hN hp2], hp.1, hp.2⟩) (start := b.1 - p.1)
    (len := b.2 + 1 - b.1) (by rw [ivModes_length]; omega) (by omega)
    (wat := fun _ c => rd W (decode c)) (by
      intro j hj m hm
      rw [decode_letter (by omega)])
  rw [m1] at hv
  refine ⟨T, ?_, hc, hv⟩
  unfold cpFromParent
  simp only [t1, t2, bind, Except.bind]
  have e0 : rd W 0 = .ok W0 := hW0
  have e1 : rd (ivStr b) 0 = .ok (letter b.1) := rd_strOf (n := b) (j := 0) (by omega)
  have e2 : rd (ivStr p) 0 = .ok (letter p.1) := rd_strOf (n := p) (j := 0) (by omega)
  rw [e0, e1, e2]
  simp only
  rw [if_neg]
  · have hcast : ((letter b.1 : ℤ) - (letter p.1 : ℤ)).toNat = b.1 - p.1 := by
      rw [letter_eq (by omega), letter_eq (by omega)]
      omega
    simp only [hcast]
    rw [m2, ivModes_lab h0 hN (by omega), ivModes_lab h0 hN (by omega)] at hT
    rw [show ncol W0 = R by simp [ncol, hW0l]]
    rw [show Tp.lens.dropLast = (ivModes h0 p).map dims by rw [hp.2.1]; simp]
    exact hT
  · rw [letter_eq (by omega), letter_eq (by omega)]
    simp only [strOf_length, hp.2.1]
    push Not
    refine ⟨by simp [hplen], ?_⟩
    change ((_ : ℤ) ≤ _); omega

end Model
