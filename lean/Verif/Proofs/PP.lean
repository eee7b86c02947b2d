import Verif.Model.PP
import Verif.Proofs.DT
import Verif.Proofs.Loop

/-! The pairwise-perturbation operators. -/

namespace Model

open Finset

variable {K : Type} {N : ℕ}

/-! ### index strings -/

theorem copyUnmatched_sub {α : Type} [DecidableEq α] {lab : α → Label} (hinj : Function.Injective lab) {ks l : List α}
    (h : ks.Sublist l) (hnd : l.Nodup) :
    copyUnmatched (l.map lab) (ks.map lab) = (l.filter (· ∉ ks)).map lab := by
  induction h with
  | slnil => rfl
  | @cons l1 l2 a h ih =>
    rw [List.nodup_cons] at hnd
    have ha : a ∉ l1 := fun hh => hnd.1 (h.subset hh)
    rw [List.filter_cons_of_pos (by simpa using ha)]
    cases l1 with
    | nil =>
      simp only [List.map_cons, List.map_nil, copyUnmatched]
      rw [← List.map_nil (f := lab), ih hnd.2]
    | cons b t =>
      have hab : lab a ≠ lab b := fun e => ha (by rw [hinj e]; simp)
      simp only [List.map_cons, copyUnmatched]
      rw [if_neg hab]
      congr 1
      exact ih hnd.2
  | @cons_cons l1 l2 a h ih =>
    rw [List.nodup_cons] at hnd
    simp only [List.map_cons, copyUnmatched, if_true]
    rw [ih hnd.2, List.filter_cons_of_neg (by simp)]
    congr 1
    apply List.filter_congr
    intro x hx
    have : x ≠ a := fun e => hnd.1 (e ▸ hx)
    simp [this]

/-- The modes not in `ks`, ascending. -/
def compl (ks : List (Fin N)) : List (Fin N) := (List.finRange N).filter (· ∉ ks)

theorem mem_compl' {ks : List (Fin N)} {m : Fin N} : m ∈ compl ks ↔ m ∉ ks := by simp [compl]

theorem compl_length {ks : List (Fin N)} (h : ks.Sublist (List.finRange N)) : (compl ks).length + ks.length = N := by
  have hn : ks.Nodup := h.nodup (List.nodup_finRange N)
  have h1 : (compl ks).toFinset = ks.toFinsetᶜ := by ext; simp [mem_compl']
  have h2 : (compl ks).Nodup := (List.nodup_finRange N).filter _
  rw [← List.toFinset_card_of_nodup h2, ← List.toFinset_card_of_nodup hn, h1, Finset.card_compl, Fintype.card_fin]
  have := Finset.card_le_univ ks.toFinset
  rw [Fintype.card_fin] at this
  omega

theorem compl_pairwise (ks : List (Fin N)) : (compl ks).Pairwise (· < ·) :=
  (List.pairwise_lt_finRange N).filter _

theorem allLetters_eq (hN : N ≤ 31) : allLetters N = (List.finRange N).map (idLab hN).lab := by
  unfold allLetters
  apply List.ext_getElem
  · simp
  · intro k h1 h2; simp [idLab]

theorem stringbuilder_ok (hN : N ≤ 31) {ks : List (Fin N)} (h : ks.Sublist (List.finRange N)) :
    stringbuilder N (ks.map (idLab hN).lab) = .ok ((compl ks).map (idLab hN).lab ++ [star]) := by
  unfold stringbuilder
  rw [allLetters_eq hN, copyUnmatched_sub (idLab hN).inj h (List.nodup_finRange N)]
  have := compl_length h
  unfold compl at this
  simp only [List.length_map]
  rw [if_pos this]
  rfl

theorem stringbuilder0_ok (hN : N ≤ 31) (same : Bool) : stringbuilder0 same N = .ok (allLetters N) := by
  unfold stringbuilder0
  cases same with
  | true => rfl
  | false =>
    have h : ∀ l : Key, (∀ c ∈ l, c ≠ 48) → copyUnmatched l [48] = l := by
      intro l hl
      induction l with
      | nil => rfl
      | cons c cs ih =>
        rw [copyUnmatched, if_neg (hl c (by simp)), ih (fun c hc => hl c (by simp [hc]))]
    have h2 : copyUnmatched (allLetters N) [48] = allLetters N := by
      apply h
      intro c hc
      simp only [allLetters, List.mem_map, List.mem_range] at hc
      obtain ⟨j, hj, rfl⟩ := hc
      rw [letter_eq (by omega)]
      change ¬ ((_ : ℤ) = _)
      omega
    simp only [Bool.false_eq_true, if_false, stringbuilder, h2]
    rw [if_neg (by simp [allLetters]), if_pos (by simp [allLetters])]

/-! ### the keys -/

theorem exceptOne_eq {α : Type} (s : List α) (i : ℕ) : exceptOne s i = s.eraseIdx i := by
  unfold exceptOne
  rw [List.eraseIdx_eq_take_drop_succ]
  congr 1
  rw [List.take_of_length_le]
  simp; omega

theorem exceptTwo_eq {α : Type} (s : List α) {i j : ℕ} (hij : i < j) (hj : j < s.length) :
    exceptTwo s i j = (s.eraseIdx j).eraseIdx i := by
  unfold exceptTwo
  rw [List.eraseIdx_eq_take_drop_succ, List.eraseIdx_eq_take_drop_succ, List.take_append_of_le_length (by simp; omega),
    List.take_take, min_eq_left (by omega), List.drop_append_of_le_length (by simp; omega), List.drop_take, List.append_assoc]
  congr 3
  rw [List.take_of_length_le]
  simp; omega

/-- The modes other than `i` and `j`. -/
def ex2 (i j : Fin N) : List (Fin N) := exceptTwo (List.finRange N) i.1 j.1

/-- The modes other than `i`. -/
def ex1 (i : Fin N) : List (Fin N) := exceptOne (List.finRange N) i.1

theorem ex1_sub (i : Fin N) : (ex1 i).Sublist (List.finRange N) := by
  rw [ex1, exceptOne_eq]; exact List.eraseIdx_sublist _ _

theorem ex2_sub {i j : Fin N} (h : i < j) : (ex2 i j).Sublist (List.finRange N) := by
  rw [ex2, exceptTwo_eq _ h (by simp)]
  exact (List.eraseIdx_sublist _ _).trans (List.eraseIdx_sublist _ _)

theorem mem_ex1 {i m : Fin N} : m ∈ ex1 i ↔ m ≠ i := by
  rw [ex1, exceptOne_eq, List.mem_eraseIdx_iff_getElem]
  constructor
  · rintro ⟨k, hk, h1, rfl⟩ e
    apply h1
    rw [← e]; simp
  · intro h
    exact ⟨m.1, by simp, fun e => h (Fin.ext e), by simp⟩

theorem mem_ex2 {i j m : Fin N} (h : i < j) : m ∈ ex2 i j ↔ m ≠ i ∧ m ≠ j := by
  have hj : i.1 < j.1 := h
  rw [ex2, exceptTwo_eq _ h (by simp), List.mem_eraseIdx_iff_getElem]
  constructor
  · rintro ⟨k, hk, h1, rfl⟩
    rw [List.getElem_eraseIdx]
    split_ifs with hkj
    · refine ⟨fun e => h1 ?_, fun e => ?_⟩
      · rw [← e]; simp
      · have := congrArg Fin.val e
        simp at this
        omega
    · refine ⟨fun e => ?_, fun e => ?_⟩
      · have := congrArg Fin.val e
        simp at this
        omega
      · have := congrArg Fin.val e
        simp at this
        omega
  · rintro ⟨h1, h2⟩
    have e1 : m.1 ≠ i.1 := fun e => h1 (Fin.ext e)
    have e2 : m.1 ≠ j.1 := fun e => h2 (Fin.ext e)
    have hlen : ((List.finRange N).eraseIdx j.1).length = N - 1 := by
      rw [List.length_eraseIdx]; simp
    by_cases hm : m.1 < j.1
    · refine ⟨m.1, by omega, e1, ?_⟩
      rw [List.getElem_eraseIdx, dif_pos hm]; simp
    · refine ⟨m.1 - 1, by omega, by omega, ?_⟩
      rw [List.getElem_eraseIdx, dif_neg (by omega)]
      apply Fin.ext
      simp; omega

theorem compl_ex1 (i : Fin N) : compl (ex1 i) = [i] := by
  apply List.Pairwise.eq_of_mem_iff (r := (· < ·)) (compl_pairwise _) (by simp)
  intro m
  rw [mem_compl', mem_ex1]; simp

theorem compl_ex2 {i j : Fin N} (h : i < j) : compl (ex2 i j) = [i, j] := by
  apply List.Pairwise.eq_of_mem_iff (r := (· < ·)) (compl_pairwise _) (by simpa using h)
  intro m
  rw [mem_compl', mem_ex2 h]
  simp only [List.mem_cons, List.not_mem_nil, or_false]
  tauto

theorem ex1_length (i : Fin N) : (ex1 i).length = N - 1 := by
  have := compl_length (ex1_sub i)
  rw [compl_ex1] at this
  simp at this; omega

theorem ex2_length {i j : Fin N} (h : i < j) : (ex2 i j).length = N - 2 := by
  have := compl_length (ex2_sub h)
  rw [compl_ex2 h] at this
  simp at this; omega

theorem exceptOne_lab (hN : N ≤ 31) (i : Fin N) : exceptOne (allLetters N) i.1 = (ex1 i).map (idLab hN).lab := by
  rw [allLetters_eq hN]
  simp [exceptOne, ex1, List.map_take, List.map_drop]

theorem exceptTwo_lab (hN : N ≤ 31) (i j : Fin N) : exceptTwo (allLetters N) i.1 j.1 = (ex2 i j).map (idLab hN).lab := by
  rw [allLetters_eq hN]
  simp [exceptTwo, ex2, List.map_take, List.map_drop]

/-- The keys built in a PP phase. -/
theorem mem_ppKeys (hN : N ≤ 31) {k : Key} : k ∈ ppKeys N ↔
    (∃ i j : Fin N, i < j ∧ k = (ex2 i j).map (idLab hN).lab) ∨ ∃ i : Fin N, k = (ex1 i).map (idLab hN).lab := by
  unfold ppKeys
  simp only [List.mem_append, List.mem_flatMap, List.mem_map, List.mem_range, List.mem_range'_1]
  constructor
  · rintro (⟨i, hi, j, hj, rfl⟩ | ⟨i, hi, rfl⟩)
    · exact .inl ⟨⟨i, hi⟩, ⟨j, by omega⟩, by simp only [Fin.mk_lt_mk]; omega, exceptTwo_lab hN ⟨i, hi⟩ ⟨j, by omega⟩⟩
    · exact .inr ⟨⟨i, hi⟩, exceptOne_lab hN ⟨i, hi⟩⟩
  · rintro (⟨i, j, hij, rfl⟩ | ⟨i, rfl⟩)
    · refine .inl ⟨i.1, i.2, j.1, ?_, exceptTwo_lab hN i j⟩
      have : i.1 < j.1 := hij
      omega
    · exact .inr ⟨i.1, i.2, exceptOne_lab hN i⟩

/-! ### the recursion, for any kind of node -/

/-- Every cached node is good. -/
def BInv {τ : Type} (hN : N ≤ 31) (Good : List (Fin N) → τ → Prop) (cache : List (Key × τ)) : Prop :=
  ∀ ks : List (Fin N), ks.Sublist (List.finRange N) → ks ≠ [] → ∀ T,
    cache.lookup (ks.map (idLab hN).lab) = some T → Good ks T

theorem BInv.nil {τ : Type} (hN : N ≤ 31) (Good : List (Fin N) → τ → Prop) : BInv hN Good [] := by
  intro ks _ _ T h; simp at h

theorem BInv.cons {τ : Type} {hN : N ≤ 31} {Good : List (Fin N) → τ → Prop} {cache : List (Key × τ)}
    (h : BInv hN Good cache) {ks : List (Fin N)} {T : τ} (hT : Good ks T) :
    BInv hN Good ((ks.map (idLab hN).lab, T) :: cache) := by
  intro ks' hs hne T' hT'
  by_cases e : ks' = ks
  · subst e
    rw [lookup_cons_self] at hT'
    cases hT'
    exact hT
  · rw [lookup_cons_ne (fun e' => e (List.map_injective_iff.2 (idLab hN).inj e'))] at hT'
    exact h ks' hs hne T' hT'

theorem lookup_cons_isSome {τ : Type} {c : List (Key × τ)} {k k' : Key} {T : τ} (h : (c.lookup k).isSome) :
    (((k', T) :: c).lookup k).isSome := by
  by_cases e : k = k'
  · subst e; rw [lookup_cons_self]; rfl
  · rwa [lookup_cons_ne e]

theorem buildNode_ok {τ : Type} (hN : N ≤ 31) {Good : List (Fin N) → τ → Prop}
    {fromRoot : Key → Except Fault τ} {fromParent : Key → τ → Except Fault τ}
    (hroot : ∀ m : Fin N, ∃ T, fromRoot ([m].map (idLab hN).lab) = .ok T ∧ Good [m] T)
    (hpar : ∀ (ks : List (Fin N)) (m : Fin N), (ks ++ [m]).Sublist (List.finRange N) → ks ≠ [] → ∀ Tp, Good ks Tp →
      ∃ T, fromParent ((ks ++ [m]).map (idLab hN).lab) Tp = .ok T ∧ Good (ks ++ [m]) T) :
    ∀ (n : ℕ) (ks : List (Fin N)) (cache : List (Key × τ)), ks.length = n → ks.Sublist (List.finRange N) → ks ≠ [] →
      n ≤ 8 → BInv hN Good cache →
      ∃ cache', buildNode fromRoot fromParent (ks.map (idLab hN).lab) cache = .ok cache' ∧ BInv hN Good cache' ∧
        (∃ T, cache'.lookup (ks.map (idLab hN).lab) = some T ∧ Good ks T) ∧
        ∀ k, (cache.lookup k).isSome → (cache'.lookup k).isSome := by
  intro n
  induction n with
  | zero =>
    intro ks cache hl _ hne
    exact absurd (List.length_eq_zero_iff.1 hl) hne
  | succ n ih =>
    intro ks cache hl hs hne h8 hI
    unfold buildNode
    by_cases h1 : ks.length = 1
    · rw [if_pos (by simpa using h1)]
      obtain ⟨m, rfl⟩ := List.length_eq_one_iff.1 h1
      obtain ⟨T, hT, hG⟩ := hroot m
      simp only [bind, Except.bind]
      rw [hT]
      exact ⟨_, rfl, hI.cons hG, ⟨T, lookup_cons_self _ _ _, hG⟩, fun k hk => lookup_cons_isSome hk⟩
    · rw [if_neg (by simpa using h1), dif_neg (by simp only [List.length_map]; omega)]
      obtain ⟨ks', m, rfl⟩ : ∃ ks' m, ks = ks' ++ [m] := ⟨ks.dropLast, ks.getLast hne, (List.dropLast_append_getLast hne).symm⟩
      simp only [List.length_append, List.length_singleton] at hl h1
      have hne' : ks' ≠ [] := fun e => by subst e; simp at h1
      have hdl : ((ks' ++ [m]).map (idLab hN).lab).dropLast = ks'.map (idLab hN).lab := by
        rw [List.map_append, List.map_cons, List.map_nil, List.dropLast_concat]
      have hs' : ks'.Sublist (List.finRange N) := (List.sublist_append_left _ _).trans hs
      rw [hdl]
      obtain ⟨c1, hc1, hI1, ⟨Tp, hTp, hGp⟩, hmono⟩ : ∃ c1, (if (cache.lookup (ks'.map (idLab hN).lab)).isNone then
          buildNode fromRoot fromParent (ks'.map (idLab hN).lab) cache else pure cache) = .ok c1 ∧ BInv hN Good c1 ∧
          (∃ T, c1.lookup (ks'.map (idLab hN).lab) = some T ∧ Good ks' T) ∧
          ∀ k, (cache.lookup k).isSome → (c1.lookup k).isSome := by
        by_cases hnone : (cache.lookup (ks'.map (idLab hN).lab)).isNone
        · rw [if_pos hnone]
          exact ih ks' cache (by omega) hs' hne' (by omega) hI
        · rw [if_neg hnone]
          obtain ⟨T, hT⟩ : ∃ T, cache.lookup (ks'.map (idLab hN).lab) = some T := by
            rw [← Option.isSome_iff_exists]
            simpa [Option.isSome_iff_ne_none] using hnone
          exact ⟨cache, rfl, hI, ⟨T, hT, hI ks' hs' hne' T hT⟩, fun _ h => h⟩
      obtain ⟨T, hT, hG⟩ := hpar ks' m hs hne' Tp hGp
      simp only [bind, Except.bind]
      rw [hc1]
      simp only [hTp]
      rw [hT]
      exact ⟨_, rfl, hI1.cons hG, ⟨T, lookup_cons_self _ _ _, hG⟩, fun k hk => lookup_cons_isSome (hmono k hk)⟩

/-- A list of keys of at most 8 characters is processed. -/
theorem buildList_ok {τ : Type} (hN : N ≤ 31) {Good : List (Fin N) → τ → Prop}
    {fromRoot : Key → Except Fault τ} {fromParent : Key → τ → Except Fault τ}
    (hroot : ∀ m : Fin N, ∃ T, fromRoot ([m].map (idLab hN).lab) = .ok T ∧ Good [m] T)
    (hpar : ∀ (ks : List (Fin N)) (m : Fin N), (ks ++ [m]).Sublist (List.finRange N) → ks ≠ [] → ∀ Tp, Good ks Tp →
      ∃ T, fromParent ((ks ++ [m]).map (idLab hN).lab) Tp = .ok T ∧ Good (ks ++ [m]) T)
    {keys : List Key} (hk : ∀ k ∈ keys, ∃ ks : List (Fin N), ks.Sublist (List.finRange N) ∧ ks ≠ [] ∧ ks.length ≤ 8 ∧
          k = ks.map (idLab hN).lab) :
    ∃ ops, keys.foldlM (fun cache seq => buildNode fromRoot fromParent seq cache) [] = .ok ops ∧
      BInv hN Good ops ∧ ∀ k ∈ keys, (ops.lookup k).isSome := by
  obtain ⟨ops, h1, hI, hall⟩ := foldlM_inv (P := fun done cache => BInv hN Good cache ∧
      ∀ k ∈ done, (cache.lookup k).isSome) (f := fun cache seq => buildNode fromRoot fromParent seq cache)
    keys [] [] ⟨BInv.nil hN Good, by simp⟩ (by
      rintro d k cache hk' - ⟨hI, hd⟩
      obtain ⟨ks, hs, hne, hlen, rfl⟩ := hk k hk'
      obtain ⟨c', h1, h2, ⟨T, h3, _⟩, h4⟩ := buildNode_ok hN hroot hpar _ ks cache rfl hs hne hlen hI
      refine ⟨c', h1, h2, ?_⟩
      intro k' hk'
      rw [List.mem_append, List.mem_singleton] at hk'
      rcases hk' with hk' | rfl
      · exact h4 _ (hd _ hk')
      · rw [h3]; rfl)
  exact ⟨ops, h1, hI, by simpa using hall⟩

/-- All operators of a PP phase are built, and are good. -/
theorem buildAll_ok {τ : Type} (h3 : 3 ≤ N) (h9 : N ≤ 9) {Good : List (Fin N) → τ → Prop}
    {fromRoot : Key → Except Fault τ} {fromParent : Key → τ → Except Fault τ}
    (hroot : ∀ m : Fin N, ∃ T, fromRoot ([m].map (idLab (by omega)).lab) = .ok T ∧ Good [m] T)
    (hpar : ∀ (ks : List (Fin N)) (m : Fin N), (ks ++ [m]).Sublist (List.finRange N) → ks ≠ [] → ∀ Tp, Good ks Tp →
      ∃ T, fromParent ((ks ++ [m]).map (idLab (by omega)).lab) Tp = .ok T ∧ Good (ks ++ [m]) T) :
    ∃ ops, (ppKeys N).foldlM (fun cache seq => buildNode fromRoot fromParent seq cache) [] = .ok ops ∧
      (∀ i : Fin N, ∃ T, ops.lookup (exceptOne (allLetters N) i.1) = some T ∧ Good (ex1 i) T) ∧
      (∀ i j : Fin N, i < j → ∃ T, ops.lookup (exceptTwo (allLetters N) i.1 j.1) = some T ∧ Good (ex2 i j) T) := by
  have hN : N ≤ 31 := by omega
  obtain ⟨ops, h1, hI, hall⟩ := buildList_ok hN hroot hpar (keys := ppKeys N) (by
    intro k hk
    rcases (mem_ppKeys hN).1 hk with ⟨i, j, hij, rfl⟩ | ⟨i, rfl⟩
    · have := ex2_length hij
      exact ⟨_, ex2_sub hij, fun e => by rw [e] at this; simp at this; omega, by omega, rfl⟩
    · have := ex1_length i
      exact ⟨_, ex1_sub i, fun e => by rw [e] at this; simp at this; omega, by omega, rfl⟩)
  refine ⟨ops, h1, ?_, ?_⟩
  · intro i
    have hl := ex1_length i
    obtain ⟨T, hT⟩ := Option.isSome_iff_exists.1 (hall ((ex1 i).map (idLab hN).lab)
      (by rw [mem_ppKeys hN]; exact .inr ⟨i, rfl⟩))
    rw [exceptOne_lab hN]
    exact ⟨T, hT, hI _ (ex1_sub i) (fun e => by rw [e] at hl; simp at hl; omega) T hT⟩
  · intro i j hij
    have hl := ex2_length hij
    obtain ⟨T, hT⟩ := Option.isSome_iff_exists.1 (hall ((ex2 i j).map (idLab hN).lab)
      (by rw [mem_ppKeys hN]; exact .inl ⟨i, j, hij, rfl⟩))
    rw [exceptTwo_lab hN]
    exact ⟨T, hT, hI _ (ex2_sub hij) (fun e => by rw [e] at hl; simp at hl; omega) T hT⟩

theorem exceptOne_length {α : Type} (s : List α) {i : ℕ} (hi : i < s.length) : (exceptOne s i).length = s.length - 1 := by
  rw [exceptOne_eq, List.length_eraseIdx, if_pos hi]

theorem exceptTwo_length {α : Type} (s : List α) {i j : ℕ} (hij : i < j) (hj : j < s.length) :
    (exceptTwo s i j).length = s.length - 2 := by
  rw [exceptTwo_eq s hij hj, List.length_eraseIdx, List.length_eraseIdx, if_pos hj, if_pos (by omega)]
  omega

theorem allLetters_length (N : ℕ) : (allLetters N).length = N := by simp [allLetters]

theorem buildNode_overflow {τ : Type} {fromRoot : Key → Except Fault τ} {fromParent : Key → τ → Except Fault τ} {k : Key}
    (hk : k.length = 0 ∨ 8 < k.length) (cache : List (Key × τ)) :
    buildNode fromRoot fromParent k cache = .error .ub := by
  unfold buildNode
  rw [if_neg (by omega), dif_pos hk]

/-- The order-10 case: the pairwise operators are built, the first key of nine characters overflows the buffer; from
order 11 on, and at orders 1 and 2, the first key already does. -/
theorem buildAll_overflow {τ : Type} (h : (1 ≤ N ∧ N ≤ 2) ∨ 10 ≤ N) {Good : List (Fin N) → τ → Prop}
    {fromRoot : Key → Except Fault τ} {fromParent : Key → τ → Except Fault τ}
    (hroot : ∀ hN : N ≤ 31, ∀ m : Fin N, ∃ T, fromRoot ([m].map (idLab hN).lab) = .ok T ∧ Good [m] T)
    (hpar : ∀ hN : N ≤ 31, ∀ (ks : List (Fin N)) (m : Fin N), (ks ++ [m]).Sublist (List.finRange N) → ks ≠ [] →
      ∀ Tp, Good ks Tp → ∃ T, fromParent ((ks ++ [m]).map (idLab hN).lab) Tp = .ok T ∧ Good (ks ++ [m]) T) :
    (ppKeys N).foldlM (fun cache seq => buildNode fromRoot fromParent seq cache) [] = .error .ub := by
  have hfirst : N ≠ 10 → ∃ k rest, ppKeys N = k :: rest ∧ (k.length = 0 ∨ 8 < k.length) := by
    intro hne
    cases hk : ppKeys N with
    | nil =>
      exfalso
      have := congrArg List.length hk
      simp [ppKeys] at this
      omega
    | cons k rest =>
      refine ⟨k, rest, rfl, ?_⟩
      have hmem : k ∈ ppKeys N := by rw [hk]; simp
      by_cases h2 : N ≤ 2
      · unfold ppKeys at hmem
        simp only [List.mem_append, List.mem_flatMap, List.mem_map, List.mem_range, List.mem_range'_1] at hmem
        by_cases h1 : N = 1
        · left
          subst h1
          have : k = exceptOne (allLetters 1) 0 := by
            rcases hmem with ⟨i, hi, j, hj, _⟩ | ⟨i, hi, rfl⟩
            · omega
            · rw [show i = 0 by omega]
          rw [this, exceptOne_length _ (by simp [allLetters])]
          simp [allLetters]
        · have hN2 : N = 2 := by omega
          subst hN2
          left
          have : k = exceptTwo (allLetters 2) 0 1 := by
            have : ppKeys 2 = exceptTwo (allLetters 2) 0 1 :: [exceptOne (allLetters 2) 0, exceptOne (allLetters 2) 1] := rfl
            rw [this] at hk
            exact (List.cons.inj hk).1.symm
          rw [this, exceptTwo_length _ (by omega) (by simp [allLetters])]
          simp [allLetters]
      · right
        unfold ppKeys at hmem
        simp only [List.mem_append, List.mem_flatMap, List.mem_map, List.mem_range, List.mem_range'_1] at hmem
        rcases hmem with ⟨i, hi, j, hj, rfl⟩ | ⟨i, hi, rfl⟩
        · rw [exceptTwo_length _ (by omega) (by rw [allLetters_length]; omega), allLetters_length]; omega
        · rw [exceptOne_length _ (by rw [allLetters_length]; omega), allLetters_length]; omega
  by_cases h10 : N = 10
  · have hN : N ≤ 31 := by omega
    have hs : ppKeys N = ((List.range N).flatMap fun i => (List.range' (i + 1) (N - (i + 1))).map fun j =>
        exceptTwo (allLetters N) i j) ++ (List.range N).map fun i => exceptOne (allLetters N) i := rfl
    obtain ⟨ops, h1, _, _⟩ := buildList_ok hN (hroot hN) (hpar hN)
      (keys := (List.range N).flatMap fun i => (List.range' (i + 1) (N - (i + 1))).map fun j =>
        exceptTwo (allLetters N) i j) (by
        intro k hk
        simp only [List.mem_flatMap, List.mem_map, List.mem_range, List.mem_range'_1] at hk
        obtain ⟨i, hi, j, hj, rfl⟩ := hk
        have hij : (⟨i, hi⟩ : Fin N) < ⟨j, by omega⟩ := by simp only [Fin.mk_lt_mk]; omega
        have := ex2_length hij
        exact ⟨_, ex2_sub hij, fun e => by rw [e] at this; simp at this; omega, by omega,
          exceptTwo_lab hN ⟨i, hi⟩ ⟨j, by omega⟩⟩)
    rw [hs, List.foldlM_append, h1]
    have hr : List.range N = 0 :: List.range' 1 (N - 1) := by
      rw [List.range_eq_range', show N = (N - 1) + 1 by omega, List.range'_succ]
      simp
    simp only [bind, Except.bind]
    rw [hr, List.map_cons, List.foldlM_cons, buildNode_overflow (by
      right
      rw [exceptOne_length _ (by rw [allLetters_length]; omega), allLetters_length]; omega)]
    rfl
  · obtain ⟨k, rest, hk, hlen⟩ := hfirst h10
    rw [hk, List.foldlM_cons, buildNode_overflow hlen]
    rfl

/-! ### the CP nodes -/

variable [CommRing K]

/-- A CP operator for the modes `ks` contracted. -/
def PPGood (dims : Fin N → ℕ) (R : ℕ) (V : Tensor K) (W : List (Tensor K)) (ks : List (Fin N)) (T : Tensor K) : Prop :=
  Canon T ∧ Valid dims R (arr V N) (mats W) T (compl ks)

theorem ppFromRoot_ok (hN : N ≤ 31) (same : Bool) {dims : Fin N → ℕ} {R : ℕ} {V : Tensor K} {W : List (Tensor K)}
    (hS : Shaped dims R V W) (m : Fin N) :
    ∃ T, ppFromRoot same N V W ([m].map (idLab hN).lab) = .ok T ∧ PPGood dims R V W [m] T := by
  have hs : [m].Sublist (List.finRange N) := List.singleton_sublist.2 (List.mem_finRange m)
  obtain ⟨Wm, h1, _, h2, h3⟩ := mats_get hS m
  obtain ⟨T, hT, hc, hv⟩ := contract_valid_init (idLab hN) (W := mats W) hS.lensV h2 h3.symm
    (ms' := compl [m]) (by ext x; simp [mem_compl'])
  refine ⟨T, ?_, hc, hv⟩
  unfold ppFromRoot
  simp only [bind, Except.bind]
  rw [stringbuilder_ok hN hs, stringbuilder0_ok hN]
  have e1 : rd ([m].map (idLab hN).lab) 0 = .ok (letter m.1) := rfl
  have e2 : lensInit V W ((compl [m]).map (idLab hN).lab ++ [star]) = .ok ((compl [m]).map dims ++ [R]) :=
    lensInit_ok hN hS (by have := m.2; omega) _
  simp only [e1]
  rw [e2]
  simp only
  rw [decode_letter (by omega), h1]
  simp only
  rw [allLetters_eq hN, ← List.ofFn_eq_map]
  exact hT

theorem ppFromParent_ok (hN : N ≤ 31) {dims : Fin N → ℕ} {R : ℕ} {V : Tensor K} {W : List (Tensor K)}
    (hS : Shaped dims R V W) (ks : List (Fin N)) (m : Fin N) (hs : (ks ++ [m]).Sublist (List.finRange N)) (Tp : Tensor K)
    (hp : PPGood dims R V W ks Tp) :
    ∃ T, ppFromParent N V W ((ks ++ [m]).map (idLab hN).lab) Tp = .ok T ∧ PPGood dims R V W (ks ++ [m]) T := by
  have hnd : (ks ++ [m]).Nodup := hs.nodup (List.nodup_finRange N)
  have hm : m ∉ ks := by
    rw [List.nodup_append] at hnd
    exact fun h => hnd.2.2 m h m (by simp) rfl
  obtain ⟨Wm, h1, _, h2, h3⟩ := mats_get hS m
  obtain ⟨T, hT, hc, hv⟩ := contract_valid (idLab hN) hp.2 h2 h3.symm (j := m) (mem_compl'.2 hm)
    (ms' := compl (ks ++ [m])) (by ext x; simp [mem_compl']; tauto)
  refine ⟨T, ?_, hc, hv⟩
  unfold ppFromParent
  have hdl : ((ks ++ [m]).map (idLab hN).lab).dropLast = ks.map (idLab hN).lab := by
    rw [List.map_append, List.map_cons, List.map_nil, List.dropLast_concat]
  simp only [bind, Except.bind]
  rw [hdl, stringbuilder_ok hN hs, stringbuilder_ok hN ((List.sublist_append_left _ _).trans hs)]
  have e1 : rd ((ks ++ [m]).map (idLab hN).lab) ((((ks ++ [m]).map (idLab hN).lab).length : ℤ) - 1) = .ok (letter m.1) := by
    rw [show ((((ks ++ [m]).map (idLab hN).lab).length : ℤ) - 1) = ((ks.length : ℕ) : ℤ) by simp]
    apply rd_of
    simp [idLab]
  have e2 : lensInit V W ((compl (ks ++ [m])).map (idLab hN).lab ++ [star]) =
      .ok ((compl (ks ++ [m])).map dims ++ [R]) := lensInit_ok hN hS (by have := m.2; omega) _
  simp only [e1]
  rw [e2]
  simp only
  rw [decode_letter (by omega), h1]
  exact hT

theorem ppOperators_ok (h3 : 3 ≤ N) (h9 : N ≤ 9) (same : Bool) {dims : Fin N → ℕ} {R : ℕ} {V : Tensor K}
    {W : List (Tensor K)} (hS : Shaped dims R V W) :
    ∃ ops, ppOperators same N V W = .ok ops ∧
      (∀ i : Fin N, ∃ T, ops.lookup (exceptOne (allLetters N) i.1) = some T ∧ PPGood dims R V W (ex1 i) T) ∧
      (∀ i j : Fin N, i < j → ∃ T, ops.lookup (exceptTwo (allLetters N) i.1 j.1) = some T ∧
        PPGood dims R V W (ex2 i j) T) :=
  buildAll_ok h3 h9 (fun m => ppFromRoot_ok (by omega) same hS m)
    (fun ks m hs _ Tp hp => ppFromParent_ok (by omega) hS ks m hs Tp hp)

theorem ppOperators_overflow (h : (1 ≤ N ∧ N ≤ 2) ∨ 10 ≤ N) (same : Bool) {dims : Fin N → ℕ} {R : ℕ} {V : Tensor K}
    {W : List (Tensor K)} (hS : Shaped dims R V W) : ppOperators same N V W = .error .ub :=
  buildAll_overflow h (Good := PPGood dims R V W) (fun hN m => ppFromRoot_ok hN same hS m)
    (fun hN ks m hs _ Tp hp => ppFromParent_ok hN hS ks m hs Tp hp)

end Model
