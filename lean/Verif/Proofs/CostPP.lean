import Verif.Proofs.CostSteps
import Verif.Properties.PPSweep

/-! What a PP phase records: its set-up and its sweeps. -/

namespace Model

open Spec (Tag Work termsOf storedOf countOf)

variable {K : Type} {N : ℕ}

theorem lookup_isSome_iff {τ : Type} (c : List (Key × τ)) (k : Key) : (c.lookup k).isSome ↔ k ∈ c.map Prod.fst := by
  induction c with
  | nil => simp
  | cons p c ih =>
    obtain ⟨k', T⟩ := p
    by_cases e : k = k'
    · subst e; rw [lookup_cons_self]; simp
    · rw [lookup_cons_ne e, ih]; simp [e]

section
variable [CommRing K]

/-- What computing the operator with the modes `ks` contracted records. -/
def opW (dims : Fin N → ℕ) (R : ℕ) (ks : List (Fin N)) : Work :=
  if ks.length = 1 then ⟨.input, (∏ m, dims m) * R, ((compl ks).map dims).prod * R⟩
  else ⟨.mttkrp, ((compl ks.dropLast).map dims).prod * R, ((compl ks).map dims).prod * R⟩

/-- Shape of the operator with the modes `ks` contracted. -/
def OpShape (dims : Fin N → ℕ) (R : ℕ) (ks : List (Fin N)) (T : Tensor K) : Prop := T.lens = (compl ks).map dims ++ [R]

theorem compl_nodup (ks : List (Fin N)) : (compl ks).Nodup := (List.nodup_finRange N).filter _

theorem ppFromRootC_runs (hN : N ≤ 31) (same : Bool) {dims : Fin N → ℕ} {R : ℕ} {V : Tensor K} {W : List (Tensor K)}
    (hS : Shaped dims R V W) (m : Fin N) :
    ∃ T, Runs (ppFromRootC same N V W ([m].map (idLab hN).lab)) T [opW dims R [m]] ∧ OpShape dims R [m] T := by
  have hs : [m].Sublist (List.finRange N) := List.singleton_sublist.2 (List.mem_finRange m)
  obtain ⟨Wm, h1, _, h2, _⟩ := mats_get hS m
  obtain ⟨T, hT, h⟩ := einsumC_runs (K := K) .input (d := (idLab hN).d dims R)
    (lensC := (compl [m]).map dims ++ [R]) (sc := (compl [m]).map (idLab hN).lab ++ [(idLab hN).rk])
    (ops := [(V, (List.finRange N).map (idLab hN).lab), (Wm, [(idLab hN).lab m, (idLab hN).rk])])
    (s := ((List.finRange N).map (idLab hN).lab ++ [(idLab hN).rk]).toFinset)
    ((idLab hN).map_d dims R _).symm (by
      intro o ho
      simp only [List.mem_cons, List.not_mem_nil, or_false] at ho
      rcases ho with rfl | rfl
      · simp only [hS.lensV, List.map_map]
        apply List.ext_getElem
        · simp
        · intro i _ _
          simp [(idLab hN).d_lab dims R]
      · simp only [h2, List.map_cons, List.map_nil, (idLab hN).d_lab, (idLab hN).d_rk]) (by
      ext l
      simp only [List.flatMap_cons, List.flatMap_nil, List.append_nil, List.mem_toFinset, List.mem_append, List.mem_cons,
        List.not_mem_nil, or_false, List.mem_map, List.mem_finRange, true_and]
      constructor
      · rintro ((⟨m, _, rfl⟩ | h) | (⟨m, rfl⟩ | (rfl | h)))
        · exact Or.inl ⟨m, rfl⟩
        · exact Or.inr h
        · exact Or.inl ⟨m, rfl⟩
        · exact Or.inl ⟨m, rfl⟩
        · exact Or.inr h
      · rintro (⟨m, rfl⟩ | h)
        · exact Or.inr (Or.inl ⟨m, rfl⟩)
        · exact Or.inl (Or.inr h))
  rw [(idLab hN).prod_d dims R (List.nodup_finRange N)] at h
  refine ⟨T, ?_, hT⟩
  have hw : opW dims R [m] = ⟨.input, (((List.finRange N).map dims).prod * R), ((compl [m]).map dims ++ [R]).prod⟩ := by
    unfold opW
    rw [if_pos (show [m].length = 1 from rfl), List.prod_append, List.prod_singleton, ← List.ofFn_eq_map, List.prod_ofFn]
  rw [hw]
  unfold ppFromRootC
  refine (Runs.lift (stringbuilder_ok hN hs)).bind0 ((Runs.lift (stringbuilder0_ok hN same)).bind0 ?_)
  have e2 : lensInit V W ((compl [m]).map (idLab hN).lab ++ [star]) = .ok ((compl [m]).map dims ++ [R]) :=
    lensInit_ok hN hS (by have := m.2; omega) _
  refine (Runs.lift (a := letter m.1) (by rfl)).bind0 ((Runs.lift e2).bind0 ((Runs.lift (a := Wm) ?_).bind0 ?_))
  · rw [decode_letter (by omega), h1]
  · rw [allLetters_eq hN]
    exact h

theorem ppFromParentC_runs (hN : N ≤ 31) {dims : Fin N → ℕ} {R : ℕ} {V : Tensor K} {W : List (Tensor K)}
    (hS : Shaped dims R V W) (ks : List (Fin N)) (m : Fin N) (hs : (ks ++ [m]).Sublist (List.finRange N)) (hne : ks ≠ [])
    (Tp : Tensor K) (hp : OpShape dims R ks Tp) :
    ∃ T, Runs (ppFromParentC N V W ((ks ++ [m]).map (idLab hN).lab) Tp) T [opW dims R (ks ++ [m])] ∧
      OpShape dims R (ks ++ [m]) T := by
  have hnd : (ks ++ [m]).Nodup := hs.nodup (List.nodup_finRange N)
  have hm : m ∉ ks := by
    rw [List.nodup_append] at hnd
    exact fun h => hnd.2.2 m h m (by simp) rfl
  obtain ⟨Wm, h1, _, h2, _⟩ := mats_get hS m
  obtain ⟨T, hT, h⟩ := einsumC_runs (K := K) .mttkrp (d := (idLab hN).d dims R)
    (lensC := (compl (ks ++ [m])).map dims ++ [R]) (sc := (compl (ks ++ [m])).map (idLab hN).lab ++ [(idLab hN).rk])
    (ops := [(Tp, (compl ks).map (idLab hN).lab ++ [(idLab hN).rk]), (Wm, [(idLab hN).lab m, (idLab hN).rk])])
    (s := ((compl ks).map (idLab hN).lab ++ [(idLab hN).rk]).toFinset)
    ((idLab hN).map_d dims R _).symm (by
      intro o ho
      simp only [List.mem_cons, List.not_mem_nil, or_false] at ho
      rcases ho with rfl | rfl
      · simp only
        rw [(idLab hN).map_d]
        exact hp
      · simp only [h2, List.map_cons, List.map_nil, (idLab hN).d_lab, (idLab hN).d_rk]) (by
      ext l
      simp only [List.flatMap_cons, List.flatMap_nil, List.append_nil, List.mem_toFinset, List.mem_append, List.mem_cons,
        List.not_mem_nil, or_false, List.mem_map, mem_compl']
      constructor
      · rintro ((⟨m', h', rfl⟩ | h) | ((h | h) | (rfl | h)))
        · exact Or.inl ⟨m', fun hh => h' (Or.inl hh), rfl⟩
        · exact Or.inr h
        · exact Or.inl h
        · exact Or.inr h
        · exact Or.inl ⟨m, hm, rfl⟩
        · exact Or.inr h
      · rintro (h | h)
        · exact Or.inr (Or.inl (Or.inl h))
        · exact Or.inl (Or.inr h))
  rw [(idLab hN).prod_d dims R (compl_nodup ks)] at h
  refine ⟨T, ?_, hT⟩
  have hlen : (ks ++ [m]).length ≠ 1 := by
    cases ks with
    | nil => exact absurd rfl hne
    | cons a t => simp
  have hw : opW dims R (ks ++ [m]) = ⟨.mttkrp, ((compl ks).map dims).prod * R, ((compl (ks ++ [m])).map dims ++ [R]).prod⟩ := by
    unfold opW
    rw [if_neg hlen, List.prod_append, List.prod_singleton, List.dropLast_concat]
  rw [hw]
  unfold ppFromParentC
  have hdl : ((ks ++ [m]).map (idLab hN).lab).dropLast = ks.map (idLab hN).lab := by
    rw [List.map_append, List.map_cons, List.map_nil, List.dropLast_concat]
  rw [hdl]
  have e1 : rd ((ks ++ [m]).map (idLab hN).lab) ((((ks ++ [m]).map (idLab hN).lab).length : ℤ) - 1) = .ok (letter m.1) := by
    rw [show ((((ks ++ [m]).map (idLab hN).lab).length : ℤ) - 1) = ((ks.length : ℕ) : ℤ) by simp]
    apply rd_of
    simp [idLab]
  have e2 : lensInit V W ((compl (ks ++ [m])).map (idLab hN).lab ++ [star]) =
      .ok ((compl (ks ++ [m])).map dims ++ [R]) := lensInit_ok hN hS (by have := m.2; omega) _
  refine (Runs.lift (stringbuilder_ok hN hs)).bind0
    ((Runs.lift (stringbuilder_ok hN ((List.sublist_append_left _ _).trans hs))).bind0 ?_)
  refine (Runs.lift e1).bind0 ((Runs.lift e2).bind0 ((Runs.lift (a := Wm) ?_).bind0 ?_))
  · rw [decode_letter (by omega), h1]
  · exact h

end

/-! ### the recursion -/

/-- `L` lists the sets of contracted modes of the cached operators. -/
structure BRec {τ : Type} (hN : N ≤ 31) (Good : List (Fin N) → τ → Prop) (cache : List (Key × τ)) (L : List (List (Fin N))) :
    Prop where
  keys : cache.map Prod.fst = L.map fun ks => ks.map (idLab hN).lab
  nodup : L.Nodup
  nonempty : [] ∉ L
  closed : ∀ ks m, ks ++ [m] ∈ L → ks ≠ [] → ks ∈ L
  good : BInv hN Good cache

theorem BRec.mem {τ : Type} {hN : N ≤ 31} {Good : List (Fin N) → τ → Prop} {cache : List (Key × τ)}
    {L : List (List (Fin N))} (h : BRec hN Good cache L) (ks : List (Fin N)) :
    (cache.lookup (ks.map (idLab hN).lab)).isSome ↔ ks ∈ L := by
  rw [lookup_isSome_iff, h.keys, List.mem_map]
  constructor
  · rintro ⟨ks', h1, h2⟩
    rwa [← List.map_injective_iff.2 (idLab hN).inj h2]
  · intro h
    exact ⟨ks, h, rfl⟩

theorem buildNodeC_runs {τ : Type} (hN : N ≤ 31) {Good : List (Fin N) → τ → Prop} {cost : List (Fin N) → Work}
    {fromRoot : Key → CM τ} {fromParent : Key → τ → CM τ}
    (hroot : ∀ m : Fin N, ∃ T, Runs (fromRoot ([m].map (idLab hN).lab)) T [cost [m]] ∧ Good [m] T)
    (hpar : ∀ (ks : List (Fin N)) (m : Fin N), (ks ++ [m]).Sublist (List.finRange N) → ks ≠ [] → ∀ Tp, Good ks Tp →
      ∃ T, Runs (fromParent ((ks ++ [m]).map (idLab hN).lab) Tp) T [cost (ks ++ [m])] ∧ Good (ks ++ [m]) T) :
    ∀ (n : ℕ) (ks : List (Fin N)) (cache : List (Key × τ)) (L : List (List (Fin N))), ks.length = n →
      ks.Sublist (List.finRange N) → ks ≠ [] → n ≤ 8 → BRec hN Good cache L → ks ∉ L →
      ∃ cache' D, Runs (buildNodeC fromRoot fromParent (ks.map (idLab hN).lab) cache) cache' (D.reverse.map cost) ∧
        BRec hN Good cache' (D ++ L) ∧ ks ∈ D ∧ ∀ x ∈ D, x <+: ks := by
  intro n
  induction n with
  | zero =>
    intro ks cache L hl _ hne
    exact absurd (List.length_eq_zero_iff.1 hl) hne
  | succ n ih =>
    intro ks cache L hl hs hne h8 hI hnew
    unfold buildNodeC
    by_cases h1 : ks.length = 1
    · rw [if_pos (by simpa using h1)]
      obtain ⟨m, rfl⟩ := List.length_eq_one_iff.1 h1
      obtain ⟨T, hT, hG⟩ := hroot m
      refine ⟨([m].map (idLab hN).lab, T) :: cache, [[m]], ?_, ⟨?_, ?_, ?_, ?_, hI.good.cons hG⟩, by simp, by simp⟩
      · show Runs _ _ ([cost [m]] ++ [])
        exact hT.bind (Runs.pure _)
      · rw [List.map_cons, hI.keys]; rfl
      · exact List.nodup_cons.2 ⟨hnew, hI.nodup⟩
      · simp [hI.nonempty]
      · intro ks' m' hmem hne'
        rw [List.singleton_append, List.mem_cons] at hmem
        rcases hmem with e | hmem
        · exfalso
          have := congrArg List.length e
          have h2 : 0 < ks'.length := List.length_pos_iff.2 hne'
          simp at this
          exact hne' this
        · exact List.mem_append_right _ (hI.closed ks' m' hmem hne')
    · rw [if_neg (by simpa using h1), dif_neg (by simp only [List.length_map]; omega)]
      obtain ⟨ks', m, rfl⟩ : ∃ ks' m, ks = ks' ++ [m] := ⟨ks.dropLast, ks.getLast hne, (List.dropLast_append_getLast hne).symm⟩
      simp only [List.length_append, List.length_singleton] at hl h1
      have hne' : ks' ≠ [] := fun e => by subst e; simp at h1
      have hdl : ((ks' ++ [m]).map (idLab hN).lab).dropLast = ks'.map (idLab hN).lab := by
        rw [List.map_append, List.map_cons, List.map_nil, List.dropLast_concat]
      have hs' : ks'.Sublist (List.finRange N) := (List.sublist_append_left _ _).trans hs
      rw [hdl]
      obtain ⟨c1, D, hc1, hI1, hin, hpre⟩ : ∃ c1 D, Runs (if (cache.lookup (ks'.map (idLab hN).lab)).isNone then
          buildNodeC fromRoot fromParent (ks'.map (idLab hN).lab) cache else pure cache) c1 (D.reverse.map cost) ∧
          BRec hN Good c1 (D ++ L) ∧ ks' ∈ D ++ L ∧ ∀ x ∈ D, x <+: ks' := by
        by_cases hnone : (cache.lookup (ks'.map (idLab hN).lab)).isNone
        · rw [if_pos hnone]
          obtain ⟨c1, D, a1, a2, a3, a4⟩ := ih ks' cache L (by omega) hs' hne' (by omega) hI (by
            rw [← hI.mem ks']
            intro h
            rw [Option.isNone_iff_eq_none] at hnone
            rw [hnone] at h
            simp at h)
          exact ⟨c1, D, a1, a2, List.mem_append_left _ a3, a4⟩
        · rw [if_neg hnone]
          refine ⟨cache, [], Runs.pure cache, by simpa using hI, ?_, by simp⟩
          rw [List.nil_append, ← hI.mem ks']
          simpa [Option.isSome_iff_ne_none] using hnone
      obtain ⟨Tp, hTp⟩ := Option.isSome_iff_exists.1 ((hI1.mem ks').2 hin)
      obtain ⟨T, hT, hG⟩ := hpar ks' m hs hne' Tp (hI1.good ks' hs' hne' Tp hTp)
      have hnew' : ks' ++ [m] ∉ D ++ L := by
        rw [List.mem_append]
        rintro (h | h)
        · have := (hpre _ h).length_le
          simp at this
        · exact hnew h
      refine ⟨((ks' ++ [m]).map (idLab hN).lab, T) :: c1, (ks' ++ [m]) :: D, ?_, ⟨?_, ?_, ?_, ?_, hI1.good.cons hG⟩, by simp, ?_⟩
      · have e : (((ks' ++ [m]) :: D).reverse.map cost) = D.reverse.map cost ++ ([cost (ks' ++ [m])] ++ []) := by
          rw [List.reverse_cons, List.map_append]; rfl
        rw [e]
        refine hc1.bind ?_
        rw [hTp]
        exact hT.bind (Runs.pure _)
      · rw [List.map_cons, hI1.keys]; rfl
      · exact List.nodup_cons.2 ⟨hnew', hI1.nodup⟩
      · rw [List.cons_append, List.mem_cons]
        rintro (h | h)
        · simp at h
        · exact hI1.nonempty h
      · intro ks'' m'' hmem hne''
        rw [List.cons_append, List.mem_cons] at hmem ⊢
        rcases hmem with e | hmem
        · have := List.append_inj' e rfl
          right
          rw [this.1]
          exact hin
        · exact Or.inr (hI1.closed ks'' m'' hmem hne'')
      · intro x hx
        rw [List.mem_cons] at hx
        rcases hx with rfl | hx
        · exact List.prefix_rfl
        · exact (hpre x hx).trans (List.prefix_append _ _)

/-- Building a list of operators none of which is a prefix of an earlier one. -/
theorem buildListC_runs {τ : Type} (hN : N ≤ 31) {Good : List (Fin N) → τ → Prop} {cost : List (Fin N) → Work}
    {fromRoot : Key → CM τ} {fromParent : Key → τ → CM τ}
    (hroot : ∀ m : Fin N, ∃ T, Runs (fromRoot ([m].map (idLab hN).lab)) T [cost [m]] ∧ Good [m] T)
    (hpar : ∀ (ks : List (Fin N)) (m : Fin N), (ks ++ [m]).Sublist (List.finRange N) → ks ≠ [] → ∀ Tp, Good ks Tp →
      ∃ T, Runs (fromParent ((ks ++ [m]).map (idLab hN).lab) Tp) T [cost (ks ++ [m])] ∧ Good (ks ++ [m]) T) :
    ∀ (todo : List (List (Fin N))) (cache : List (Key × τ)) (L : List (List (Fin N))),
      (∀ ks ∈ todo, ks.Sublist (List.finRange N) ∧ ks ≠ [] ∧ ks.length ≤ 8) →
      todo.Pairwise (fun a b => ¬ b <+: a) → BRec hN Good cache L → (∀ ks ∈ todo, ks ∉ L) →
      ∃ cache' D, Runs ((todo.map fun ks => ks.map (idLab hN).lab).foldlM
          (fun cache seq => buildNodeC fromRoot fromParent seq cache) cache) cache' (D.reverse.map cost) ∧
        BRec hN Good cache' (D ++ L) ∧ (∀ ks ∈ todo, ks ∈ D) ∧ ∀ x ∈ D, ∃ ks ∈ todo, x <+: ks
  | [], cache, L, _, _, hI, _ => ⟨cache, [], Runs.pure cache, by simpa using hI, by simp, by simp⟩
  | ks :: todo, cache, L, hok, hpw, hI, hnew => by
    obtain ⟨o1, o2, o3⟩ := hok ks (by simp)
    obtain ⟨c1, D1, a1, a2, a3, a4⟩ := buildNodeC_runs hN hroot hpar _ ks cache L rfl o1 o2 o3 hI (hnew ks (by simp))
    rw [List.pairwise_cons] at hpw
    obtain ⟨c2, D2, b1, b2, b3, b4⟩ := buildListC_runs hN hroot hpar todo c1 (D1 ++ L) (fun k hk => hok k (by simp [hk]))
      hpw.2 a2 (by
        intro k hk hmem
        rcases List.mem_append.1 hmem with h | h
        · exact hpw.1 k hk (a4 k h)
        · exact hnew k (by simp [hk]) h)
    refine ⟨c2, D2 ++ D1, ?_, by rw [List.append_assoc]; exact b2, ?_, ?_⟩
    · rw [List.map_cons, List.foldlM_cons, List.reverse_append, List.map_append]
      exact a1.bind b1
    · intro k hk
      rw [List.mem_cons] at hk
      rcases hk with rfl | hk
      · exact List.mem_append_right _ a3
      · exact List.mem_append_left _ (b3 k hk)
    · intro x hx
      rcases List.mem_append.1 hx with h | h
      · obtain ⟨k, hk, hp⟩ := b4 x h
        exact ⟨k, by simp [hk], hp⟩
      · exact ⟨ks, by simp, a4 x h⟩

/-! ### the operators of a PP phase -/

theorem exists_map_eq {α β : Type} (f : α → β) : ∀ l : List β, (∀ b ∈ l, ∃ a, b = f a) → ∃ m : List α, l = m.map f
  | [], _ => ⟨[], rfl⟩
  | b :: l, h => by
    obtain ⟨a, rfl⟩ := h b (by simp)
    obtain ⟨m, rfl⟩ := exists_map_eq f l fun b hb => h b (by simp [hb])
    exact ⟨a :: m, rfl⟩

theorem ppKeys_pairwise (hN : N ≤ 31) : (ppKeys N).Pairwise fun a b => ¬ b <+: a := by
  have hinj1 : ∀ i j : Fin N, exceptOne (allLetters N) i.1 = exceptOne (allLetters N) j.1 → i = j := by
    intro i j h
    rw [exceptOne_lab hN, exceptOne_lab hN] at h
    have := List.map_injective_iff.2 (idLab hN).inj h
    have h2 := compl_ex1 i
    rw [this, compl_ex1] at h2
    exact ((List.cons.inj h2).1).symm
  have hinj2 : ∀ i j i' j' : Fin N, i < j → i' < j' → exceptTwo (allLetters N) i.1 j.1 = exceptTwo (allLetters N) i'.1 j'.1 →
      i = i' ∧ j = j' := by
    intro i j i' j' hij hij' h
    rw [exceptTwo_lab hN, exceptTwo_lab hN] at h
    have := List.map_injective_iff.2 (idLab hN).inj h
    have h2 := compl_ex2 hij
    rw [this, compl_ex2 hij'] at h2
    have h3 := List.cons.inj h2
    exact ⟨h3.1.symm, ((List.cons.inj h3.2).1).symm⟩
  have hl2 : ∀ k ∈ (List.range N).flatMap fun i => (List.range' (i + 1) (N - (i + 1))).map fun j =>
      exceptTwo (allLetters N) i j, k.length = N - 2 := by
    intro k hk
    simp only [List.mem_flatMap, List.mem_map, List.mem_range, List.mem_range'_1] at hk
    obtain ⟨i, hi, j, hj, rfl⟩ := hk
    rw [exceptTwo_lab hN ⟨i, hi⟩ ⟨j, by omega⟩, List.length_map, ex2_length (by simp only [Fin.mk_lt_mk]; omega)]
  have hl1 : ∀ k ∈ (List.range N).map fun i => exceptOne (allLetters N) i, k.length = N - 1 := by
    intro k hk
    simp only [List.mem_map, List.mem_range] at hk
    obtain ⟨i, hi, rfl⟩ := hk
    rw [exceptOne_lab hN ⟨i, hi⟩, List.length_map, ex1_length]
  have hn2 : ((List.range N).flatMap fun i => (List.range' (i + 1) (N - (i + 1))).map fun j =>
      exceptTwo (allLetters N) i j).Nodup := by
    rw [List.nodup_flatMap]
    constructor
    · intro i hi
      rw [List.mem_range] at hi
      refine List.Nodup.map_on ?_ List.nodup_range'
      intro j hj j' hj' h
      rw [List.mem_range'_1] at hj hj'
      have := hinj2 ⟨i, hi⟩ ⟨j, by omega⟩ ⟨i, hi⟩ ⟨j', by omega⟩ (by simp only [Fin.mk_lt_mk]; omega)
        (by simp only [Fin.mk_lt_mk]; omega) h
      exact congrArg Fin.val this.2
    · have := (List.nodup_range (n := N))
      refine List.Pairwise.imp_of_mem ?_ this
      intro i i' hi hi' hne k hk hk'
      rw [List.mem_range] at hi hi'
      simp only [List.mem_map, List.mem_range'_1] at hk hk'
      obtain ⟨j, hj, rfl⟩ := hk
      obtain ⟨j', hj', e⟩ := hk'
      have := hinj2 ⟨i', hi'⟩ ⟨j', by omega⟩ ⟨i, hi⟩ ⟨j, by omega⟩ (by simp only [Fin.mk_lt_mk]; omega)
        (by simp only [Fin.mk_lt_mk]; omega) e
      exact hne (congrArg Fin.val this.1).symm
  have hn1 : ((List.range N).map fun i => exceptOne (allLetters N) i).Nodup := by
    refine List.Nodup.map_on ?_ List.nodup_range
    intro i hi i' hi' h
    rw [List.mem_range] at hi hi'
    exact congrArg Fin.val (hinj1 ⟨i, hi⟩ ⟨i', hi'⟩ h)
  unfold ppKeys
  rw [List.pairwise_append]
  refine ⟨List.Pairwise.imp_of_mem ?_ hn2, List.Pairwise.imp_of_mem ?_ hn1, ?_⟩
  · intro a b ha hb hne hpre
    exact hne (hpre.eq_of_length (by rw [hl2 a ha, hl2 b hb])).symm
  · intro a b ha hb hne hpre
    exact hne (hpre.eq_of_length (by rw [hl1 a ha, hl1 b hb])).symm
  · intro a ha b hb hpre
    have h1 := hpre.length_le
    rw [hl2 a ha, hl1 b hb] at h1
    have hN0 : 2 ≤ N := by
      simp only [List.mem_flatMap, List.mem_map, List.mem_range, List.mem_range'_1] at ha
      obtain ⟨i, hi, j, hj, _⟩ := ha
      omega
    omega

variable [CommRing K]

/-- The set-up of a PP phase computes every operator once. -/
theorem ppOperatorsC_runs (h3 : 3 ≤ N) (h9 : N ≤ 9) (same : Bool) {dims : Fin N → ℕ} {R : ℕ} {V : Tensor K}
    {W : List (Tensor K)} (hS : Shaped dims R V W) :
    ∃ ops, ∃ L : List (List (Fin N)), Runs (ppOperatorsC same N V W) ops (L.reverse.map (opW dims R)) ∧ L.Nodup ∧
      ∀ ks, ks ∈ L ↔ ks ≠ [] ∧ ((∃ i j, i < j ∧ ks <+: ex2 i j) ∨ ∃ i, ks <+: ex1 i) := by
  have hN : N ≤ 31 := by omega
  obtain ⟨todo, htodo⟩ := exists_map_eq (fun ks : List (Fin N) => ks.map (idLab hN).lab) (ppKeys N) (by
    intro k hk
    rcases (mem_ppKeys hN).1 hk with ⟨i, j, _, rfl⟩ | ⟨i, rfl⟩
    · exact ⟨_, rfl⟩
    · exact ⟨_, rfl⟩)
  have hinj : Function.Injective (fun ks : List (Fin N) => ks.map (idLab hN).lab) := List.map_injective_iff.2 (idLab hN).inj
  have hmem : ∀ ks, ks ∈ todo ↔ (∃ i j : Fin N, i < j ∧ ks = ex2 i j) ∨ ∃ i : Fin N, ks = ex1 i := by
    intro ks
    have h1 : ks ∈ todo ↔ ks.map (idLab hN).lab ∈ ppKeys N := by
      rw [htodo]
      exact (List.mem_map_of_injective hinj).symm
    rw [h1, mem_ppKeys hN]
    constructor
    · rintro (⟨i, j, hij, e⟩ | ⟨i, e⟩)
      · exact .inl ⟨i, j, hij, hinj e⟩
      · exact .inr ⟨i, hinj e⟩
    · rintro (⟨i, j, hij, rfl⟩ | ⟨i, rfl⟩)
      · exact .inl ⟨i, j, hij, rfl⟩
      · exact .inr ⟨i, rfl⟩
  have hpw : todo.Pairwise fun a b => ¬ b <+: a := by
    have := ppKeys_pairwise (N := N) hN
    rw [htodo, List.pairwise_map] at this
    refine this.imp ?_
    rintro a b h ⟨t, rfl⟩
    exact h ⟨t.map (idLab hN).lab, by rw [List.map_append]⟩
  obtain ⟨ops, D, h1, h2, h4, h5⟩ := buildListC_runs hN (Good := OpShape (K := K) dims R) (cost := opW dims R)
    (fromRoot := ppFromRootC same N V W) (fromParent := ppFromParentC N V W)
    (fun m => ppFromRootC_runs hN same hS m)
    (fun ks m hs hne Tp hp => ppFromParentC_runs hN hS ks m hs hne Tp hp) todo [] [] (by
      intro ks hks
      rcases (hmem ks).1 hks with ⟨i, j, hij, rfl⟩ | ⟨i, rfl⟩
      · have := ex2_length hij
        exact ⟨ex2_sub hij, fun e => by rw [e] at this; simp at this; omega, by omega⟩
      · have := ex1_length i
        exact ⟨ex1_sub i, fun e => by rw [e] at this; simp at this; omega, by omega⟩)
    hpw ⟨rfl, by simp, by simp, by simp, BInv.nil hN _⟩ (by simp)
  rw [List.append_nil] at h2
  have hpref : ∀ (n : ℕ) (ks t : List (Fin N)), t.length = n → ks ≠ [] → ks ++ t ∈ D → ks ∈ D := by
    intro n
    induction n with
    | zero =>
      intro ks t hl _ h
      rw [List.length_eq_zero_iff.1 hl, List.append_nil] at h
      exact h
    | succ n ih =>
      intro ks t hl hne h
      obtain ⟨t', m, rfl⟩ : ∃ t' m, t = t' ++ [m] := by
        have ht : t ≠ [] := fun e => by rw [e] at hl; simp at hl
        exact ⟨t.dropLast, t.getLast ht, (List.dropLast_append_getLast ht).symm⟩
      rw [← List.append_assoc] at h
      exact ih ks t' (by simpa using hl) hne (h2.closed _ m h (by simp [hne]))
  refine ⟨ops, D, ?_, h2.nodup, fun ks => ⟨fun h => ?_, ?_⟩⟩
  · unfold ppOperatorsC
    rw [htodo]
    exact h1
  · refine ⟨fun e => h2.nonempty (e ▸ h), ?_⟩
    obtain ⟨k, hk, hp⟩ := h5 ks h
    rcases (hmem k).1 hk with ⟨i, j, hij, rfl⟩ | ⟨i, rfl⟩
    · exact .inl ⟨i, j, hij, hp⟩
    · exact .inr ⟨i, hp⟩
  · rintro ⟨hne, ⟨i, j, hij, t, e⟩ | ⟨i, t, e⟩⟩
    · exact hpref _ ks t rfl hne (by rw [e]; exact h4 _ ((hmem _).2 (.inl ⟨i, j, hij, rfl⟩)))
    · exact hpref _ ks t rfl hne (by rw [e]; exact h4 _ ((hmem _).2 (.inr ⟨i, rfl⟩)))

/-- The operators with one contracted mode are those of the first three modes. -/
theorem single_pref (h3 : 3 ≤ N) (m : Fin N) :
    ((∃ i j, i < j ∧ [m] <+: ex2 i j) ∨ ∃ i, [m] <+: ex1 i) ↔ m.1 < 3 := by
  have hsorted2 : ∀ {i j : Fin N}, i < j → (ex2 i j).Pairwise (· < ·) := fun h =>
    (List.pairwise_lt_finRange N).sublist (ex2_sub h)
  have hsorted1 : ∀ i : Fin N, (ex1 i).Pairwise (· < ·) := fun i => (List.pairwise_lt_finRange N).sublist (ex1_sub i)
  constructor
  · rintro (⟨i, j, hij, t, e⟩ | ⟨i, t, e⟩)
    · by_contra hm
      have hs := hsorted2 hij
      rw [← e, List.singleton_append, List.pairwise_cons] at hs
      obtain ⟨x, hx, hxi, hxj⟩ : ∃ x : Fin N, x.1 < 3 ∧ x ≠ i ∧ x ≠ j := by
        by_contra hno
        push Not at hno
        have a0 := hno ⟨0, by omega⟩ (by simp)
        have a1 := hno ⟨1, by omega⟩ (by simp)
        have a2 := hno ⟨2, by omega⟩ (by simp)
        simp only [ne_eq, Fin.ext_iff] at a0 a1 a2
        omega
      have hmem : x ∈ ex2 i j := (mem_ex2 hij).2 ⟨hxi, hxj⟩
      rw [← e, List.singleton_append, List.mem_cons] at hmem
      rcases hmem with rfl | hmem
      · exact hm hx
      · have : m.1 < x.1 := hs.1 x hmem
        omega
    · by_contra hm
      have hs := hsorted1 i
      rw [← e, List.singleton_append, List.pairwise_cons] at hs
      obtain ⟨x, hx, hxi⟩ : ∃ x : Fin N, x.1 < 3 ∧ x ≠ i := by
        by_contra hno
        push Not at hno
        have a0 := hno ⟨0, by omega⟩ (by simp)
        have a1 := hno ⟨1, by omega⟩ (by simp)
        rw [Fin.ext_iff] at a0 a1
        simp at a0 a1
        omega
      have hmem : x ∈ ex1 i := mem_ex1.2 hxi
      rw [← e, List.singleton_append, List.mem_cons] at hmem
      rcases hmem with rfl | hmem
      · exact hm hx
      · have : m.1 < x.1 := hs.1 x hmem
        omega
  · intro hm
    left
    obtain ⟨i, j, hij, hi3, hj3, hmi, hmj⟩ : ∃ i j : Fin N, i < j ∧ i.1 < 3 ∧ j.1 < 3 ∧ m ≠ i ∧ m ≠ j := by
      have : m.1 = 0 ∨ m.1 = 1 ∨ m.1 = 2 := by omega
      rcases this with h | h | h
      · exact ⟨⟨1, by omega⟩, ⟨2, by omega⟩, by simp, by simp, by simp, by rw [Ne, Fin.ext_iff]; simp [h], by rw [Ne, Fin.ext_iff]; simp [h]⟩
      · exact ⟨⟨0, by omega⟩, ⟨2, by omega⟩, by simp, by simp, by simp, by rw [Ne, Fin.ext_iff]; simp [h], by rw [Ne, Fin.ext_iff]; simp [h]⟩
      · exact ⟨⟨0, by omega⟩, ⟨1, by omega⟩, by simp, by simp, by simp, by rw [Ne, Fin.ext_iff]; simp [h], by rw [Ne, Fin.ext_iff]; simp [h]⟩
    refine ⟨i, j, hij, ?_⟩
    have hmem : m ∈ ex2 i j := (mem_ex2 hij).2 ⟨hmi, hmj⟩
    have hs := hsorted2 hij
    have hall : ∀ x ∈ ex2 i j, x ≠ i ∧ x ≠ j := fun x hx => (mem_ex2 hij).1 hx
    cases hx : ex2 i j with
    | nil => rw [hx] at hmem; simp at hmem
    | cons x t =>
      rw [hx] at hmem hs hall
      rw [List.pairwise_cons] at hs
      rw [List.mem_cons] at hmem
      rcases hmem with rfl | hmem
      · exact ⟨t, rfl⟩
      · exfalso
        have h1 : x.1 < m.1 := hs.1 m hmem
        have h2 := hall x (by simp)
        have h4 : i.1 < j.1 := hij
        simp only [ne_eq, Fin.ext_iff] at h2 hmi hmj
        omega

theorem countOf_map (t : Tag) {α : Type} (f : α → Work) (l : List α) :
    countOf t (l.map f) = l.countP fun a => (f a).tag = t := by
  induction l with
  | nil => rfl
  | cons a l ih =>
    have : countOf t ((a :: l).map f) = (if (f a).tag = t then 1 else 0) + countOf t (l.map f) := by simp [countOf]
    rw [this, ih, List.countP_cons]
    by_cases h : (f a).tag = t
    · simp [h]; omega
    · simp [h]

/-- The set-up of a PP phase reads the input tensor three times. -/
theorem ppSetup_input (h3 : 3 ≤ N) (dims : Fin N → ℕ) (R : ℕ) {L : List (List (Fin N))} (hnd : L.Nodup)
    (hL : ∀ ks, ks ∈ L ↔ ks ≠ [] ∧ ((∃ i j, i < j ∧ ks <+: ex2 i j) ∨ ∃ i, ks <+: ex1 i)) :
    countOf .input (L.reverse.map (opW dims R)) = 3 := by
  rw [countOf_map, List.countP_reverse]
  have htag : ∀ ks, ((opW dims R ks).tag = .input) ↔ ks.length = 1 := by
    intro ks
    unfold opW
    split_ifs with h
    · simp [h]
    · simp [h]
  rw [List.countP_eq_length_filter]
  have hperm : (L.filter fun ks => (opW dims R ks).tag = .input).Perm
      [[(⟨0, by omega⟩ : Fin N)], [⟨1, by omega⟩], [⟨2, by omega⟩]] := by
    rw [List.perm_ext_iff_of_nodup (hnd.filter _) (by simp)]
    intro ks
    simp only [List.mem_filter, decide_eq_true_eq, htag, List.mem_cons, List.not_mem_nil, or_false]
    constructor
    · rintro ⟨h1, h2⟩
      obtain ⟨m, rfl⟩ := List.length_eq_one_iff.1 h2
      have := (single_pref h3 m).1 ((hL [m]).1 h1).2
      have h4 : m.1 = 0 ∨ m.1 = 1 ∨ m.1 = 2 := by omega
      rcases h4 with h | h | h
      · left; congr 1; exact Fin.ext h
      · right; left; congr 1; exact Fin.ext h
      · right; right; congr 1; exact Fin.ext h
    · have key : ∀ m : Fin N, m.1 < 3 → ([m] ∈ L ∧ [m].length = 1) := fun m hm =>
        ⟨(hL [m]).2 ⟨by simp, (single_pref h3 m).2 hm⟩, rfl⟩
      rintro (rfl | rfl | rfl)
      · exact key _ (by simp)
      · exact key _ (by simp)
      · exact key _ (by simp)
  rw [hperm.length_eq]
  rfl

/-! ### a sweep -/

/-- What the correction of `M` of mode `i` by the displacement of mode `j` records. -/
def contribW (dims : Fin N → ℕ) (R i j : ℕ) : Work :=
  ⟨.mttkrp, dimN dims i * dimN dims j * R, dimN dims i * R⟩

theorem ppContribC_runs {dims : Fin N → ℕ} {R : ℕ} {V : Tensor K} {Winit dW : List (Tensor K)} {ops : Cache K}
    (ho : PPOps dims R V Winit ops) (hD : Shaped dims R V dW) {i j : Fin N} (hij : i ≠ j) {M : Tensor K}
    (hM : M.lens = [dims i, R]) :
    ∃ M', Runs (ppContribC N ops dW i.1 M j.1) M' [contribW dims R i j] ∧ M'.lens = [dims i, R] := by
  obtain ⟨Dj, d1, _, d2, _⟩ := mats_get hD j
  have hw : ∀ a, a = dims i * dims j * R → ([⟨.mttkrp, a, M.lens.prod⟩] : List Work) = [contribW dims R i j] := by
    rintro a rfl
    unfold contribW
    rw [dimN_val, dimN_val, hM]
    simp
  unfold ppContribC
  by_cases h : j.1 < i.1
  · have hlt : j < i := h
    obtain ⟨T, t1, t2⟩ := ho.2 j i hlt
    have hl := t2.2.1
    rw [compl_ex2 hlt] at hl
    obtain ⟨X, hXl, hX⟩ := einsumC_runs (K := K) .mttkrp (d := dIJK (dims j) (dims i) R) (lensC := M.lens) (sc := [lj, lk])
      (ops := [(T, [li, lj, lk]), (Dj, [li, lk])]) (s := {li, lj, lk}) (by simp [hM]) (by simp [hl, d2])
      (by simp only [List.flatMap_cons, List.flatMap_nil]; decide)
    rw [prod_ijk, hw _ (by ring)] at hX
    obtain ⟨M', hz, _, hzl, _⟩ := zipT_ok (· + ·) (A := M) (B := X) hXl.symm
    refine ⟨M', ?_, hzl.trans hM⟩
    refine (Runs.lift d1).bind0 ?_
    simp only [if_pos h, t1]
    unfold accumC
    rw [← List.append_nil [contribW dims R i j]]
    exact hX.bind (Runs.lift hz)
  · have hlt : i < j := lt_of_le_of_ne (not_lt.1 h) hij
    obtain ⟨T, t1, t2⟩ := ho.2 i j hlt
    have hl := t2.2.1
    rw [compl_ex2 hlt] at hl
    obtain ⟨X, hXl, hX⟩ := einsumC_runs (K := K) .mttkrp (d := dIJK (dims i) (dims j) R) (lensC := M.lens) (sc := [li, lk])
      (ops := [(T, [li, lj, lk]), (Dj, [lj, lk])]) (s := {li, lj, lk}) (by simp [hM]) (by simp [hl, d2])
      (by simp only [List.flatMap_cons, List.flatMap_nil]; decide)
    rw [prod_ijk, hw _ (by ring)] at hX
    obtain ⟨M', hz, _, hzl, _⟩ := zipT_ok (· + ·) (A := M) (B := X) hXl.symm
    refine ⟨M', ?_, hzl.trans hM⟩
    refine (Runs.lift d1).bind0 ?_
    simp only [if_neg h, t1]
    unfold accumC
    rw [← List.append_nil [contribW dims R i j]]
    exact hX.bind (Runs.lift hz)

/-- The modes other than `i`, in the order of the code. -/
def otherModes (N i : ℕ) : List ℕ := List.range i ++ List.range' (i + 1) (N - (i + 1))

omit [CommRing K] in
theorem mem_otherModes {i : ℕ} (hi : i < N) (m : ℕ) : m ∈ otherModes N i ↔ m < N ∧ m ≠ i := by
  unfold otherModes
  rw [List.mem_append, List.mem_range, List.mem_range'_1]
  omega

omit [CommRing K] in
theorem otherModes_nodup (N i : ℕ) : (otherModes N i).Nodup := by
  unfold otherModes
  rw [List.nodup_append]
  refine ⟨List.nodup_range, List.nodup_range', ?_⟩
  intro a ha b hb
  rw [List.mem_range] at ha
  rw [List.mem_range'_1] at hb
  omega

theorem ppMC_runs {dims : Fin N → ℕ} {R : ℕ} {V : Tensor K} {Winit dW : List (Tensor K)} {ops : Cache K}
    (ho : PPOps dims R V Winit ops) (hD : Shaped dims R V dW) (i : Fin N) :
    ∃ M, Runs (ppMC N ops dW i.1) M ((otherModes N i).map (contribW dims R i)) ∧ M.lens = [dims i, R] := by
  obtain ⟨M0, h1, h2⟩ := ho.1 i
  have hl := h2.2.1
  rw [compl_ex1] at hl
  obtain ⟨M, m1, m2⟩ := Runs.foldlM_list (P := fun M : Tensor K => M.lens = [dims i, R]) (f := ppContribC N ops dW i.1)
    (w := fun j => [contribW dims R i j]) (otherModes N i) M0 (by simpa using hl) (by
      intro j hj M hM
      obtain ⟨hjN, hne⟩ := (mem_otherModes i.2 j).1 hj
      exact ppContribC_runs ho hD (i := i) (j := ⟨j, hjN⟩) (fun e => hne (congrArg Fin.val e).symm) hM)
  refine ⟨M, ?_, m2⟩
  rw [flatMap_single] at m1
  unfold ppMC
  rw [h1]
  exact m1

/-- What the update of mode `i` in a PP sweep records. -/
def ppUpdW (dims : Fin N → ℕ) (R : ℕ) (i : ℕ) : List Work :=
  (otherModes N i).map (contribW dims R i) ++ (gramW dims R (swapIdx N i) ++
    [⟨.update, dimN dims i * R * R, dimN dims i * R⟩])

theorem ppUpdateC_runs {F : Type} [Field F] [LinearOrder F] [IsStrictOrderedRing F] (h2 : 2 ≤ N)
    {dims : Fin N → ℕ} {R : ℕ} {V : Tensor F} {Winit : List (Tensor F)} {ops : Cache F}
    (ho : PPOps dims R V Winit ops) (hI : Shaped dims R V Winit) {s : PPState F}
    (hs : PPShaped dims R V s) {lam ratio : F} {kn : Kern F} (hk : Properties.KernOk kn) (i : Fin N)
    (hpd : Spec.PosDef R (Spec.normalMat dims R lam (mats s.W) i)) :
    ∃ s', Runs (ppUpdateC N R lam ratio kn ops Winit s i.1) s' (ppUpdW dims R i) ∧ PPShaped dims R V s' := by
  obtain ⟨M, m1, m3⟩ := ppMC_runs ho hs.dW i
  obtain ⟨S, s1, s3⟩ := gramSC_runs hs.W lam (index := swapIdx N i.1) (fun m hm => ((mem_swapIdx i.2).1 hm).1)
    (others_ne_nil h2 fun m => mem_swapIdx i.2)
  obtain ⟨S', s1', s2', s3', s4'⟩ := gramS_ok h2 hs.W lam i (index := swapIdx N i.1) (fun m => mem_swapIdx i.2) (swapIdx_nodup i.1)
  have hSS : S = S' := by
    have := s1.erase (gramSC_erases _ _ _ _)
    rw [s1'] at this
    exact (Except.ok.inj this).symm
  subst hSS
  obtain ⟨Wi, w1, _, w2, _⟩ := mats_get hs.W i
  obtain ⟨T, t3, t1⟩ := einsumC_runs (K := F) .update (d := dIJK (dims i) R R) (lensC := M.lens) (sc := [li, lj])
    (ops := [(Wi, [li, lk]), (S, [lk, lj])]) (s := {li, lj, lk}) (by simp [m3]) (by simp [w2, s3])
    (by simp only [List.flatMap_cons, List.flatMap_nil]; decide)
  rw [prod_ijk] at t1
  obtain ⟨g, g1, _, g3, _⟩ := zipT_ok (fun a b : F => -a + b) (A := M) (B := T) t3.symm
  obtain ⟨W0, a1, _, a2, _⟩ := mats_get hI i
  have hpd' : Spec.PosDef R (mat S) := by rw [s4']; exact hpd
  have hu := hk.svd R S s3 hpd'.1
  obtain ⟨X0, D, X, x1, x2, x3, _⟩ := svdSolveMod_ok m3 a2 s3 hu (Properties.svd_nonzero hu (Properties.posDef_inj hpd')) ratio
  refine ⟨⟨s.W.set i.1 X0, s.G.set i.1 g, s.dW.set i.1 D⟩, ?_, ⟨hs.W.set i x2, by simp [hs.G], hs.dW.set i x3⟩⟩
  have hw : ppUpdW dims R i = (otherModes N i).map (contribW dims R i) ++ (gramW dims R (swapIdx N i) ++
      ([⟨.update, dims i * R * R, M.lens.prod⟩] ++ [])) := by
    unfold ppUpdW
    rw [dimN_val, m3]
    simp
  rw [hw]
  unfold ppUpdateC
  refine m1.bind (s1.bind ((Runs.lift w1).bind0 (t1.bind ?_)))
  exact (Runs.lift g1).bind0 ((Runs.lift a1).bind0 ((Runs.lift x1).bind0 (Runs.pure _)))

theorem ppUpdatesC_runs {F : Type} [Field F] [LinearOrder F] [IsStrictOrderedRing F] (h2 : 2 ≤ N)
    {dims : Fin N → ℕ} {R : ℕ} {V : Tensor F} {Winit : List (Tensor F)} {ops : Cache F}
    (ho : PPOps dims R V Winit ops) (hI : Shaped dims R V Winit) {s : PPState F}
    (hs : PPShaped dims R V s) {lam ratio : F} (hl : 0 < lam) (hd : ∀ j, 0 < dims j) {kn : Kern F} (hk : Properties.KernOk kn) :
    ∃ s', Runs (ppUpdatesC N R lam ratio kn ops Winit s) s' ((List.range N).flatMap (ppUpdW dims R)) ∧ PPShaped dims R V s' := by
  unfold ppUpdatesC
  refine Runs.foldlM_list (P := fun s : PPState F => PPShaped dims R V s) (List.range N) s hs ?_
  intro i hi s hs
  rw [List.mem_range] at hi
  exact ppUpdateC_runs h2 ho hI hs hk ⟨i, hi⟩ (Spec.normalMat_posDef hl (hd _))

omit [CommRing K] in
theorem contrib_sums (dims : Fin N → ℕ) (R : ℕ) (i : ℕ) (l : List ℕ) :
    termsOf .mttkrp (l.map (contribW dims R i)) = dimN dims i * (l.map (dimN dims)).sum * R ∧
      countOf .mttkrp (l.map (contribW dims R i)) = l.length := by
  induction l with
  | nil => simp [termsOf, countOf]
  | cons a l ih =>
    rw [List.map_cons, show ∀ x, contribW dims R i a :: x = [contribW dims R i a] ++ x from fun _ => rfl, termsOf_append,
      countOf_append, ih.1, ih.2]
    constructor
    · simp [termsOf, contribW]; ring
    · simp [countOf, contribW]; ring

omit [CommRing K] in
/-- A PP sweep does not touch the input tensor; its corrections cost `R Σ_{i≠j} d_i d_j`. -/
theorem ppSweep_sums (dims : Fin N → ℕ) (R : ℕ) :
    countOf .input ((List.range N).flatMap (ppUpdW dims R)) = 0 ∧
      termsOf .mttkrp ((List.range N).flatMap (ppUpdW dims R)) = R * ∑ i, ∑ j ∈ Finset.univ.erase i, dims i * dims j ∧
      countOf .mttkrp ((List.range N).flatMap (ppUpdW dims R)) = N * (N - 1) ∧
      termsOf .update ((List.range N).flatMap (ppUpdW dims R)) = N * ((∑ m, dims m) * (R * R)) := by
  have hpair : ∀ i : Fin N, termsOf .mttkrp (ppUpdW dims R i) = R * ∑ j ∈ Finset.univ.erase i, dims i * dims j := by
    intro i
    unfold ppUpdW
    rw [termsOf_append, termsOf_append, (contrib_sums dims R i _).1, (gramW_mttkrp dims R _).1]
    have h1 := sum_othersN dims i (mem_otherModes i.2) (otherModes_nodup N i)
    have h2 := Finset.sum_erase_add Finset.univ dims (Finset.mem_univ i)
    have h4 : ((otherModes N i).map (dimN dims)).sum = ∑ j ∈ Finset.univ.erase i, dims j := by omega
    rw [h4, dimN_val, ← Finset.mul_sum]
    simp [termsOf]
    ring
  have hcnt : ∀ i : Fin N, countOf .mttkrp (ppUpdW dims R i) = N - 1 := by
    intro i
    unfold ppUpdW
    rw [countOf_append, countOf_append, (contrib_sums dims R i _).2, (gramW_mttkrp dims R _).2.2]
    have hi := i.2
    simp [countOf, otherModes]
    omega
  have hupd : ∀ i : Fin N, termsOf .update (ppUpdW dims R i) = (∑ m, dims m) * (R * R) := by
    intro i
    unfold ppUpdW
    have hz : termsOf .update ((otherModes N i).map (contribW dims R i)) = 0 := by
      refine (sums_zero ?_).1
      intro e he
      obtain ⟨j, _, rfl⟩ := List.mem_map.1 he
      simp [contribW]
    rw [termsOf_append, termsOf_append, hz, gramW_update,
      ← sum_othersN dims i (fun _ => mem_swapIdx i.2) (swapIdx_nodup i.1)]
    simp [termsOf, dimN_val]
    ring
  rw [termsOf_flatMap, termsOf_flatMap, countOf_flatMap, countOf_flatMap]
  rw [Finset.sum_range, Finset.sum_range, Finset.sum_range, Finset.sum_range]
  refine ⟨?_, ?_, ?_, ?_⟩
  · apply Finset.sum_eq_zero
    intro i _
    refine (sums_zero ?_).2.1
    intro e he
    unfold ppUpdW gramW at he
    simp only [List.mem_append, List.mem_map, List.mem_singleton] at he
    rcases he with ⟨j, _, rfl⟩ | ⟨j, _, rfl⟩ | rfl <;> simp [contribW]
  · rw [Finset.mul_sum]
    exact Finset.sum_congr rfl fun i _ => hpair i
  · rw [Finset.sum_congr rfl fun i _ => hcnt i]
    simp
  · rw [Finset.sum_congr rfl fun i _ => hupd i]
    simp

end Model
