import Verif.Proofs.CostLegacyCp

/-! The work of one sweep of the legacy dimension-tree ALS. -/

namespace Model

open Spec (Tag Work termsOf storedOf countOf)
open Finset

variable {N : ℕ}

/-- The parent of the leaf `i` in the tree over `s..e`. -/
def par (s e i : ℕ) : Iv :=
  if s < e then
    if i ≤ (s + e) / 2 then (if s = (s + e) / 2 then (s, e) else par s ((s + e) / 2) i)
    else (if (s + e) / 2 + 1 = e then (s, e) else par ((s + e) / 2 + 1) e i)
  else (s, e)
termination_by e - s

theorem par_sub {s e i : ℕ} (h : s < e) (h1 : s ≤ i) (h2 : i ≤ e) : ∃ b, Sub s e (i, i) (par s e i) b := by
  induction k : e - s using Nat.strong_induction_on generalizing s e with
  | _ k ih =>
    subst k
    rw [par, if_pos h]
    by_cases hm : i ≤ (s + e) / 2
    · rw [if_pos hm]
      by_cases hs : s = (s + e) / 2
      · rw [if_pos hs]
        have := Sub.left h
        rw [← hs] at this
        obtain rfl : i = s := by omega
        exact ⟨_, this⟩
      · rw [if_neg hs]
        obtain ⟨b, hh⟩ := ih ((s + e) / 2 - s) (by omega) (by omega) h1 hm rfl
        exact ⟨b, .inL h hh⟩
    · rw [if_neg hm]
      by_cases hs : (s + e) / 2 + 1 = e
      · rw [if_pos hs]
        have := Sub.right h
        rw [hs] at this
        obtain rfl : i = e := by omega
        exact ⟨_, this⟩
      · rw [if_neg hs]
        obtain ⟨b, hh⟩ := ih (e - ((s + e) / 2 + 1)) (by omega) (by omega) (by omega) h2 rfl
        exact ⟨b, .inR h hh⟩

/-- The record of the last contraction for mode `i`. -/
def leafW (dims : Fin N → ℕ) (R : ℕ) (i : Fin N) : List Work :=
  [⟨.mttkrp, ivP dims (par 0 (N - 1) i.1) * R, dims i * R⟩]

variable {K : Type} [CommRing K]

/-- A contraction of two modes, from shapes alone. -/
theorem contract2C_runs (tag : Tag) (hN : N ≤ 31) {dims : Fin N → ℕ} {R : ℕ} {T Wj Wk : Tensor K} {ms ms' : List (Fin N)}
    (hT : T.lens = ms.map dims ++ [R])
    (hnd : ms.Nodup) {j k : Fin N} (hj : j ∈ ms) (hk : k ∈ ms) (hsub : ∀ m ∈ ms', m ∈ ms) (hl : Wj.lens = [dims j, R])
    (hl' : Wk.lens = [dims k, R]) :
    ∃ T', Runs (einsumC tag (ms'.map dims ++ [R]) (ms'.map (idLab hN).lab ++ [star])
        [(T, ms.map (idLab hN).lab ++ [star]), (Wj, [letter j.1, star]), (Wk, [letter k.1, star])]) T'
        [⟨tag, (ms.map dims).prod * R, (ms'.map dims).prod * R⟩] ∧ T'.lens = ms'.map dims ++ [R] := by
  have hlab : ∀ j : Fin N, letter j.1 = (idLab hN).lab j := fun _ => rfl
  obtain ⟨T', h1, h2⟩ := einsumC_runs (K := K) tag (d := (idLab hN).d dims R) (lensC := ms'.map dims ++ [R])
    (sc := ms'.map (idLab hN).lab ++ [star])
    (ops := [(T, ms.map (idLab hN).lab ++ [star]), (Wj, [letter j.1, star]), (Wk, [letter k.1, star])])
    (s := (ms.map (idLab hN).lab ++ [(idLab hN).rk]).toFinset) ((idLab hN).map_d dims R _).symm (by
      intro o ho
      simp only [List.mem_cons, List.not_mem_nil, or_false] at ho
      rcases ho with rfl | rfl | rfl
      · simp only
        rw [hT]
        exact ((idLab hN).map_d dims R _).symm
      · simp only [hl, hlab, List.map_cons, List.map_nil, (idLab hN).d_lab]
        rw [show (idLab hN).d dims R star = R from (idLab hN).d_rk dims R]
      · simp only [hl', hlab, List.map_cons, List.map_nil, (idLab hN).d_lab]
        rw [show (idLab hN).d dims R star = R from (idLab hN).d_rk dims R]) (by
      ext l
      have hrk : (idLab hN).rk = star := rfl
      simp only [List.flatMap_cons, List.flatMap_nil, List.append_nil, List.mem_toFinset, List.mem_append, List.mem_cons,
        List.not_mem_nil, or_false, hrk]
      constructor
      · rintro ((h | h) | ((h | h) | ((h | h) | (h | h))))
        · obtain ⟨m, hm, rfl⟩ := List.mem_map.1 h
          exact .inl (List.mem_map.2 ⟨m, hsub m hm, rfl⟩)
        · exact .inr h
        · exact .inl h
        · exact .inr h
        · rw [h, hlab]
          exact .inl (List.mem_map.2 ⟨j, hj, rfl⟩)
        · exact .inr h
        · rw [h, hlab]
          exact .inl (List.mem_map.2 ⟨k, hk, rfl⟩)
        · exact .inr h
      · rintro (h | h)
        · exact .inr (.inl (.inl h))
        · exact .inl (.inr h))
  rw [(idLab hN).prod_d dims R hnd] at h2
  refine ⟨T', ?_, h1⟩
  rw [List.prod_append, List.prod_singleton] at h2
  exact h2

theorem legacyMC_runs (h4 : 4 ≤ N) (h5 : N ≠ 5) (hN : N ≤ 31) {dims : Fin N → ℕ} {R : ℕ} {V : Tensor K}
    {W : List (Tensor K)} (hS : Shaped dims R V W) (i : Fin N) {cache : Cache K}
    (hI : LInv N (CpShape (by omega) dims R) cache) (hD : Done N i.1 cache) :
    ∃ M cache' wl, Runs (legacyMC N (constructDT 0 (N - 1) {}) V W cache i.1) (M, cache') wl ∧
      M.lens = [dims i, R] ∧ LInv N (CpShape (by omega) dims R) cache' ∧ Done N (i.1 + 1) cache' ∧
      ∀ μ, Additive μ → μ wl + cacheW N (cpNodeW dims R) μ cache = cacheW N (cpNodeW dims R) μ cache' + μ (leafW dims R i) := by
  have h0 : 0 < N := by omega
  obtain ⟨p, b, p', b', hn, hpp, hp1, hp2, hp3, hcase⟩ := leaf_cases h4 i
  obtain ⟨bb, hbb⟩ := par_sub (s := 0) (e := N - 1) (i := i.1) (by omega) (by omega) (by omega)
  have hpar : par 0 (N - 1) i.1 = p := (hbb.unique hn).1
  obtain ⟨t1, t2⟩ := mapGet_tree (by omega) hn
  simp only [ivStr, strOf_self] at t1 t2
  obtain ⟨c1, w1, hc1, hI1, hP1, hmono, hμ1⟩ : ∃ c1 w1, Runs (if (cache.lookup (ivStr p)).isNone then
      cpMapDTC N (constructDT 0 (N - 1) {}) V W (N + 1) (ivStr p) cache else pure cache) c1 w1 ∧
      LInv N (CpShape (by omega) dims R) c1 ∧ Pres c1 p ∧ (∀ n', Pres cache n' → Pres c1 n') ∧
      ∀ μ, Additive μ → μ w1 + cacheW N (cpNodeW dims R) μ cache = cacheW N (cpNodeW dims R) μ c1 := by
    by_cases hnone : (cache.lookup (ivStr p)).isNone
    · rw [if_pos hnone]
      obtain ⟨c1, w1, a1, a2, a3, a4, _, a5⟩ := dtNodeC_runs (w := cpNodeW dims R) h4 h5 (by omega)
        (fun _ _ h => cpFromRootC_runs (by omega) hN hS h)
        (fun _ _ _ h hp _ hT => cpFromParentC_runs (by omega) hN hS h hp hT) (N + 1) p p' b' cache hpp hn.shape.2.1 (by omega) hI
      exact ⟨c1, w1, a1, a2, a3, a4, a5⟩
    · rw [if_neg hnone]
      refine ⟨cache, [], Runs.pure _, hI, ?_, fun _ h => h, fun μ hμ => by rw [hμ.nil, Nat.zero_add]⟩
      unfold Pres
      simpa [Option.isSome_iff_ne_none] using hnone
  have hD' : Done N (i.1 + 1) c1 := by
    intro n q d hnq hlt hle
    by_cases hni : n.1 < i.1
    · exact hmono n (hD n q d hnq hlt hni)
    · refine hI1.ancestors (i := i.1) ?_ (n.2 - n.1) n q d (le_refl _) hnq (by omega) (by omega) hlt
      intro p2 b2 h2 _
      rw [(h2.unique hn).1]
      exact hP1
  obtain ⟨Tp, hTp⟩ := Option.isSome_iff_exists.1 hP1
  have hTl : Tp.lens = (ivModes h0 p).map dims ++ [R] := hI1.good p p' b' hpp Tp hTp
  obtain ⟨Wi, hWi, _, hWil, _⟩ := mats_get hS i
  have hnr : [nrow Wi, ncol Wi] = [i].map dims ++ [R] := by simp [nrow, ncol, hWil]
  have hlab : [letter i.1, star] = [i].map (idLab hN).lab ++ [star] := rfl
  have hplen : 2 ≤ p.2 + 1 - p.1 := by
    rcases hcase with ⟨rfl, _⟩ | ⟨_, rfl, _⟩ | ⟨_, rfl, _⟩ <;> simp only <;> omega
  have e0 : rd (ivStr p) 0 = .ok (letter p.1) := rd_strOf (n := p) (j := 0) (by omega)
  have e1 : rd (ivStr p) 1 = .ok (letter (p.1 + 1)) := rd_strOf (n := p) (j := 1) (by omega)
  have hpl := ivModes_lab h0 hN hp3
  have hnd := ivModes_nodup h0 hp3
  have hpm := ivModes_prod h0 dims hp3
  have him : ∀ m ∈ [i], m ∈ ivModes h0 p := by
    intro m hm
    rw [List.mem_singleton] at hm
    subst hm
    exact (mem_ivModes h0 hp3).2 ⟨hp1, hp2⟩
  have hli : ∀ k, k < 31 → (letter k = letter i.1 ↔ k = i.1) := by
    intro k hk
    constructor
    · intro h; exact letter_inj (by omega) (by omega) h
    · rintro rfl; rfl
  have two : ∀ k, k < N → p.2 = p.1 + 1 → p.1 ≤ k → k ≤ p.2 →
      ∃ Wc M, rd W (decode (letter k)) = .ok Wc ∧
        Runs (einsumC .mttkrp [nrow Wi, ncol Wi] [letter i.1, star] [(Tp, [letter p.1, letter (p.1 + 1), star]),
        (Wc, [letter k, star])]) M (leafW dims R i) ∧ M.lens = [dims i, R] := by
    intro k hk hp12 hk1 hk2
    obtain ⟨Wc, hrd, hl, he⟩ := decode_rd hN hS hk
    obtain ⟨M, hM, hMl⟩ := contractC_runs (K := K) .mttkrp hN (ms := ivModes h0 p) (ms' := [i]) (T := Tp) (Wj := Wc)
      (seq := (ivModes h0 p).map (idLab hN).lab ++ [star]) (.inl ⟨rfl, hTl⟩) hnd (j := ⟨k, hk⟩)
      ((mem_ivModes h0 hp3).2 ⟨hk1, hk2⟩) him hl
    refine ⟨Wc, M, hrd, ?_, by simpa using hMl⟩
    rw [hpl, hpm, ivStr, show strOf p.1 p.2 = [letter p.1, letter (p.1 + 1)] by rw [hp12]; exact strOf_pair _] at hM
    rw [hnr, hlab, leafW, hpar]
    simpa using hM
  have wrap : ∀ {β : CM (Tensor K × Cache K)} {M : Tensor K}, M.lens = [dims i, R] → Runs β (M, c1) (w1 ++ leafW dims R i) →
      ∃ M cache' wl, Runs β (M, cache') wl ∧
        M.lens = [dims i, R] ∧ LInv N (CpShape (by omega) dims R) cache' ∧ Done N (i.1 + 1) cache' ∧
        ∀ μ, Additive μ → μ wl + cacheW N (cpNodeW dims R) μ cache = cacheW N (cpNodeW dims R) μ cache' + μ (leafW dims R i) := by
    intro β M hM hr
    refine ⟨M, c1, _, hr, hM, hI1, hD', fun μ hμ => ?_⟩
    rw [hμ.app, ← hμ1 μ hμ]
    omega
  unfold legacyMC
  simp only [t1, t2]
  simp only [ivStr] at hc1 e0 e1 hTp
  rcases hcase with ⟨rfl, rfl⟩ | ⟨hi1, rfl, rfl⟩ | ⟨hi2, rfl, rfl⟩
  · simp only at hp3 hc1 e0 e1 hTp two ⊢
    obtain ⟨Wc, M, hr, hM, hMl⟩ := two (i.1 + 1) hp3 trivial (by omega) (by omega)
    refine wrap hMl (hc1.bind ((Runs.lift hWi).bind0 ((Runs.lift e0).bind0 ((Runs.lift e1).bind0 ?_))))
    simp only [hTp, strOf_length]
    rw [if_pos (by omega), if_pos trivial]
    refine (Runs.lift hr).bind0 ?_
    have := hM.bind (f := fun M => (pure (M, c1) : CM (Tensor K × Cache K))) (Runs.pure (M, c1))
    rwa [List.append_nil] at this
  · simp only at hp3 hc1 e0 e1 hTp two ⊢
    obtain ⟨Wc, M, hr, hM, hMl⟩ := two (i.1 - 1) (by omega) (by omega) (by omega) (by omega)
    refine wrap hMl (hc1.bind ((Runs.lift hWi).bind0 ((Runs.lift e0).bind0 ((Runs.lift e1).bind0 ?_))))
    simp only [hTp, strOf_length]
    rw [if_pos (by omega), if_neg (by rw [hli _ (by omega)]; omega)]
    refine (Runs.lift hr).bind0 ?_
    have := hM.bind (f := fun M => (pure (M, c1) : CM (Tensor K × Cache K))) (Runs.pure (M, c1))
    rwa [List.append_nil] at this
  · simp only at hp3 hc1 e0 e1 hTp ⊢
    have e2 : rd (strOf (i.1 - 2) i.1) 2 = .ok (letter (i.1 - 2 + 2)) := rd_strOf (n := (i.1 - 2, i.1)) (j := 2) (by simp only; omega)
    obtain ⟨W1, hW1, hl1, he1⟩ := decode_rd hN hS (k := i.1 - 2) (by omega)
    obtain ⟨W2, hW2, hl2, he2⟩ := decode_rd hN hS (k := i.1 - 2 + 1) (by omega)
    obtain ⟨M, hM, hMl⟩ := contract2C_runs (K := K) .mttkrp hN (ms := ivModes h0 (i.1 - 2, i.1)) (ms' := [i]) (T := Tp)
      hTl hnd (j := ⟨i.1 - 2, by omega⟩) (k := ⟨i.1 - 2 + 1, by omega⟩)
      ((mem_ivModes h0 hp3).2 (by simp only; omega)) ((mem_ivModes h0 hp3).2 (by simp only; omega)) him hl1 hl2
    refine wrap (M := M) (by simpa using hMl)
      (hc1.bind ((Runs.lift hWi).bind0 ((Runs.lift e0).bind0 ((Runs.lift e1).bind0 ?_))))
    simp only [hTp, strOf_length]
    rw [if_neg (by omega)]
    simp only [if_neg (show ¬ letter (i.1 - 2) = letter i.1 by rw [hli _ (by omega)]; omega)]
    refine (Runs.lift e2).bind0 ((Runs.lift hW1).bind0 ((Runs.lift hW2).bind0 ?_))
    rw [hpl, hpm, ivStr] at hM
    simp only at hM
    rw [show strOf (i.1 - 2) i.1 = [letter (i.1 - 2), letter (i.1 - 2 + 1), letter (i.1 - 2 + 2)] by
      unfold strOf
      rw [show i.1 + 1 - (i.1 - 2) = 3 by omega]
      rfl] at hM
    have hM' : Runs (einsumC .mttkrp [nrow Wi, ncol Wi] [letter i.1, star]
        [(Tp, [letter (i.1 - 2), letter (i.1 - 2 + 1), letter (i.1 - 2 + 2), star]), (W1, [letter (i.1 - 2), star]),
          (W2, [letter (i.1 - 2 + 1), star])]) M (leafW dims R i) := by
      rw [hnr, hlab, leafW, hpar]
      simpa using hM
    have := hM'.bind (f := fun M => (pure (M, c1) : CM (Tensor K × Cache K))) (Runs.pure (M, c1))
    rwa [List.append_nil] at this

/-- What the update of mode `i` records after its MTTKRP. -/
def legacyUpdW (dims : Fin N → ℕ) (R : ℕ) (i : Fin N) : List Work := gramW dims R (swapIdx N i.1) ++ gradW dims R i

/-- The record of mode number `j`, without the nodes of the tree. -/
def modeW (dims : Fin N → ℕ) (R : ℕ) (j : ℕ) : List Work :=
  if h : j < N then leafW dims R ⟨j, h⟩ ++ legacyUpdW dims R ⟨j, h⟩ else []

theorem legacyUpdatesC_runs (h4 : 4 ≤ N) (h5 : N ≠ 5) (hN : N ≤ 31) {dims : Fin N → ℕ} {R : ℕ} {V : Tensor K}
    (lam : K) (solve : Spec.Solver K) {F : List (Tensor K)} (hF : Shaped dims R V F) {f : Fac K}
    (hS : Shaped dims R V f.W) :
    ∃ f' w, Runs (legacyUpdatesC N R lam solve V F f) f' w ∧ Shaped dims R V f'.W ∧
      ∀ μ, Additive μ → μ w = ∑ t ∈ below 0 (N - 1), μ (cpNodeW dims R t) + ∑ j ∈ range N, μ (modeW dims R j) := by
  have h0 : 0 < N := by omega
  obtain ⟨s, w, hs, h1, h2, h3, h6⟩ := Runs.foldlM_ex (s := 0) (n := N) (w0 := [])
    (P := fun j (s : Fac K × Cache K) w => Shaped dims R V s.1.W ∧ LInv N (CpShape h0 dims R) s.2 ∧ Done N j s.2 ∧
      ∀ μ, Additive μ → μ w = cacheW N (cpNodeW dims R) μ s.2 + ∑ j ∈ range j, μ (modeW dims R j))
    (f := legacyUpdateC N R lam solve (constructDT 0 (N - 1) {}) V F) (a := (f, []))
    ⟨hS, LInv.nil _, fun n _ _ _ _ h => by omega, fun μ hμ => by rw [hμ.nil, cacheW_nil]; simp⟩
    (by
      rintro j ⟨g, c⟩ w _ hj ⟨g1, g2, g3, g4⟩
      rw [Nat.zero_add] at hj
      simp only at g1 g2 g3 g4
      obtain ⟨M, c', wl, b1, b2, b3, b4, b5⟩ := legacyMC_runs h4 h5 hN g1 ⟨j, hj⟩ g2 g3
      obtain ⟨S, hS1, hSl⟩ := gramSC_runs g1 lam (index := swapIdx N j) (fun m hm => ((mem_swapIdx hj).1 hm).1)
        (others_ne_nil (by omega) fun m => mem_swapIdx hj)
      obtain ⟨Fi, hFi, _, hFl, _⟩ := mats_get hF ⟨j, hj⟩
      obtain ⟨M', hz, _, hzl, _⟩ := zipT_ok (· + ·) (A := M) (B := Fi) (by rw [b2, hFl])
      rw [b2] at hzl
      obtain ⟨f', d1, d2⟩ := modeTailC_runs g1 solve ⟨j, hj⟩ hzl hSl
      refine ⟨(f', c'), wl ++ (gramW dims R (swapIdx N j) ++ (gradW dims R ⟨j, hj⟩ ++ [])), ?_, d2, b3, b4, fun μ hμ => ?_⟩
      · exact b1.bind (hS1.bind ((Runs.lift hFi).bind0 ((Runs.lift hz).bind0 (d1.bind (Runs.pure _)))))
      · rw [hμ.app, hμ.app, List.append_nil, Finset.sum_range_succ, g4 μ hμ]
        have := b5 μ hμ
        simp only [modeW, dif_pos hj, legacyUpdW]
        rw [hμ.app (leafW dims R ⟨j, hj⟩)]
        omega)
  rw [Nat.zero_add] at h3 h6
  refine ⟨s.1, w, ?_, h1, fun μ hμ => ?_⟩
  · unfold legacyUpdatesC
    simp only
    rw [List.range_eq_range']
    have := hs.bind (f := fun r : Fac K × Cache K => (pure r.1 : CM (Fac K))) (Runs.pure s.1)
    rwa [List.append_nil] at this
  · have := h6 μ hμ
    rw [List.nil_append] at this
    rw [this, cacheW_done _ _ h3]

end Model
