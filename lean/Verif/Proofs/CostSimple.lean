import Verif.Proofs.CostSteps

/-! What a sweep of the plain optimizer records. -/

namespace Model

open Spec (Tag Work termsOf storedOf countOf)

variable {K : Type} [CommRing K] {N : ℕ}

theorem kr_prod (hN : N ≤ 10) (s R : ℕ) {q : List (Fin N)} (hq : q.Nodup) :
    ∏ l ∈ (q.map (krLab hN).lab ++ [(krLab hN).rk]).toFinset, krD s R l = s ^ q.length * R := by
  have hnd : (q.map (krLab hN).lab ++ [(krLab hN).rk]).Nodup := by
    rw [List.nodup_append]
    refine ⟨hq.map (krLab hN).inj, by simp, ?_⟩
    intro a ha b hb e
    obtain ⟨k, _, rfl⟩ := List.mem_map.1 ha
    rw [List.mem_singleton] at hb
    exact (krLab hN).ne k (e.trans hb)
  rw [List.prod_toFinset _ hnd, List.map_append, List.prod_append, List.map_map]
  have : (q.map (krD s R ∘ (krLab hN).lab)) = List.replicate q.length s := by
    rw [List.eq_replicate_iff]
    refine ⟨by simp, fun b hb => ?_⟩
    obtain ⟨k, _, rfl⟩ := List.mem_map.1 hb
    exact krD_lab hN s R k
  rw [this]
  simp only [List.prod_replicate, List.map_cons, List.map_nil, List.prod_cons, List.prod_nil, mul_one]
  rw [krD_rk]

/-- What contraction number `j` of `KhatriRao_contract` records. -/
def krW (t : Tag) (N s R j : ℕ) : Work := ⟨t, s ^ (N - j) * R, s ^ (N - 1 - j) * R⟩

/-- What the MTTKRP of the plain optimizer records for one mode. -/
def simpleMW (N s R : ℕ) : List Work :=
  krW .input N s R 0 :: ((List.range' 1 (N - 2)).map (krW .mttkrp N s R) ++ [⟨.mttkrp, s * R, s * R⟩])

theorem krContractC_runs (h2 : 2 ≤ N) (hN : N ≤ 10) {s R : ℕ} {V : Tensor K} {W : List (Tensor K)}
    (hS : Shaped (fun _ : Fin N => s) R V W) {p : List (Fin N)} (hp : p.Nodup) (hlen : p.length = N) {lensH : List ℕ}
    (hH : lensH.take (N - 1) = List.replicate (N - 1) s) :
    ∃ M, Runs (krContractC [s, R] V W (p.map fun k : Fin N => ((k : ℕ) : ℤ)) lensH) M (simpleMW N s R) ∧ M.lens = [s, R] := by
  have hVlen : V.lens.length = N := by rw [hS.lensV]; simp
  have hdj := krD_lab hN s R
  have hdr := krD_rk hN s R
  obtain ⟨W0, hW0, hW0l⟩ := hS.get ⟨0, by omega⟩
  have hR : ncol W0 = R := by simp [ncol, hW0l]
  have hseq : ∀ j, ((p.map fun k : Fin N => ((k : ℕ) : ℤ)).drop j).map letterZ ++ [lk] =
      (p.drop j).map (krLab hN).lab ++ [(krLab hN).rk] := by
    intro j
    rw [← List.map_drop, List.map_map]; rfl
  have hlensV : ∀ j, j < N → ((lensH.take (N - 1)).drop j) ++ [R] =
      ((p.drop (j + 1)).map (krLab hN).lab ++ [(krLab hN).rk]).map (krD s R) := by
    intro j hj
    rw [hH, List.map_append, List.map_map]
    simp only [List.map_cons, List.map_nil, hdr, List.drop_replicate]
    congr 1
    symm
    rw [List.eq_replicate_iff]
    constructor
    · simp [hlen]; omega
    · intro b hb
      obtain ⟨k, _, rfl⟩ := List.mem_map.1 hb
      exact hdj k
  have hrd : ∀ j (hj : j < N), rd (p.map fun k : Fin N => ((k : ℕ) : ℤ)) j =
      .ok (((p[j]'(by omega) : Fin N) : ℕ) : ℤ) := by
    intro j hj
    apply rd_of
    simp [List.getElem?_eq_getElem (show j < p.length by omega)]
  have hdrop : ∀ j (hj : j < N), p.drop j = p[j]'(by omega) :: p.drop (j + 1) :=
    fun j hj => List.drop_eq_getElem_cons (by omega)
  have hstep : ∀ (t : Tag) (j : ℕ) (hj : j < N) (front : Tensor K) (seq : List Label), front.lens = seq.map (krD s R) →
      (∀ l ∈ seq, l ∈ (p.drop j).map (krLab hN).lab ++ [(krLab hN).rk]) →
      ∃ T, Runs (krStepC t W (p.map fun k : Fin N => ((k : ℕ) : ℤ)) lensH N R front seq j) T [krW t N s R j] ∧
        T.lens = ((p.drop (j + 1)).map (krLab hN).lab ++ [(krLab hN).rk]).map (krD s R) := by
    intro t j hj front seq hfl hsub
    obtain ⟨Wj, hWj, hWjl⟩ := hS.get (p[j]'(by omega))
    obtain ⟨T, hTl, hT⟩ := einsumC_runs (K := K) t (d := krD s R)
      (lensC := ((lensH.take (N - 1)).drop j) ++ [R]) (sc := ((p.map fun k : Fin N => ((k : ℕ) : ℤ)).drop (j + 1)).map letterZ ++ [lk])
      (ops := [(front, seq), (Wj, [(krLab hN).lab (p[j]'(by omega)), (krLab hN).rk])])
      (s := ((p.drop j).map (krLab hN).lab ++ [(krLab hN).rk]).toFinset)
      (by rw [hseq]; exact hlensV j hj)
      (by
        intro o ho
        simp only [List.mem_cons, List.not_mem_nil, or_false] at ho
        rcases ho with rfl | rfl
        · exact hfl
        · simp only [List.map_cons, List.map_nil, hdj, hdr]; exact hWjl)
      (by
        rw [hseq]
        ext l
        simp only [List.flatMap_cons, List.flatMap_nil, List.append_nil, List.mem_toFinset, List.mem_append]
        rw [hdrop j hj, List.map_cons]
        have := hsub l
        rw [hdrop j hj, List.map_cons] at this
        simp only [List.mem_append, List.mem_cons, List.not_mem_nil, or_false] at this ⊢
        tauto)
    have hk := kr_prod hN s R (hp.sublist (List.drop_sublist j p))
    rw [List.length_drop, hlen] at hk
    rw [hk] at hT
    refine ⟨T, ?_, by rw [hTl]; exact hlensV j hj⟩
    have hw : krW t N s R j = ⟨t, s ^ (N - j) * R, (((lensH.take (N - 1)).drop j) ++ [R]).prod⟩ := by
      rw [hH, List.drop_replicate, List.prod_append, List.prod_replicate]
      simp [krW]
    rw [hw]
    unfold krStepC
    exact (Runs.lift (hrd j hj)).bind0 ((Runs.lift (rd_of hWj)).bind0 hT)
  obtain ⟨T1, hT1, hl1⟩ := hstep .input 0 (by omega) V ((List.range N).map letter) (by
      rw [hS.lensV, range_letter, List.map_ofFn]
      congr 1
      funext j
      exact (hdj j).symm) (by
      intro l hl
      obtain ⟨k, hk, rfl⟩ := List.mem_map.1 hl
      rw [List.mem_range] at hk
      rw [List.mem_append]
      left
      have hall : (⟨k, hk⟩ : Fin N) ∈ p := by
        have : p.toFinset = Finset.univ := by
          apply Finset.eq_univ_of_card
          rw [List.toFinset_card_of_nodup hp, hlen, Fintype.card_fin]
        have h := Finset.mem_univ (⟨k, hk⟩ : Fin N)
        rw [← this] at h
        exact List.mem_toFinset.1 h
      exact List.mem_map.2 ⟨_, hall, rfl⟩)
  obtain ⟨T2, hT2, hl2⟩ := Runs.foldlM_range' (s := 1) (n := N - 2) (a := T1)
    (P := fun j (T : Tensor K) => T.lens = ((p.drop j).map (krLab hN).lab ++ [(krLab hN).rk]).map (krD s R))
    (w := fun j => [krW .mttkrp N s R j])
    (f := fun front j => krStepC .mttkrp W (p.map fun k : Fin N => ((k : ℕ) : ℤ)) lensH N R front
      (((p.map fun k : Fin N => ((k : ℕ) : ℤ)).drop j).map letterZ ++ [lk]) j) hl1 (by
      intro j T _ hj hP
      obtain ⟨T', h1, h3⟩ := hstep .mttkrp j (by omega) T
        (((p.map fun k : Fin N => ((k : ℕ) : ℤ)).drop j).map letterZ ++ [lk]) (by rw [hseq]; exact hP) (by
          intro l hl; rwa [hseq] at hl)
      exact ⟨T', h1, h3⟩)
  have hlast : T2.lens = [s, R] := by
    rw [hl2, List.map_append, List.map_map]
    have h1 : 1 + (N - 2) = p.length - 1 := by omega
    rw [h1]
    have hne : p ≠ [] := by intro h; simp [h] at hlen; omega
    rw [List.drop_length_sub_one hne]
    simp only [List.map_cons, List.map_nil, Function.comp, hdj, hdr, List.cons_append, List.nil_append]
  let d3 : Label → ℕ := fun l => if l = li then s else R
  have hd3 : [s, R] = [li, lj].map d3 := by simp [d3, li, lj]
  obtain ⟨M, hMl, hM⟩ := einsumC_runs (K := K) .mttkrp (d := d3) (lensC := [s, R]) (sc := [li, lj])
    (ops := [(T2, [li, lj])]) (s := {li, lj}) hd3 (by simp [hlast, hd3])
    (by simp only [List.flatMap_cons, List.flatMap_nil]; decide)
  have hp3 : ∏ l ∈ ({li, lj} : Finset Label), d3 l = s * R := by
    rw [Finset.prod_insert (by decide), Finset.prod_singleton]
    simp [d3, li, lj]
  rw [hp3] at hM
  refine ⟨M, ?_, hMl⟩
  have hw : simpleMW N s R = [krW .input N s R 0] ++ (((List.range' 1 (N - 2)).flatMap fun j => [krW .mttkrp N s R j]) ++
      [⟨.mttkrp, s * R, [s, R].prod⟩]) := by
    rw [flatMap_single]
    simp [simpleMW]
  rw [hw]
  unfold krContractC
  simp only [hVlen]
  refine (Runs.lift (rd_of (j := 0) hW0)).bind0 ?_
  rw [hR]
  exact hT1.bind (hT2.bind hM)

theorem simpleMC_runs (h2 : 2 ≤ N) (hN : N ≤ 10) {s R : ℕ} {V : Tensor K} {W : List (Tensor K)}
    (hS : Shaped (fun _ : Fin N => s) R V W) (i : Fin N) :
    ∃ M, Runs (simpleMC N V W i) M (simpleMW N s R) ∧ M.lens = [s, R] := by
  obtain ⟨Wi, hWi, hl⟩ := hS.get i
  obtain ⟨M, h1, h3⟩ := krContractC_runs h2 hN hS (simplePerm_nodup i) (simplePerm_length i)
    (lensH := ((simplePerm i).take (N - 1)).map (fun _ => s) ++ [R]) (by
      rw [List.take_append_of_le_length (by simp [simplePerm]), List.take_of_length_le (by simp)]
      rw [List.eq_replicate_iff]
      constructor
      · simp [simplePerm]
      · simp)
  refine ⟨M, ?_, h3⟩
  unfold simpleMC
  simp only [simple_index (by omega : N ≤ 31)]
  refine (Runs.lift (rd_of hWi)).bind0 ?_
  rw [← List.map_take]
  refine (Runs.lift (simple_lensH hS _)).bind0 ?_
  have e1 : nrow Wi = s := by simp [nrow, hl]
  have e2 : ncol Wi = R := by simp [ncol, hl]
  rw [e1, e2]
  exact h1

/-- What a sweep of the plain optimizer records. -/
def simpleW (N s R : ℕ) : List Work :=
  (List.range N).flatMap fun i => simpleMW N s R ++ (if h : i < N then updW (fun _ : Fin N => s) R ⟨i, h⟩ else [])

theorem simpleStepC_runs (h2 : 2 ≤ N) (hN : N ≤ 10) {s R : ℕ} {V : Tensor K} {f : Fac K}
    (hS : Shaped (fun _ : Fin N => s) R V f.W) (lam : K) (solve : Spec.Solver K) :
    ∃ f', Runs (simpleStepC N R lam solve V f) f' (simpleW N s R) ∧ Shaped (fun _ : Fin N => s) R V f'.W := by
  unfold simpleStepC simpleW
  refine Runs.foldlM_list (P := fun f : Fac K => Shaped (fun _ : Fin N => s) R V f.W) (List.range N) f hS ?_
  intro i hi f hS
  rw [List.mem_range] at hi
  obtain ⟨M, h1, hl⟩ := simpleMC_runs h2 hN hS ⟨i, hi⟩
  obtain ⟨f', h3, h4⟩ := updateModeC_runs h2 hS lam solve ⟨i, hi⟩ hl
  refine ⟨f', ?_, h4⟩
  rw [dif_pos hi]
  exact h1.bind h3

theorem simpleMW_sums (h2 : 2 ≤ N) (s R : ℕ) :
    countOf .input (simpleMW N s R) = 1 ∧ termsOf .input (simpleMW N s R) = s ^ N * R ∧
      termsOf .mttkrp (simpleMW N s R) = (∑ j ∈ Finset.range (N - 2), s ^ (N - 1 - j)) * R + s * R ∧
      termsOf .update (simpleMW N s R) = 0 := by
  have hm : ∀ c, termsOf .mttkrp ((List.range' 1 c).map (krW .mttkrp N s R)) = (∑ j ∈ Finset.range c, s ^ (N - 1 - j)) * R ∧
      termsOf .update ((List.range' 1 c).map (krW .mttkrp N s R)) = 0 ∧
      termsOf .input ((List.range' 1 c).map (krW .mttkrp N s R)) = 0 ∧
      countOf .input ((List.range' 1 c).map (krW .mttkrp N s R)) = 0 := by
    intro c
    induction c with
    | zero => simp [termsOf, countOf]
    | succ c ih =>
      obtain ⟨i1, i2, i3, i4⟩ := ih
      rw [List.range'_concat, List.map_append, termsOf_append, termsOf_append, termsOf_append, countOf_append, i1, i2, i3, i4,
        Finset.sum_range_succ]
      refine ⟨?_, ?_, ?_, ?_⟩
      · simp [termsOf, krW, add_mul, Nat.sub_sub]
      · simp [termsOf, krW]
      · simp [termsOf, krW]
      · simp [countOf, krW]
  obtain ⟨m1, m2, m3, m4⟩ := hm (N - 2)
  unfold simpleMW
  rw [show ∀ l, krW .input N s R 0 :: l = [krW .input N s R 0] ++ l from fun _ => rfl]
  simp only [termsOf_append, countOf_append, m1, m2, m3, m4]
  refine ⟨?_, ?_, ?_, ?_⟩
  · simp [countOf, krW]
  · simp [termsOf, krW]
  · simp [termsOf, krW]
  · simp [termsOf, krW]

/-- A plain sweep reads the input tensor once per mode. -/
theorem simpleW_sums (h2 : 2 ≤ N) (s R : ℕ) :
    countOf .input (simpleW N s R) = N ∧ termsOf .input (simpleW N s R) = N * (s ^ N * R) ∧
      termsOf .mttkrp (simpleW N s R) = N * ((∑ j ∈ Finset.range (N - 2), s ^ (N - 1 - j)) * R + s * R) ∧
      termsOf .update (simpleW N s R) = N * (N * s * (R * R)) := by
  obtain ⟨a1, a2, a3, a4⟩ := simpleMW_sums h2 s R
  unfold simpleW
  rw [countOf_flatMap, termsOf_flatMap, termsOf_flatMap, termsOf_flatMap]
  have hz : ∀ i ∈ Finset.range N, ∀ t, t ≠ Tag.update →
      termsOf t (if h : i < N then updW (fun _ : Fin N => s) R ⟨i, h⟩ else []) = 0 ∧
      countOf t (if h : i < N then updW (fun _ : Fin N => s) R ⟨i, h⟩ else []) = 0 := by
    intro i hi t ht
    rw [dif_pos (Finset.mem_range.1 hi)]
    obtain ⟨z1, z2, _⟩ := sums_zero (t := t) (w := updW (fun _ : Fin N => s) R ⟨i, Finset.mem_range.1 hi⟩) (by
      intro e he; rw [updW_tag _ _ _ e he]; exact ht.symm)
    exact ⟨z1, z2⟩
  refine ⟨?_, ?_, ?_, ?_⟩
  · rw [Finset.sum_congr rfl fun i hi => by rw [countOf_append, (hz i hi _ (by decide)).2, a1]]
    simp
  · rw [Finset.sum_congr rfl fun i hi => by rw [termsOf_append, (hz i hi _ (by decide)).1, a2]]
    simp
  · rw [Finset.sum_congr rfl fun i hi => by rw [termsOf_append, (hz i hi _ (by decide)).1, a3]]
    simp
  · rw [Finset.sum_congr rfl fun i hi => by
      rw [termsOf_append, dif_pos (Finset.mem_range.1 hi), updW_update, a4]]
    simp

end Model
