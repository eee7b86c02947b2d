import Verif.Proofs.RoundUpd

/-! Rounding errors of the steps of the CP optimizers. -/

namespace Model

open Finset

variable {N : ℕ}

/-- An approximate MTTKRP gives a rounded ALS update. -/
theorem near_update {B : ℕ} {u : ℝ} {P : Arith} (hP : RoundOk B u P) (hu : 0 ≤ u) (hB : 1 ≤ B) (h2 : 2 ≤ N) {dims : Fin N → ℕ}
    {R : ℕ} (hd : ∀ j, dims j ≤ B) (hR : R ≤ B) {V : Tensor ℝ} {f : Fac ℝ} (hS : Shaped dims R V f.W) (hG : f.G.length = N) (lam : ℝ)
    (solve : Spec.Solver ℝ) (i : Fin N) {index : List ℕ} (hmem : ∀ m, m ∈ index ↔ m < N ∧ m ≠ i.1)
    (hnd : index.Nodup) {M : Tensor ℝ} {cM : ℝ} (hMc : cM ≤ (1 + u) ^ (N + 1))
    (hM : Near cM dims R (arr V N) (mats f.W) M [i]) :
    ∃ f', (do
        let S ← gramSR P index R lam f.W
        modeTailR P solve f i M S : Except Fault (Fac ℝ)) = .ok f' ∧ Shaped dims R V f'.W ∧ f'.G.length = N ∧
      Spec.RoundedUpdate dims R lam solve (arr V N) (cM - 1) ((1 + u) ^ N - 1) ((1 + u) ^ (N + 2) - 1) i (absF N f) (absF N f') := by
  obtain ⟨hl, hv⟩ := near_single hM
  obtain ⟨E, A, k1, k2, h1, h2', h3⟩ := hM
  obtain ⟨f', a1, a2, a3, S, g, a4, a5, a6, a7⟩ := updateModeR_ok hP hu hB h2 hd hR hS hG lam solve i hmem hnd hMc hl h3 k1 k2
  refine ⟨f', a1, a2, a3, mat M, S, g, fun x hx r hr => (hv x hx r hr).2, a4, ?_, a6, a7⟩
  intro x hx r hr
  have := a5 x hx r hr
  rw [(valid_single h1).2 x hx r hr, (valid_single h2').2 x hx r hr] at this
  unfold Spec.alsGrad
  rw [show Spec.clip (dims i) R (fun x r => -Spec.mttkrp dims (arr V N) (absF N f).W i x r + ∑ k ∈ range R, (absF N f).W i x k *
    Spec.normalMat dims R lam (absF N f).W i k r) x r = -Spec.mttkrp dims (arr V N) (absF N f).W i x r + ∑ k ∈ range R, (absF N f).W i x k *
    Spec.normalMat dims R lam (absF N f).W i k r from if_pos ⟨hx, hr⟩]
  exact this

theorem roundedUpdate_other {dims : Fin N → ℕ} {R : ℕ} {lam : ℝ} {solve : Spec.Solver ℝ} {V : (Fin N → ℕ) → ℝ} {a b c : ℝ} {i : Fin N}
    {st st' : Spec.AlsState N ℝ} (h : Spec.RoundedUpdate dims R lam solve V a b c i st st') {m : Fin N} (hm : m ≠ i) : st'.W m = st.W m := by
  obtain ⟨M, S, g, _, _, _, h4, _⟩ := h
  rw [h4, Function.update_of_ne hm]

theorem RoundedRun.append {dims : Fin N → ℕ} {R : ℕ} {lam : ℝ} {solve : Spec.Solver ℝ} {V : (Fin N → ℕ) → ℝ} {a b c : ℝ}
    {l l' : List (Fin N)} {st st' st'' : Spec.AlsState N ℝ} (h : Spec.RoundedRun dims R lam solve V a b c l st st')
    (h' : Spec.RoundedRun dims R lam solve V a b c l' st' st'') : Spec.RoundedRun dims R lam solve V a b c (l ++ l') st st'' := by
  induction h with
  | nil => exact h'
  | cons h1 _ ih => exact .cons h1 (ih h')

theorem RoundedRun.snoc {dims : Fin N → ℕ} {R : ℕ} {lam : ℝ} {solve : Spec.Solver ℝ} {V : (Fin N → ℕ) → ℝ} {a b c : ℝ}
    {l : List (Fin N)} {i : Fin N} {st st' st'' : Spec.AlsState N ℝ} (h : Spec.RoundedRun dims R lam solve V a b c l st st')
    (h' : Spec.RoundedUpdate dims R lam solve V a b c i st' st'') : Spec.RoundedRun dims R lam solve V a b c (l ++ [i]) st st'' :=
  RoundedRun.append h (.cons h' (.nil _))

theorem treeLoopR_ok {B : ℕ} {u : ℝ} {P : Arith} (hP : RoundOk B u P) (hu : 0 ≤ u) (hB : 1 ≤ B) (h3 : 3 ≤ N) (hN : N ≤ 31)
    {dims : Fin N → ℕ} {R : ℕ} (hd : ∀ j, dims j ≤ B) (hRB : R ≤ B) {V : Tensor ℝ}
    {f : Fac ℝ} (hS : Shaped dims R V f.W) (hG : f.G.length = N) (left : Fin N) {tree : Tree}
    (ht : GoodTree (N - 1) tree) (lam : ℝ) (solve : Spec.Solver ℝ) {s c : ℕ} (hsc : s + c ≤ N - 1)
    {T : Tensor ℝ}
    (hTv : Near (1 + u) dims R (arr V N) (mats f.W) T (nodeModes left (N - 2) (N - 2))) :
    ∃ f' cache', (List.range' s c).foldlM (treeUpdateR P N R lam solve tree V (indexesOf N left.1))
        (f, [(vec2str (node (N - 2) (N - 2)), T)]) = .ok (f', cache') ∧
      Shaped dims R V f'.W ∧ f'.G.length = N ∧
      Spec.RoundedRun dims R lam solve (arr V N) ((1 + u) ^ (N - 1) - 1) ((1 + u) ^ N - 1) ((1 + u) ^ (N + 2) - 1)
        ((List.range' s c).map (modeAt left)) (absF N f) (absF N f') := by
  obtain ⟨f', cache', h1, h2, h4, h5⟩ := treeLoopR_gen hP hu hB h3 hN hd hRB (fun f : Fac ℝ => f.W)
    (fun f _ m M => updateModeR P N R lam solve f m M)
    (fun i g => g.G.length = N ∧ Spec.RoundedRun dims R lam solve (arr V N) ((1 + u) ^ (N - 1) - 1) ((1 + u) ^ N - 1)
      ((1 + u) ^ (N + 2) - 1) ((List.range' s (i - s)).map (modeAt left)) (absF N f) (absF N g)) left ht hsc hS
    ⟨hG, by simpa using Spec.RoundedRun.nil _⟩ hTv (by
      rintro i g M hsi hic gS ⟨gG, gA⟩ hM
      obtain ⟨f', q1, q2, q3, q4⟩ := near_update hP hu hB (by omega) hd hRB gS gG lam solve (modeAt left i)
        (fun _ => mem_othersOf (modeAt left i).2) (othersOf_nodup _)
        (pow_le_pow_right₀ (by linarith) (show N - 1 ≤ N + 1 by omega)) hM
      refine ⟨f', q1, q2, ⟨q3, ?_⟩, fun m hne => roundedUpdate_other q4 hne⟩
      rw [show i + 1 - s = (i - s) + 1 by omega, List.range'_concat, List.map_append]
      have := RoundedRun.snoc gA q4
      simpa [show s + (i - s) = i by omega] using this)
  refine ⟨f', cache', h1, h2, h4, ?_⟩
  rwa [show s + c - s = c by omega] at h5

theorem dtStepR_ok {B : ℕ} {u : ℝ} {P : Arith} (hP : RoundOk B u P) (hu : 0 ≤ u) (hB : 1 ≤ B) (h3 : 3 ≤ N) (hN : N ≤ 31)
    {dims : Fin N → ℕ} {R : ℕ} (hd : ∀ j, dims j ≤ B) (hRB : R ≤ B) {V : Tensor ℝ}
    {o : DTState} {f : Fac ℝ} (ho : DTGood o N)
    (hS : Shaped dims R V f.W) (hG : f.G.length = N) (lam : ℝ) (solve : Spec.Solver ℝ) :
    ∃ f', dtStepR P N R lam solve V (o, f) = .ok ({ o with first := !o.first }, f') ∧
      Shaped dims R V f'.W ∧ f'.G.length = N ∧
      Spec.RoundedRun dims R lam solve (arr V N) ((1 + u) ^ (N - 1) - 1) ((1 + u) ^ N - 1) ((1 + u) ^ (N + 2) - 1)
        ((dtPositions (N - 1) o.special o.first).map (modeAt ⟨o.left, ho.left_lt⟩)) (absF N f) (absF N f') := by
  have hidx : (if o.first then o.indexes1 else o.indexes2) = indexesOf N o.left := by
    unfold DTState.left
    split_ifs
    · exact ho.i1
    · exact ho.i2
  obtain ⟨T, hT, hTv⟩ := topTR_ok hP hu hB (by omega) hN hd hRB hS ⟨o.left, ho.left_lt⟩
  obtain ⟨s, c, hpos, hsc⟩ := dtPositions_range' ho.sp o.first
  obtain ⟨f', cache', h1, h2, h4, h5⟩ := treeLoopR_ok hP hu hB h3 hN hd hRB hS hG ⟨o.left, ho.left_lt⟩ ho.tree lam solve hsc hTv
  refine ⟨f', ?_, h2, h4, by rw [hpos]; exact h5⟩
  unfold dtStepR
  simp only [hidx]
  rw [show (if o.first = true then o.left1 else o.left2) = o.left from rfl]
  rw [indexesOf_length ⟨o.left, ho.left_lt⟩, hpos]
  simp only [bind, Except.bind]
  simp only at hT
  rw [hT]
  simp only
  rw [h1]
  rfl

theorem msdtStepR_ok {B : ℕ} {u : ℝ} {P : Arith} (hP : RoundOk B u P) (hu : 0 ≤ u) (hB : 1 ≤ B) (h3 : 3 ≤ N) (hN : N ≤ 31)
    {dims : Fin N → ℕ} {R : ℕ} (hd : ∀ j, dims j ≤ B) (hRB : R ≤ B) {V : Tensor ℝ}
    {o : MSDTState} {f : Fac ℝ} (ho : GoodTree (N - 1) o.tree)
    (hS : Shaped dims R V f.W) (hG : f.G.length = N) (lam : ℝ) (solve : Spec.Solver ℝ) :
    ∃ o' f', msdtStepR P N R lam solve V (o, f) = .ok (o', f') ∧
      o'.left = (o.left + N - 1) % N ∧ o'.tree = o.tree ∧
      Shaped dims R V f'.W ∧ f'.G.length = N ∧
      Spec.RoundedRun dims R lam solve (arr V N) ((1 + u) ^ (N - 1) - 1) ((1 + u) ^ N - 1) ((1 + u) ^ (N + 2) - 1)
        ((List.range (N - 1)).map (modeAt ⟨(o.left + N - 1) % N, Nat.mod_lt _ (by omega)⟩)) (absF N f) (absF N f') := by
  have hlt : (o.left + N - 1) % N < N := Nat.mod_lt _ (by omega)
  obtain ⟨T, hT, hTv⟩ := topTR_ok hP hu hB (by omega) hN hd hRB hS ⟨(o.left + N - 1) % N, hlt⟩
  obtain ⟨f', cache', h1, h2, h4, h5⟩ := treeLoopR_ok hP hu hB h3 hN hd hRB hS hG ⟨(o.left + N - 1) % N, hlt⟩ ho lam solve
    (s := 0) (c := N - 1) (by omega) hTv
  refine ⟨⟨(o.left + N - 1) % N, indexesOf N ((o.left + N - 1) % N), o.tree⟩, f', ?_, rfl, rfl, h2, h4, ?_⟩
  · unfold msdtStepR
    simp only
    rw [indexesOf_length ⟨(o.left + N - 1) % N, hlt⟩, List.range_eq_range']
    simp only [bind, Except.bind]
    simp only at hT
    rw [hT]
    simp only
    rw [h1]
    rfl
  · rw [List.range_eq_range']; exact h5

/-! ### the direct method -/

theorem krContractR_ok {B : ℕ} {u : ℝ} {P : Arith} (hP : RoundOk B u P) (hu : 0 ≤ u) (hB : 1 ≤ B) (h2 : 2 ≤ N) (hN : N ≤ 10)
    {s R : ℕ} (hd : s ≤ B) (hRB : R ≤ B) {V : Tensor ℝ} {W : List (Tensor ℝ)}
    (hS : Shaped (fun _ : Fin N => s) R V W) {p : List (Fin N)} (hp : p.Nodup) (hlen : p.length = N)
    {i : Fin N} (hi : p.getLast? = some i) {lensH : List ℕ}
    (hH : lensH.take (N - 1) = List.replicate (N - 1) s) :
    ∃ M, krContractR P [s, R] V W (p.map fun k : Fin N => ((k : ℕ) : ℤ)) lensH = .ok M ∧
      Near ((1 + u) ^ N) (fun _ => s) R (arr V N) (mats W) M [i] := by
  have h1u : (1 : ℝ) ≤ 1 + u := by linarith
  have hVlen : V.lens.length = N := by rw [hS.lensV]; simp
  obtain ⟨W0, hW0, hW0l⟩ := hS.get ⟨0, by omega⟩
  have hR : ncol W0 = R := by simp [ncol, hW0l]
  have hseq : ∀ j, ((p.map fun k : Fin N => ((k : ℕ) : ℤ)).drop j).map letterZ ++ [lk] =
      (p.drop j).map (krLab hN).lab ++ [(krLab hN).rk] := by
    intro j
    rw [← List.map_drop, List.map_map]; rfl
  have hlensV : ∀ j, j < N → ((lensH.take (N - 1)).drop j) ++ [R] =
      (p.drop (j + 1)).map (fun _ => s) ++ [R] := by
    intro j hj
    rw [hH]
    congr 1
    symm
    rw [List.drop_replicate, List.eq_replicate_iff]
    constructor
    · simp [hlen]; omega
    · intro b hb
      obtain ⟨k, _, rfl⟩ := List.mem_map.1 hb
      rfl
  have hrd : ∀ j (hj : j < N), rd (p.map fun k : Fin N => ((k : ℕ) : ℤ)) j =
      .ok (((p[j]'(by omega) : Fin N) : ℕ) : ℤ) := by
    intro j hj
    apply rd_of
    simp [List.getElem?_eq_getElem (show j < p.length by omega)]
  have hdrop : ∀ j (hj : j < N), p.drop j = p[j]'(by omega) :: p.drop (j + 1) :=
    fun j hj => List.drop_eq_getElem_cons (by omega)
  have hfirst : ∃ T, krStepR P W (p.map fun k : Fin N => ((k : ℕ) : ℤ)) lensH N R V
      ((List.range N).map letter) 0 = .ok T ∧
      Near ((1 + u) ^ 1) (fun _ => s) R (arr V N) (mats W) T (p.drop 1) := by
    obtain ⟨Wj, hWj, hWjl⟩ := hS.get (p[0]'(by omega))
    obtain ⟨T, h1, h3⟩ := near_contract_init hP hu hB (krLab hN) (fun _ => hd) hRB (W := mats W) hS.lensV
      (j := p[0]'(by omega)) (ms' := p.drop 1) hWjl (mats_eq _ hWj).symm
      (by
        have hnd : (p[0]'(by omega) :: p.drop 1).Nodup := by rw [← hdrop 0 (by omega)]; simpa
        rw [toFinset_erase_head hnd, ← hdrop 0 (by omega)]
        congr 1
        rw [List.drop_zero]
        apply Finset.eq_univ_of_card
        rw [List.toFinset_card_of_nodup hp, hlen, Fintype.card_fin])
    refine ⟨T, ?_, by rw [pow_one]; exact h3⟩
    rw [← h1, krStepR]
    simp only [Nat.cast_zero]
    have := hrd 0 (by omega)
    simp only [Nat.cast_zero] at this
    rw [this]
    simp only [bind, Except.bind]
    rw [rd_of hWj]
    simp only [hseq, hlensV 0 (by omega), range_letter]
    rfl
  obtain ⟨T1, hT1, hP1⟩ := hfirst
  obtain ⟨T2, hT2, hP2⟩ := foldlM_range'_inv (s := 1) (n := N - 2)
    (P := fun j T => Near ((1 + u) ^ j) (fun _ => s) R (arr V N) (mats W) T (p.drop j))
    (f := fun front j => krStepR P W (p.map fun k : Fin N => ((k : ℕ) : ℤ)) lensH N R front
      (((p.map fun k : Fin N => ((k : ℕ) : ℤ)).drop j).map letterZ ++ [lk]) j) hP1 (by
      intro j T hj1 hj2 hPj
      obtain ⟨Wj, hWj, hWjl⟩ := hS.get (p[j]'(by omega))
      have hnd : (p[j]'(by omega) :: p.drop (j + 1)).Nodup := by
        rw [← hdrop j (by omega)]; exact hp.sublist (List.drop_sublist _ _)
      obtain ⟨T', h1, h3⟩ := near_contract hP hu hB (krLab hN) (fun _ => hd) hRB (one_le_pow₀ h1u)
        (j := p[j]'(by omega)) (ms' := p.drop (j + 1)) hPj hWjl (mats_eq _ hWj).symm
        (by rw [hdrop j (by omega)]; exact List.mem_cons_self)
        (by rw [toFinset_erase_head hnd, ← hdrop j (by omega)])
      rw [← pow_succ] at h3
      refine ⟨T', ?_, h3⟩
      rw [← h1, krStepR, hrd j (by omega)]
      simp only [bind, Except.bind]
      rw [rd_of hWj]
      simp only [hseq, hlensV j (by omega)]
      rfl)
  have hlast : p.drop (1 + (N - 2)) = [i] := by
    have : 1 + (N - 2) = p.length - 1 := by omega
    rw [this]
    have hne : p ≠ [] := by intro h; simp [h] at hlen; omega
    rw [List.drop_length_sub_one hne]
    congr 1
    rw [List.getLast?_eq_getLast_of_ne_nil hne] at hi
    simpa using hi
  rw [hlast] at hP2
  obtain ⟨E, A, k1, k2, v1, v2, rel⟩ := hP2
  have hEl : E.lens = [s, R] := by simpa using v1.1
  have hAl : A.lens = [s, R] := by simpa using v2.1
  have hcopy : ∀ (T : Tensor ℝ), Canon T → T.lens = [s, R] → einsum [s, R] [li, lj] [(T, [li, lj])] = .ok T := by
    intro T hTc hTl
    let d3 : Label → ℕ := fun l => if l = li then s else R
    have hd3 : [s, R] = [li, lj].map d3 := by simp [d3, li, lj]
    obtain ⟨M, hM1, hM2, hM3⟩ := einsum_rep (K := ℝ) (d := d3) (sc := [li, lj])
      (ops := [(T, [li, lj])]) (by simp [hTl, hd3])
    rw [← hd3] at hM1
    rw [hM1]
    congr 1
    apply Tensor.ext_canon hM2 hTc (by rw [hM3.1, ← hd3, hTl])
    intro idx hfit
    rw [hM3.1, ← hd3] at hfit
    have hlen := fits_length hfit
    match idx, hlen with
    | [x, r], _ =>
      obtain ⟨hx, hr⟩ := fits_two.1 hfit
      let env : Label → ℕ := fun l => if l = li then x else r
      have := hM3.2 env (by simp [env, d3, li, lj, hx, hr])
      rw [exprVal, contracted_eq_nil (by simp)] at this
      simp only [List.map_nil, sumOver, List.map_cons, List.prod_cons, List.prod_nil, mul_one] at this
      have e1 : env li = x := by simp [env]
      have e2 : env lj = r := by simp [env, li, lj]
      rw [e1, e2] at this
      exact this
  obtain ⟨A', M, b1, b2, b3⟩ := ev_rel hP hu (lens := [s, R]) (sc := [li, lj]) (l := [⟨E, A, T2, [li, lj], (1 + u) ^ (1 + (N - 2))⟩])
    (by simp) (by simp) (by
      intro q hq
      simp only [List.mem_cons, List.not_mem_nil, or_false] at hq
      subst hq
      exact ⟨one_le_pow₀ h1u, rel⟩) (hcopy E k1 hEl) (by
      apply nTerms_le hB li
      · simp [hEl]
      · intro o ho m hm
        simp only [List.map_cons, List.map_nil, List.mem_cons, List.not_mem_nil, or_false] at ho
        subst ho
        simp [hEl] at hm
        omega)
  simp only [List.map_cons, List.map_nil, List.prod_cons, List.prod_nil, mul_one] at b1 b2 b3
  rw [hcopy A k2 hAl] at b1
  rw [← Except.ok.inj b1, ← pow_succ, show 1 + (N - 2) + 1 = N by omega] at b3
  refine ⟨M, ?_, E, A, k1, k2, v1, v2, b3⟩
  unfold krContractR
  simp only [hVlen]
  rw [show (0 : ℤ) = ((0 : ℕ) : ℤ) from rfl, rd_of hW0]
  simp only [bind, Except.bind] at hT2 ⊢
  rw [hR, hT1]
  simp only
  rw [hT2]
  simp only
  rw [b2]

theorem simpleMR_ok {B : ℕ} {u : ℝ} {P : Arith} (hP : RoundOk B u P) (hu : 0 ≤ u) (hB : 1 ≤ B) (h2 : 2 ≤ N) (hN : N ≤ 10)
    {s R : ℕ} (hd : s ≤ B) (hRB : R ≤ B) {V : Tensor ℝ} {W : List (Tensor ℝ)}
    (hS : Shaped (fun _ : Fin N => s) R V W) (i : Fin N) :
    ∃ M, simpleMR P N V W i = .ok M ∧ Near ((1 + u) ^ N) (fun _ => s) R (arr V N) (mats W) M [i] := by
  obtain ⟨Wi, hM, hl⟩ := hS.get i
  have e : simpleMR P N V W i = krContractR P [s, R] V W
      ((simplePerm i).map fun k : Fin N => ((k : ℕ) : ℤ))
      (((simplePerm i).take (N - 1)).map (fun _ => s) ++ [R]) := by
    unfold simpleMR
    simp only [simple_index (show N ≤ 31 by omega)]
    rw [rd_of hM, ← List.map_take]
    rw [simple_lensH hS]
    simp [bind, Except.bind, nrow, ncol, hl]
  rw [e]
  apply krContractR_ok hP hu hB h2 hN hd hRB hS (simplePerm_nodup i) (simplePerm_length i) (simplePerm_last i)
  rw [List.take_append_of_le_length (by simp [simplePerm]), List.take_of_length_le (by simp)]
  rw [List.eq_replicate_iff]
  constructor
  · simp [simplePerm]
  · simp

theorem simpleStepR_ok {B : ℕ} {u : ℝ} {P : Arith} (hP : RoundOk B u P) (hu : 0 ≤ u) (hB : 1 ≤ B) (h2 : 2 ≤ N) (hN : N ≤ 10)
    {s R : ℕ} (hd : s ≤ B) (hRB : R ≤ B) {V : Tensor ℝ} {f : Fac ℝ}
    (hS : Shaped (fun _ : Fin N => s) R V f.W) (hG : f.G.length = N) (lam : ℝ)
    (solve : Spec.Solver ℝ) :
    ∃ f', simpleStepR P N R lam solve V f = .ok f' ∧ Shaped (fun _ : Fin N => s) R V f'.W ∧
      f'.G.length = N ∧
      Spec.RoundedRun (fun _ => s) R lam solve (arr V N) ((1 + u) ^ N - 1) ((1 + u) ^ N - 1) ((1 + u) ^ (N + 2) - 1)
        (List.finRange N) (absF N f) (absF N f') := by
  obtain ⟨f', h1, h2'⟩ := foldlM_inv
    (f := fun (f : Fac ℝ) (i : ℕ) => do
      let M ← simpleMR P N V f.W i
      updateModeR P N R lam solve f i M)
    (P := fun done (g : Fac ℝ) => Shaped (fun _ : Fin N => s) R V g.W ∧ g.G.length = N ∧
      ∀ h : ∀ x ∈ done, x < N,
        Spec.RoundedRun (fun _ => s) R lam solve (arr V N) ((1 + u) ^ N - 1) ((1 + u) ^ N - 1) ((1 + u) ^ (N + 2) - 1)
          (toFins done h) (absF N f) (absF N g))
    (List.range N) [] f ⟨hS, hG, fun _ => .nil _⟩ (by
      rintro d x g hx ⟨t, ht⟩ ⟨g1, g2, g3⟩
      have hxN : x < N := by simpa using hx
      obtain ⟨M, m1, m2⟩ := simpleMR_ok hP hu hB h2 hN hd hRB g1 ⟨x, hxN⟩
      obtain ⟨f', q1, q2, q3, q4⟩ := near_update hP hu hB h2 (fun _ => hd) hRB g1 g2 lam solve ⟨x, hxN⟩
        (fun _ => mem_othersOf hxN) (othersOf_nodup _) (pow_le_pow_right₀ (by linarith) (show N ≤ N + 1 by omega)) m2
      refine ⟨f', ?_, q2, q3, ?_⟩
      · simp only [bind, Except.bind]
        rw [m1]
        exact q1
      · intro h
        have := RoundedRun.snoc (g3 (fun y hy => h y (by simp [hy]))) q4
        simpa [toFins] using this)
  refine ⟨f', h1, h2'.1, h2'.2.1, ?_⟩
  have := h2'.2.2 (by simp)
  rwa [show toFins ([] ++ List.range N) (by simp) = List.finRange N from by
    apply List.ext_getElem
    · simp [toFins]
    · intro k _ _
      simp [toFins]] at this

end Model
