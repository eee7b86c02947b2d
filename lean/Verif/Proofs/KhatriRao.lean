import Verif.Model.KhatriRao
import Mathlib.Data.List.FinRange
import Mathlib.Data.Fin.SuccPred
import Mathlib.Logic.Equiv.Basic
import Verif.Proofs.Contract
import Verif.Proofs.Loop

namespace Model

open Finset

variable {K : Type} [CommSemiring K] {N : ℕ}

theorem letterZ_nat (j : ℕ) : letterZ (j : ℤ) = letter j := rfl

theorem mats_eq {W : List (Tensor K)} (j : Fin N) {M : Tensor K} (h : W[j.1]? = some M) :
    (mats W j : ℕ → ℕ → K) = mat M := by
  funext x r; simp [mats, h]

omit [CommSemiring K] in
theorem Shaped.get {dims : Fin N → ℕ} {R : ℕ} {V : Tensor K} {W : List (Tensor K)}
    (h : Shaped dims R V W) (j : Fin N) : ∃ M, W[j.1]? = some M ∧ M.lens = [dims j, R] := by
  have hj : j.1 < W.length := h.count ▸ j.2
  exact ⟨W[j.1], List.getElem?_eq_getElem hj, h.lensW j _ (List.getElem?_eq_getElem hj)⟩

theorem rd_of {α : Type} {a : List α} {j : ℕ} {x : α} (h : a[j]? = some x) : rd a (j : ℤ) = .ok x := by
  simp [rd, h]

/-- Labels of the direct MTTKRP: `'a'+j`, rank label `'k'`; valid up to order 10. -/
def krLab (hN : N ≤ 10) : Labelling N where
  lab j := letter j
  rk := lk
  inj := fun i j h => Fin.ext (letter_inj (by omega) (by omega) h)
  ne := fun j => by
    rw [letter_eq (by omega)]
    unfold lk
    change ¬ ((_ : ℤ) = _)
    have := j.2
    omega

/-- Extents for the uniform case. -/
def krD (s R : ℕ) (l : Label) : ℕ := if l = lk then R else s

theorem krD_lab (hN : N ≤ 10) (s R : ℕ) (j : Fin N) : krD s R ((krLab hN).lab j) = s := by
  unfold krD; exact if_neg ((krLab hN).ne j)

theorem krD_rk (hN : N ≤ 10) (s R : ℕ) : krD s R (krLab hN).rk = R := by
  simp [krD, krLab]

theorem range_letter : (List.range N).map letter = List.ofFn (fun j : Fin N => letter j) := by
  apply List.ext_getElem <;> simp

theorem toFinset_erase_head {a : Fin N} {l : List (Fin N)} (h : (a :: l).Nodup) :
    l.toFinset = (a :: l).toFinset.erase a := by
  ext k
  simp only [List.mem_toFinset, Finset.mem_erase, List.mem_cons]
  simp only [List.nodup_cons] at h
  constructor
  · intro hk; exact ⟨fun e => h.1 (e ▸ hk), Or.inr hk⟩
  · rintro ⟨h1, h2⟩; exact h2.resolve_left h1

/-- `KhatriRao_contract` for an arbitrary contraction order `p`, uniform edge lengths. -/
theorem krContract_ok (h2 : 2 ≤ N) (hN : N ≤ 10) {s R : ℕ} {V : Tensor K} {W : List (Tensor K)}
    (hS : Shaped (fun _ : Fin N => s) R V W) {p : List (Fin N)} (hp : p.Nodup) (hlen : p.length = N)
    {i : Fin N} (hi : p.getLast? = some i) {lensH : List ℕ}
    (hH : lensH.take (N - 1) = List.replicate (N - 1) s) :
    ∃ M, krContract [s, R] V W (p.map fun k : Fin N => ((k : ℕ) : ℤ)) lensH = .ok M ∧ Canon M ∧
      M.lens = [s, R] ∧ ∀ x < s, ∀ r < R,
        mat M x r = Spec.mttkrp (fun _ => s) (arr V N) (mats W) i x r := by
  have hVlen : V.lens.length = N := by rw [hS.lensV]; simp
  have hstar : (krLab hN).rk = lk := rfl
  have hdj := krD_lab hN s R
  have hdr := krD_rk hN s R
  obtain ⟨W0, hW0, hW0l⟩ := hS.get ⟨0, by omega⟩
  have hR : ncol W0 = R := by simp [ncol, hW0l]
  -- output shape and labels of step j
  have hseq : ∀ j, ((p.map fun k : Fin N => ((k : ℕ) : ℤ)).drop j).map letterZ ++ [lk] =
      (p.drop j).map (krLab hN).lab ++ [(krLab hN).rk] := by
    intro j
    rw [← List.map_drop, List.map_map]; rfl
  have hlensV : ∀ j, j < N → ((lensH.take (N - 1)).drop j) ++ [R] =
      ((p.drop (j + 1)).map (krLab hN).lab ++ [(krLab hN).rk]).map (krD s R) := by
    intro j hj
    rw [hH, List.map_append, List.map_map]
    simp only [List.map_cons, List.map_nil, hdr, List.drop_replicate]
    congr 1
    symm
    rw [List.eq_replicate_iff]
    constructor
    · simp [hlen]; omega
    · intro b hb
      obtain ⟨k, _, rfl⟩ := List.mem_map.1 hb
      exact hdj k
  have hrd : ∀ j (hj : j < N), rd (p.map fun k : Fin N => ((k : ℕ) : ℤ)) j =
      .ok (((p[j]'(by omega) : Fin N) : ℕ) : ℤ) := by
    intro j hj
    apply rd_of
    simp [List.getElem?_eq_getElem (show j < p.length by omega)]
  have hdrop : ∀ j (hj : j < N), p.drop j = p[j]'(by omega) :: p.drop (j + 1) :=
    fun j hj => List.drop_eq_getElem_cons (by omega)
  -- the first contraction
  have hfirst : ∃ T, krStep W (p.map fun k : Fin N => ((k : ℕ) : ℤ)) lensH N R V
      ((List.range N).map letter) 0 = .ok T ∧
      IsPartial (krLab hN) (fun _ => s) (krD s R) (arr V N) (mats W) T (p.drop 1) := by
    obtain ⟨Wj, hWj, hWjl⟩ := hS.get (p[0]'(by omega))
    obtain ⟨T, h1, _, h3⟩ := contract_init (krLab hN) (W := mats W) (d := krD s R) hdj hS.lensV
      (j := p[0]'(by omega)) (ms' := p.drop 1)
      (by rw [mats_eq _ hWj]; exact rep_mat _ hWjl (hdj _) hdr)
      (by
        have hnd : (p[0]'(by omega) :: p.drop 1).Nodup := by rw [← hdrop 0 (by omega)]; simpa
        rw [toFinset_erase_head hnd, ← hdrop 0 (by omega)]
        congr 1
        rw [List.drop_zero]
        apply Finset.eq_univ_of_card
        rw [List.toFinset_card_of_nodup hp, hlen, Fintype.card_fin])
    refine ⟨T, ?_, h3⟩
    rw [← h1, krStep]
    simp only [Nat.cast_zero]
    have := hrd 0 (by omega)
    simp only [Nat.cast_zero] at this
    rw [this]
    simp only [bind, Except.bind]
    rw [rd_of hWj]
    simp only [hseq, hlensV 0 (by omega), range_letter]
    rfl
  obtain ⟨T1, hT1, hP1⟩ := hfirst
  -- the loop
  obtain ⟨T2, hT2, hP2⟩ := foldlM_range'_inv (s := 1) (n := N - 2)
    (P := fun j T => IsPartial (krLab hN) (fun _ => s) (krD s R) (arr V N) (mats W) T (p.drop j))
    (f := fun front j => krStep W (p.map fun k : Fin N => ((k : ℕ) : ℤ)) lensH N R front
      (((p.map fun k : Fin N => ((k : ℕ) : ℤ)).drop j).map letterZ ++ [lk]) j) hP1 (by
      intro j T hj1 hj2 hP
      obtain ⟨Wj, hWj, hWjl⟩ := hS.get (p[j]'(by omega))
      have hnd : (p[j]'(by omega) :: p.drop (j + 1)).Nodup := by
        rw [← hdrop j (by omega)]; exact hp.sublist (List.drop_sublist _ _)
      obtain ⟨T', h1, _, h3⟩ := contract_step (krLab hN) (W := mats W) (d := krD s R) hdj
        (j := p[j]'(by omega)) (ms' := p.drop (j + 1)) hP
        (by rw [mats_eq _ hWj]; exact rep_mat _ hWjl (hdj _) hdr)
        (by rw [hdrop j (by omega)]; exact List.mem_cons_self)
        (by rw [toFinset_erase_head hnd, ← hdrop j (by omega)])
      refine ⟨T', ?_, h3⟩
      rw [← h1, krStep, hrd j (by omega)]
      simp only [bind, Except.bind]
      rw [rd_of hWj]
      simp only [hseq, hlensV j (by omega)]
      rfl)
  have hlast : p.drop (1 + (N - 2)) = [i] := by
    have : 1 + (N - 2) = p.length - 1 := by omega
    rw [this]
    have hne : p ≠ [] := by intro h; simp [h] at hlen; omega
    rw [List.drop_length_sub_one hne]
    congr 1
    rw [List.getLast?_eq_getLast_of_ne_nil hne] at hi
    simpa using hi
  rw [hlast] at hP2
  obtain ⟨hl2, hv2⟩ := isPartial_single (krLab hN) hdj hP2
  rw [hdr] at hl2 hv2
  -- the final copy
  let d3 : Label → ℕ := fun l => if l = li then s else R
  have hd3 : [s, R] = [li, lj].map d3 := by simp [d3, li, lj]
  obtain ⟨M, hM1, hM2, hM3⟩ := einsum_rep (K := K) (d := d3) (sc := [li, lj])
    (ops := [(T2, [li, lj])]) (by simp [hl2, hd3])
  refine ⟨M, ?_, hM2, by rw [hM3.1, hd3], ?_⟩
  · unfold krContract
    simp only [hVlen]
    rw [show (0 : ℤ) = ((0 : ℕ) : ℤ) from rfl, rd_of hW0]
    simp only [bind, Except.bind] at hT2 ⊢
    rw [hR, hT1]
    simp only
    rw [hT2]
    simp only
    rw [hd3, hM1]
  · intro x hx r hr
    let env : Label → ℕ := fun l => if l = li then x else r
    have := hM3.2 env (by simp [env, d3, li, lj, hx, hr])
    rw [exprVal, contracted_eq_nil (by simp)] at this
    simp only [List.map_nil, sumOver, List.map_cons, List.prod_cons, List.prod_nil, mul_one] at this
    have e1 : env li = x := by simp [env]
    have e2 : env lj = r := by simp [env, li, lj]
    rw [e1, e2] at this
    rw [mat, this, ← hv2 x hx r hr]
    rfl

/-! ### the index list of `CPSimpleOptimizer::step` -/

theorem decode_letter {j : ℕ} (h : j ≤ 30) : decode (letter j) = (j : ℤ) := by
  rw [decode, letter_eq h]
  change (_ : ℤ) = _
  omega

/-- The contraction order used for mode `i`. -/
def simplePerm (i : Fin N) : List (Fin N) :=
  (List.finRange N).map (Equiv.swap i ⟨N - 1, by have := i.2; omega⟩)

theorem simplePerm_nodup (i : Fin N) : (simplePerm i).Nodup :=
  (List.nodup_finRange N).map (Equiv.injective _)

theorem simplePerm_length (i : Fin N) : (simplePerm i).length = N := by simp [simplePerm]

theorem simplePerm_last (i : Fin N) : (simplePerm i).getLast? = some i := by
  have h := i.2
  rw [List.getLast?_eq_getElem?, simplePerm_length]
  simp only [simplePerm, List.getElem?_map]
  rw [List.getElem?_eq_getElem (by simp; omega)]
  simp

theorem simple_index (hN : N ≤ 31) (i : Fin N) :
    (swapChar ((List.range N).map letter) i (N - 1)).map decode =
      (simplePerm i).map fun k : Fin N => ((k : ℕ) : ℤ) := by
  have hi := i.2
  have hget : ∀ k, k < N → ((List.range N).map letter).getD k 0 = letter k := by
    intro k hk
    simp [List.getD, hk]
  unfold swapChar
  rw [hget i hi, hget (N - 1) (by omega)]
  apply List.ext_getElem
  · simp [simplePerm]
  · intro k h1 h2
    have hk : k < N := by simpa using h1
    simp only [List.getElem_map, List.getElem_set, List.getElem_range, simplePerm,
      List.getElem_finRange]
    by_cases e1 : N - 1 = k
    · subst e1
      rw [if_pos rfl, decode_letter (by omega)]
      simp
    · rw [if_neg e1]
      by_cases e2 : i.1 = k
      · subst e2
        rw [if_pos rfl, decode_letter (by omega)]
        simp
      · rw [if_neg e2, decode_letter (by omega)]
        rw [Equiv.swap_apply_of_ne_of_ne]
        · simp
        · intro h; exact e2 (by rw [← h]; simp)
        · intro h; apply e1; have := congrArg Fin.val h; simp at this; exact this.symm

omit [CommSemiring K] in
theorem simple_lensH {dims : Fin N → ℕ} {R : ℕ} {V : Tensor K} {W : List (Tensor K)}
    (hS : Shaped dims R V W) (p : List (Fin N)) :
    ((p.map fun k : Fin N => ((k : ℕ) : ℤ)).mapM fun z => do
      let M ← rd W z
      pure (nrow M)) = Except.ok (p.map dims) := by
  have : (p.map dims) = (p.map fun k : Fin N => ((k : ℕ) : ℤ)).map
      (fun z => if h : z.toNat < N then dims ⟨z.toNat, h⟩ else 0) := by
    rw [List.map_map]
    apply List.map_congr_left
    intro k _
    simp
  rw [this]
  apply mapM_ok
  intro z hz
  obtain ⟨k, hk, rfl⟩ := List.mem_map.1 hz
  obtain ⟨M, hM, hl⟩ := hS.get k
  rw [rd_of hM]
  simp [bind, Except.bind, pure, Except.pure, nrow, hl]

theorem simpleM_eq (hN : N ≤ 31) {dims : Fin N → ℕ} {R : ℕ} {V : Tensor K} {W : List (Tensor K)}
    (hS : Shaped dims R V W) (i : Fin N) :
    simpleM N V W i = krContract [dims i, R] V W
      ((simplePerm i).map fun k : Fin N => ((k : ℕ) : ℤ))
      (((simplePerm i).take (N - 1)).map dims ++ [R]) := by
  obtain ⟨M, hM, hl⟩ := hS.get i
  unfold simpleM
  simp only [simple_index hN]
  rw [rd_of hM, ← List.map_take]
  rw [simple_lensH hS]
  simp [bind, Except.bind, nrow, ncol, hl]

theorem simpleM_ok (h2 : 2 ≤ N) (hN : N ≤ 10) {s R : ℕ} {V : Tensor K} {W : List (Tensor K)}
    (hS : Shaped (fun _ : Fin N => s) R V W) (i : Fin N) :
    ∃ M, simpleM N V W i = .ok M ∧ Canon M ∧
      M.lens = [s, R] ∧ ∀ x < s, ∀ r < R,
        mat M x r = Spec.mttkrp (fun _ => s) (arr V N) (mats W) i x r := by
  rw [simpleM_eq (by omega) hS]
  apply krContract_ok h2 hN hS (simplePerm_nodup i) (simplePerm_length i) (simplePerm_last i)
  rw [List.take_append_of_le_length (by simp [simplePerm]), List.take_of_length_le (by simp)]
  rw [List.eq_replicate_iff]
  constructor
  · simp [simplePerm]
  · simp

/-! ### unequal edge lengths -/

theorem exists_adjacent_ne {α : Type} {β : Type} [DecidableEq β] (f : α → β) :
    ∀ (l : List α), (∃ a ∈ l, ∃ b ∈ l, f a ≠ f b) →
      ∃ m, ∃ (h : m + 1 < l.length), f l[m] ≠ f l[m + 1]
  | [], h => by simp at h
  | [a], h => by simp at h
  | a :: b :: t, h => by
    by_cases hab : f a = f b
    · obtain ⟨m, hm, hne⟩ := exists_adjacent_ne f (b :: t) (by
        obtain ⟨x, hx, y, hy, hxy⟩ := h
        simp only [List.mem_cons] at hx hy
        have key : ∀ z, (z = a ∨ z = b ∨ z ∈ t) → ∃ z' ∈ b :: t, f z' = f z := by
          rintro z (rfl | rfl | hz)
          · exact ⟨b, by simp, hab.symm⟩
          · exact ⟨z, by simp, rfl⟩
          · exact ⟨z, by simp [hz], rfl⟩
        obtain ⟨x', hx', ex⟩ := key x hx
        obtain ⟨y', hy', ey⟩ := key y hy
        exact ⟨x', hx', y', hy', by rw [ex, ey]; exact hxy⟩)
      exact ⟨m + 1, by simpa using hm, by simpa using hne⟩
    · exact ⟨0, by simp, by simpa using hab⟩

theorem krContract_abort (h2 : 2 ≤ N) (hN : N ≤ 31) {dims : Fin N → ℕ} {R : ℕ} {V : Tensor K}
    {W : List (Tensor K)} (hS : Shaped dims R V W) {p : List (Fin N)} (hlen : p.length = N)
    (Mlens : List ℕ) (tl : List ℕ)
    (hne : ∃ a ∈ p, ∃ b ∈ p, dims a ≠ dims b) :
    krContract Mlens V W (p.map fun k : Fin N => ((k : ℕ) : ℤ)) ((p.take (N - 1)).map dims ++ tl) =
      .error .abort := by
  have hVlen : V.lens.length = N := by rw [hS.lensV]; simp
  obtain ⟨W0, hW0, hW0l⟩ := hS.get ⟨0, by omega⟩
  obtain ⟨m, hm, hd⟩ := exists_adjacent_ne dims p hne
  obtain ⟨Wj, hWj, hWjl⟩ := hS.get (p[0]'(by omega))
  unfold krContract
  simp only [hVlen]
  rw [show (0 : ℤ) = ((0 : ℕ) : ℤ) from rfl, rd_of hW0]
  simp only [bind, Except.bind]
  have : krStep W (p.map fun k : Fin N => ((k : ℕ) : ℤ)) ((p.take (N - 1)).map dims ++ tl) N
      (ncol W0) V ((List.range N).map letter) 0 = .error .abort := by
    unfold krStep
    rw [rd_of (x := ((p[0]'(by omega) : Fin N) : ℤ))
      (by simp [List.getElem?_eq_getElem (show 0 < p.length by omega)])]
    simp only [bind, Except.bind]
    rw [rd_of hWj]
    simp only
    rw [List.take_append_of_le_length (by simp [hlen]), List.take_of_length_le (by simp)]
    rw [List.drop_zero]
    have hzip : (letter (p[m + 1] : Fin N), dims (p[m])) ∈
        (((p.map fun k : Fin N => ((k : ℕ) : ℤ)).drop 1).map letterZ ++ [lk]).zip
          ((p.take (N - 1)).map dims ++ [ncol W0]) := by
      rw [List.mem_iff_getElem]
      refine ⟨m, by simp [hlen]; omega, ?_⟩
      simp only [List.getElem_zip]
      rw [List.getElem_append_left (by simp; omega), List.getElem_append_left (by simp; omega)]
      simp [letterZ_nat]
    refine einsum_abort (l := letter (p[m + 1] : Fin N)) (m := dims (p[m])) (n := dims (p[m + 1]))
      ?_ ?_ hd (List.mem_append_left _ hzip) (List.mem_append_right _ ?_)
    · simp [hlen]
    · simp [hVlen, hWjl]
    · simp only [List.flatMap_cons, opTable, List.mem_append]
      left
      rw [hS.lensV, range_letter, List.mem_iff_getElem]
      refine ⟨(p[m + 1] : Fin N).1, by simp, ?_⟩
      simp [List.getElem_zip]
  rw [this]

theorem simpleM_abort (hN : N ≤ 31) {dims : Fin N → ℕ} {R : ℕ} {V : Tensor K}
    {W : List (Tensor K)} (hS : Shaped dims R V W) (i : Fin N) (hne : ∃ a b, dims a ≠ dims b) :
    simpleM N V W i = .error .abort := by
  obtain ⟨a, b, hab⟩ := hne
  have h2 : 2 ≤ N := by
    by_contra h
    have : a = b := Fin.ext (by have := a.2; have := b.2; omega)
    exact hab (by rw [this])
  rw [simpleM_eq hN hS]
  have hmem : ∀ a, a ∈ simplePerm i := by
    intro a
    simp only [simplePerm, List.mem_map]
    exact ⟨Equiv.swap i _ a, List.mem_finRange _, Equiv.swap_apply_self _ _ _⟩
  exact krContract_abort h2 hN hS (simplePerm_length i) _ _ ⟨a, hmem a, b, hmem b, hab⟩

/-- At order ≥ 11 the rank label `'k'` is also the label of mode 10: unless the rank equals the
edge length, CTF aborts. -/
theorem simpleM_collision (h11 : 11 ≤ N) (hN : N ≤ 31) {s R : ℕ} {V : Tensor K}
    {W : List (Tensor K)} (hS : Shaped (fun _ : Fin N => s) R V W) (i : Fin N) (hRs : R ≠ s) :
    simpleM N V W i = .error .abort := by
  rw [simpleM_eq hN hS]
  have hVlen : V.lens.length = N := by rw [hS.lensV]; simp
  obtain ⟨W0, hW0, hW0l⟩ := hS.get ⟨0, by omega⟩
  have hpl := simplePerm_length i
  generalize simplePerm i = p at hpl ⊢
  obtain ⟨Wj, hWj, hWjl⟩ := hS.get (p[0]'(by omega))
  unfold krContract
  simp only [hVlen]
  rw [show (0 : ℤ) = ((0 : ℕ) : ℤ) from rfl, rd_of hW0]
  simp only [bind, Except.bind]
  have : krStep W (p.map fun k : Fin N => ((k : ℕ) : ℤ))
      ((p.take (N - 1)).map (fun _ => s) ++ [R]) N
      (ncol W0) V ((List.range N).map letter) 0 = .error .abort := by
    unfold krStep
    rw [rd_of (x := ((p[0]'(by omega) : Fin N) : ℤ))
      (by simp [List.getElem?_eq_getElem (show 0 < p.length by omega)])]
    simp only [bind, Except.bind]
    rw [rd_of hWj]
    simp only
    rw [List.take_append_of_le_length (by simp [hpl]), List.take_of_length_le (by simp)]
    rw [List.drop_zero]
    have hk : lk = letter 10 := by decide
    refine einsum_abort (l := lk) (m := R) (n := s)
      ?_ ?_ hRs (List.mem_append_right _ ?_) (List.mem_append_right _ ?_)
    · simp [hpl]
    · simp [hVlen, hWjl]
    · simp [opTable, hWjl]
    · simp only [List.flatMap_cons, opTable, List.mem_append]
      left
      rw [hS.lensV, range_letter, List.mem_iff_getElem]
      refine ⟨10, by simp; omega, ?_⟩
      simp [List.getElem_zip, hk]
  rw [this]

end Model
