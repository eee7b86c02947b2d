import Verif.Proofs.PP
import Verif.Proofs.PPSpec
import Verif.Proofs.Solve
import Verif.Proofs.LegacySweep

/-! One update of a PP phase. -/

namespace Model

open Finset

variable {K : Type} {N : ℕ}

/-- Labels of `M["jk"] += T["ijk"] * dW["ik"]`: mode `a` is `'i'`, mode `b` is `'j'`. -/
def pairLab (a b : Fin N) (hab : a ≠ b) : Labelling N where
  lab m := if m = a then li else if m = b then lj else (1000 + (m.1 : ℤ) : ℤ)
  rk := lk
  inj := by
    intro x y h
    simp only [li, lj] at h
    change (_ : ℤ) = _ at h
    split_ifs at h with h1 h2 h3 h4 h5 h6 h7 h8
    all_goals first
      | (subst_vars; rfl)
      | (exfalso; revert h; norm_num; done)
      | (exfalso; omega)
      | (apply Fin.ext; omega)
  ne := by
    intro m
    split_ifs
    · decide
    · decide
    · change ¬ ((_ : ℤ) = _); simp only [lk]; omega


@[simp] theorem pairLab_rk (a b : Fin N) (hab : a ≠ b) : (pairLab a b hab).rk = lk := rfl

variable [CommRing K]

/-- `M += T * dW[j]` adds the MTTKRP with the factor of mode `j` replaced by its displacement. -/
theorem ppAccum_ok {dims : Fin N → ℕ} {R : ℕ} {V : (Fin N → ℕ) → K} {W : Fin N → ℕ → ℕ → K} (L : Labelling N)
    {i j : Fin N} (hij : i ≠ j) {T dWj M : Tensor K} {ms : List (Fin N)} (hT : Valid dims R V W T ms)
    (hms : ms = [i, j] ∨ ms = [j, i]) (hl : dWj.lens = [dims j, R]) (hM : M.lens = [dims i, R]) :
    ∃ M', accum M [L.lab i, L.rk] [(T, ms.map L.lab ++ [L.rk]), (dWj, [L.lab j, L.rk])] = .ok M' ∧ Canon M' ∧
      M'.lens = [dims i, R] ∧ ∀ x < dims i, ∀ r < R,
        mat M' x r = mat M x r + Spec.mttkrp dims V (Function.update W j (mat dWj)) i x r := by
  have hT' : Valid dims R V (Function.update W j (mat dWj)) T ms := hT.congr (by
    intro k hk
    rw [Function.update_of_ne]
    rintro rfl
    rcases hms with rfl | rfl <;> simp at hk)
  obtain ⟨D, h1, h2, h3⟩ := contract_valid L hT' hl (by simp) (j := j) (ms' := [i])
    (by rcases hms with rfl | rfl <;> simp) (by
      ext m
      rcases hms with rfl | rfl <;> simp <;> grind)
  obtain ⟨g1, g2⟩ := valid_single h3
  obtain ⟨M', m1, m2, m3, m4⟩ := zipT_ok (· + ·) (A := M) (B := D) (by rw [hM, g1])
  rw [hM] at m3 m4
  refine ⟨M', ?_, m2, m3, ?_⟩
  · unfold accum
    simp only [bind, Except.bind]
    rw [hM]
    have : einsum [dims i, R] [L.lab i, L.rk] [(T, ms.map L.lab ++ [L.rk]), (dWj, [L.lab j, L.rk])] = .ok D := h1
    rw [this]
    exact m1
  · intro x hx r hr
    rw [← g2 x hx r hr]
    exact m4 _ (fits_two.2 ⟨hx, hr⟩)

/-- The operators are those of `V` and `Winit`. -/
def PPOps (dims : Fin N → ℕ) (R : ℕ) (V : Tensor K) (Winit : List (Tensor K)) (ops : Cache K) : Prop :=
  (∀ i : Fin N, ∃ T, ops.lookup (exceptOne (allLetters N) i.1) = some T ∧ PPGood dims R V Winit (ex1 i) T) ∧
    ∀ i j : Fin N, i < j → ∃ T, ops.lookup (exceptTwo (allLetters N) i.1 j.1) = some T ∧ PPGood dims R V Winit (ex2 i j) T

theorem ppContrib_ok {dims : Fin N → ℕ} {R : ℕ} {V : Tensor K} {Winit dW : List (Tensor K)} {ops : Cache K}
    (ho : PPOps dims R V Winit ops) (hD : Shaped dims R V dW) {i j : Fin N} (hij : i ≠ j) {M : Tensor K}
    (hM : M.lens = [dims i, R]) :
    ∃ M', ppContrib N ops dW i.1 M j.1 = .ok M' ∧ Canon M' ∧ M'.lens = [dims i, R] ∧ ∀ x < dims i, ∀ r < R,
      mat M' x r = mat M x r + Spec.mttkrp dims (arr V N) (Function.update (mats Winit) j (mats dW j)) i x r := by
  obtain ⟨Dj, d1, _, d2, d3⟩ := mats_get hD j
  unfold ppContrib
  simp only [bind, Except.bind]
  rw [d1]
  simp only
  by_cases h : j.1 < i.1
  · rw [if_pos h]
    have hlt : j < i := h
    obtain ⟨T, t1, t2⟩ := ho.2 j i hlt
    rw [t1]
    simp only
    have hv := t2.2
    rw [compl_ex2 hlt] at hv
    rw [d3]
    have hL1 : (pairLab j i hij.symm).lab j = li := by simp [pairLab]
    have hL2 : (pairLab j i hij.symm).lab i = lj := by simp [pairLab, hij]
    have := ppAccum_ok (pairLab j i hij.symm) hij hv (.inr rfl) d2 hM
    simpa only [List.map_cons, List.map_nil, hL1, hL2, pairLab_rk, List.cons_append, List.nil_append] using this
  · rw [if_neg h]
    have hlt : i < j := lt_of_le_of_ne (not_lt.1 h) hij
    obtain ⟨T, t1, t2⟩ := ho.2 i j hlt
    rw [t1]
    simp only
    have hv := t2.2
    rw [compl_ex2 hlt] at hv
    rw [d3]
    have hL1 : (pairLab i j hij).lab i = li := by simp [pairLab]
    have hL2 : (pairLab i j hij).lab j = lj := by simp [pairLab, hij.symm]
    have := ppAccum_ok (pairLab i j hij) hij hv (.inl rfl) d2 hM
    simpa only [List.map_cons, List.map_nil, hL1, hL2, pairLab_rk, List.cons_append, List.nil_append] using this

theorem sum_others (i : Fin N) (g : Fin N → K) :
    ((List.range i.1 ++ List.range' (i.1 + 1) (N - (i.1 + 1))).map
      fun n => if h : n < N then g ⟨n, h⟩ else 0).sum = ∑ j ∈ univ.erase i, g j := by
  have hi := i.2
  have hnd : (List.range i.1 ++ List.range' (i.1 + 1) (N - (i.1 + 1))).Nodup := by
    rw [List.nodup_append]
    refine ⟨List.nodup_range, List.nodup_range', ?_⟩
    intro a ha b hb
    rw [List.mem_range] at ha
    rw [List.mem_range'_1] at hb
    omega
  rw [← List.sum_toFinset _ hnd]
  symm
  refine Finset.sum_nbij (fun j => j.1) ?_ ?_ ?_ ?_
  · intro j hj
    have hne : j.1 ≠ i.1 := fun e => Finset.ne_of_mem_erase hj (Fin.ext e)
    simp only [List.mem_toFinset, List.mem_append, List.mem_range, List.mem_range'_1]
    omega
  · intro a _ b _ h
    exact Fin.ext h
  · intro n hn
    simp only [List.coe_toFinset, Set.mem_setOf_eq, List.mem_append, List.mem_range, List.mem_range'_1] at hn
    exact ⟨⟨n, by omega⟩, by simp only [coe_erase, coe_univ, Set.mem_diff, Set.mem_univ, Set.mem_singleton_iff, true_and]; intro e; have := congrArg Fin.val e; simp at this; omega, rfl⟩
  · intro j _
    rw [dif_pos j.2]

/-- The right-hand side of mode `i` in a PP phase. -/
theorem ppM_ok {dims : Fin N → ℕ} {R : ℕ} {V : Tensor K} {Winit dW : List (Tensor K)} {ops : Cache K}
    (ho : PPOps dims R V Winit ops) (hD : Shaped dims R V dW) (i : Fin N) :
    ∃ M, ppM N ops dW i.1 = .ok M ∧ Canon M ∧ M.lens = [dims i, R] ∧ ∀ x < dims i, ∀ r < R,
      mat M x r = Spec.ppMttkrp dims (arr V N) (mats Winit) (mats dW) i x r := by
  obtain ⟨M0, h1, h2⟩ := ho.1 i
  have hv := h2.2
  rw [compl_ex1] at hv
  obtain ⟨g1, g2⟩ := valid_single hv
  obtain ⟨M, m1, m2, m3, m4⟩ := foldlM_inv (f := ppContrib N ops dW i.1)
    (P := fun done (M : Tensor K) => Canon M ∧ M.lens = [dims i, R] ∧ ∀ x < dims i, ∀ r < R,
      mat M x r = Spec.mttkrp dims (arr V N) (mats Winit) i x r + (done.map fun n => if h : n < N then
        Spec.mttkrp dims (arr V N) (Function.update (mats Winit) ⟨n, h⟩ (mats dW ⟨n, h⟩)) i x r else 0).sum)
    (List.range i.1 ++ List.range' (i.1 + 1) (N - (i.1 + 1))) [] M0
    ⟨h2.1, g1, fun x hx r hr => by rw [g2 x hx r hr]; simp⟩ (by
      rintro d n M hn - ⟨a1, a2, a3⟩
      have hi := i.2
      rw [List.mem_append, List.mem_range, List.mem_range'_1] at hn
      have hnN : n < N := by omega
      obtain ⟨M', b1, b2, b3, b4⟩ := ppContrib_ok ho hD (i := i) (j := ⟨n, hnN⟩)
        (fun e => by have := congrArg Fin.val e; simp at this; omega) a2
      refine ⟨M', b1, b2, b3, fun x hx r hr => ?_⟩
      rw [b4 x hx r hr, a3 x hx r hr, List.map_append, List.sum_append]
      simp [hnN, add_assoc])
  refine ⟨M, ?_, m2, m3, fun x hx r hr => ?_⟩
  · unfold ppM
    simp only [h1]
    exact m1
  · rw [m4 x hx r hr, List.nil_append,
      sum_others i fun j => Spec.mttkrp dims (arr V N) (Function.update (mats Winit) j (mats dW j)) i x r]
    rfl

/-- Everything has the shape of the problem. -/
structure PPShaped (dims : Fin N → ℕ) (R : ℕ) (V : Tensor K) (s : PPState K) : Prop where
  W : Shaped dims R V s.W
  G : s.G.length = N
  dW : Shaped dims R V s.dW

end Model
