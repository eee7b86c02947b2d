import Verif.Model.RoundTucker
import Verif.Proofs.RoundLegacy
import Verif.Proofs.TuckerSweep
import Verif.Proofs.TuckerPP

/-! Rounding errors of the Tucker computations. -/

namespace Model

open Finset Function

variable {N : ℕ}

/-! ### number of summands, any number of labels -/

theorem nTerms_le_pow {lens : List ℕ} {sc : List Label} {ops : List (Tensor ℝ × List Label)} {b : ℕ} (hb : 1 ≤ b) (L : Finset Label)
    (h1 : ∀ o ∈ ops, ∀ l' ∈ o.2.take o.1.lens.length, l' ∉ sc.take lens.length → l' ∈ L) (h2 : ∀ o ∈ ops, ∀ n ∈ o.1.lens, n ≤ b) :
    nTerms lens sc ops ≤ b ^ L.card := by
  have hext : ∀ l, extent ((cutOps ops).flatMap opTable) l ≤ b := by
    intro l
    apply extent_le
    intro p hp
    obtain ⟨o, ho, hp⟩ := List.mem_flatMap.1 hp
    obtain ⟨q, hq, rfl⟩ := List.mem_map.1 ho
    exact h2 q hq _ (List.of_mem_zip hp).2
  unfold nTerms sumTab
  have hall : ∀ l' ∈ contracted (sc.take lens.length) (cutOps ops), l' ∈ L := by
    intro l' hl'
    obtain ⟨⟨o, ho, h⟩, hn⟩ := mem_contracted.1 hl'
    obtain ⟨q, hq, rfl⟩ := List.mem_map.1 ho
    exact h1 q hq l' h hn
  have hnd := contracted_nodup (sc.take lens.length) (cutOps ops)
  generalize contracted (sc.take lens.length) (cutOps ops) = c at *
  have hc : c.length ≤ L.card := by
    rw [← List.toFinset_card_of_nodup hnd]
    exact Finset.card_le_card fun l hl => hall l (by simpa using hl)
  refine le_trans ?_ (Nat.pow_le_pow_right hb hc)
  rw [List.map_map]
  clear hnd hall hc
  induction c with
  | nil => simp
  | cons a c ih =>
    simp only [List.map_cons, List.prod_cons, List.length_cons, Function.comp]
    rw [pow_succ']
    exact Nat.mul_le_mul (hext a) ih

/-! ### copies are exact -/

theorem flPoly_single {eps : ℝ} {s : Multiset (Multiset ℝ)} {v x : ℝ} (h : Spec.FlPoly eps s v) (hs : s = {{x}}) : v = x := by
  cases h with
  | leaf y =>
    have := Multiset.singleton_inj.1 (Multiset.singleton_inj.1 hs)
    exact this
  | @add s t a b v h1 h2 _ =>
    exfalso
    have := congrArg Multiset.card hs
    have c1 := h1.card_pos
    have c2 := h2.card_pos
    simp only [Multiset.card_add, Multiset.card_singleton] at this
    omega
  | @mul s t a b v h1 h2 _ =>
    exfalso
    have pos : ∀ {s : Multiset (Multiset ℝ)} {v : ℝ}, Spec.FlPoly eps s v → ∀ m ∈ s, 1 ≤ m.card := by
      intro s v h
      induction h with
      | leaf y => intro m hm; rw [Multiset.mem_singleton] at hm; subst hm; simp
      | add _ _ _ i1 i2 =>
        intro m hm
        rcases Multiset.mem_add.1 hm with hm | hm
        exacts [i1 m hm, i2 m hm]
      | mul _ _ _ i1 i2 =>
        intro m hm
        simp only [Multiset.mem_bind, Multiset.mem_map] at hm
        obtain ⟨m1, hm1, m2, hm2, rfl⟩ := hm
        have := i1 m1 hm1
        rw [Multiset.card_add]
        omega
    obtain ⟨m0, hm0⟩ := Multiset.card_pos_iff_exists_mem.1 h1.card_pos
    obtain ⟨n0, hn0⟩ := Multiset.card_pos_iff_exists_mem.1 h2.card_pos
    have hm : m0 + n0 ∈ (s.bind fun m => t.map fun n => m + n) := by
      simp only [Multiset.mem_bind, Multiset.mem_map]
      exact ⟨m0, hm0, n0, hn0, rfl⟩
    rw [hs, Multiset.mem_singleton] at hm
    have := congrArg Multiset.card hm
    have c1 := pos h1 m0 hm0
    have c2 := pos h2 n0 hn0
    simp only [Multiset.card_add, Multiset.card_singleton] at this
    omega

/-- A transposition is a copy of the entries: no rounding. -/
theorem transposeTR_ok {eps : ℝ} {P : Arith} (hP : FlEval eps P) {F T : Tensor ℝ} {n m : ℕ} (hF : F.lens = [n, m])
    (hT : transposeT F = .ok T) : transposeTR P F = .ok T := by
  unfold transposeT at hT
  unfold transposeTR
  obtain ⟨C', c1, c2, c3⟩ := hP.ev_ok (by simp) hT
  rw [c1]
  congr 1
  have hC := einsum_cut hT
  have hs : sumTab [ncol F, nrow F] [li, lj] [(F, [lj, li])] = [] := by
    unfold sumTab
    have : contracted (([li, lj] : List Label).take [ncol F, nrow F].length) (cutOps [(F, [lj, li])]) = [] := by
      apply contracted_eq_nil
      intro o ho
      simp only [cutOps, List.map_cons, List.map_nil, List.mem_cons, List.not_mem_nil, or_false] at ho
      subst ho
      simp [hF]
    rw [this]
    rfl
  have hv : C'.val = T.val := by
    funext idx
    have c3 := c3 idx
    rw [hC]
    simp only
    rw [einsumVal_tab]
    split_ifs at c3 with hc
    · rw [if_pos hc]
      rw [hs] at c3 ⊢
      simp only [sumOver, envs, cutOps, List.map_cons, List.map_nil, List.prod_cons, List.prod_nil, mul_one, Multiset.coe_singleton] at c3 ⊢
      rcases c3 with ⟨h0, -⟩ | h
      · simp at h0
      · exact flPoly_single h rfl
    · rw [if_neg hc, c3]
  obtain ⟨l', v'⟩ := C'
  obtain ⟨l, v⟩ := T
  simp only at c2 hv
  rw [c2, hv]

/-! ### tensor-times-matrix products -/

/-- `T` approximates the multi-mode product of `Ve` with the modes `keep` left, relative to the one of `Va` and the absolute values of
the factors. -/
def TNear (c : ℝ) (dims rk : Fin N → ℕ) (Ve Va : (Fin N → ℕ) → ℝ) (W : Fin N → ℕ → ℕ → ℝ) (keep : Finset (Fin N)) (T : Tensor ℝ) : Prop :=
  ∃ E A, TValid dims rk Ve W keep E ∧ TValid dims rk Va (Spec.absMats W) keep A ∧ RelT c E A T

theorem TNear.lens {c : ℝ} {dims rk : Fin N → ℕ} {Ve Va : (Fin N → ℕ) → ℝ} {W : Fin N → ℕ → ℕ → ℝ} {keep : Finset (Fin N)} {T : Tensor ℝ}
    (h : TNear c dims rk Ve Va W keep T) : T.lens = List.ofFn (klens dims rk keep) := by
  obtain ⟨E, A, e, _, r⟩ := h
  rw [← r.1]
  exact e.1

theorem TNear.mono {c c' : ℝ} {dims rk : Fin N → ℕ} {Ve Va : (Fin N → ℕ) → ℝ} {W : Fin N → ℕ → ℕ → ℝ} {keep : Finset (Fin N)} {T : Tensor ℝ}
    (h : TNear c dims rk Ve Va W keep T) (hc : c ≤ c') : TNear c' dims rk Ve Va W keep T := by
  obtain ⟨E, A, e, a, r⟩ := h
  exact ⟨E, A, e, a, r.mono hc⟩

theorem TNear.congr {c : ℝ} {dims rk : Fin N → ℕ} {Ve Va : (Fin N → ℕ) → ℝ} {W W' : Fin N → ℕ → ℕ → ℝ} {keep : Finset (Fin N)} {T : Tensor ℝ}
    (h : TNear c dims rk Ve Va W keep T) (hW : ∀ j, j ∉ keep → ∀ x < dims j, ∀ r < rk j, W j x r = W' j x r) :
    TNear c dims rk Ve Va W' keep T := by
  obtain ⟨E, A, e, a, r⟩ := h
  exact ⟨E, A, e.congr hW, a.congr fun j hj x hx s hs => by unfold Spec.absMats; rw [hW j hj x hx s hs], r⟩

theorem TNear.val {c : ℝ} {dims rk : Fin N → ℕ} {Ve Va : (Fin N → ℕ) → ℝ} {W : Fin N → ℕ → ℕ → ℝ} {keep : Finset (Fin N)} {T : Tensor ℝ}
    (h : TNear c dims rk Ve Va W keep T) {z : Fin N → ℕ} (hz : ∀ j, z j < klens dims rk keep j) :
    |arr T N z - Spec.multiTTM dims Ve W keep z| ≤ (c - 1) * Spec.multiTTM dims Va (Spec.absMats W) keep z := by
  obtain ⟨E, A, e, a, r⟩ := h
  rw [← e.2 z hz, ← a.2 z hz]
  exact (r.2.2 _).2

theorem TNear.input {c : ℝ} {dims rk : Fin N → ℕ} {VE VA V : Tensor ℝ} (W : Fin N → ℕ → ℕ → ℝ) (hV : VE.lens = List.ofFn dims)
    (h : RelT c VE VA V) : TNear c dims rk (arr VE N) (arr VA N) W univ V :=
  ⟨VE, VA, TValid.input _ hV, TValid.input _ (by rw [h.2.1, ← h.1]; exact hV), h⟩

theorem klens_le {dims rk : Fin N → ℕ} {b : ℕ} (hd : ∀ j, dims j ≤ b) (hr : ∀ j, rk j ≤ b) (keep : Finset (Fin N)) (j : Fin N) :
    klens dims rk keep j ≤ b := by
  unfold klens
  split_ifs
  exacts [hd j, hr j]

section steps

variable {b : ℕ} {u : ℝ} {P : Arith} {dims rk : Fin N → ℕ} {Ve Va : (Fin N → ℕ) → ℝ} {W : Fin N → ℕ → ℕ → ℝ} {keep : Finset (Fin N)}

theorem TNear.step (hP : RoundOk (b * b) u P) (hu : 0 ≤ u) (hb : 1 ≤ b) (hd : ∀ j, dims j ≤ b) (hr : ∀ j, rk j ≤ b) {c : ℝ} (hc : 1 ≤ c)
    {T : Tensor ℝ} (hT : TNear c dims rk Ve Va W keep T) {lab : Fin N → Label} (hinj : Injective lab) {s : Label}
    (hs : ∀ k, lab k ≠ s) {j : Fin N} (hj : j ∈ keep) {B : Tensor ℝ} (hB : B.lens = [dims j, rk j]) (hBW : mat B = W j) :
    ∃ T', P.ev (List.ofFn (klens dims rk (keep.erase j))) (List.ofFn (update lab j s))
        [(T, List.ofFn lab), (B, [lab j, s])] = .ok T' ∧ TNear (c * (1 + u)) dims rk Ve Va W (keep.erase j) T' := by
  obtain ⟨E, A, e, a, rel⟩ := hT
  obtain ⟨E', e1, -, e3⟩ := e.step hinj hs hj hB hBW
  obtain ⟨A', a1, -, a3⟩ := a.step (B := absT B) hinj hs hj hB (by rw [mat_absT, hBW]; rfl)
  obtain ⟨A'', T', b1, b2, b3⟩ := ev_rel hP hu (lens := List.ofFn (klens dims rk (keep.erase j))) (sc := List.ofFn (update lab j s))
    (l := [⟨E, A, T, List.ofFn lab, c⟩, ⟨B, absT B, B, [lab j, s], 1⟩]) (by simp) (by simp)
    (by
      intro q hq
      simp only [List.mem_cons, List.not_mem_nil, or_false] at hq
      rcases hq with rfl | rfl
      · exact ⟨hc, rel⟩
      · exact ⟨le_rfl, RelT.exact B⟩) (E' := E') e1 (by
      apply nTerms_le2 hb (lab j) (lab j)
      · intro o ho l' hl' hn
        rw [List.take_of_length_le (by simp)] at hn
        simp only [List.map_cons, List.map_nil, List.mem_cons, List.not_mem_nil, or_false] at ho
        rcases ho with rfl | rfl
        · have hl' := List.mem_of_mem_take hl'
          simp only [List.mem_ofFn] at hl'
          obtain ⟨k, rfl⟩ := hl'
          left
          by_contra hne
          exact hn (mem_ofFn_update.2 (.inr ⟨k, fun e => hne (by rw [e]), rfl⟩))
        · have hl' := List.mem_of_mem_take hl'
          simp only [List.mem_cons, List.not_mem_nil, or_false] at hl'
          rcases hl' with rfl | rfl
          · simp
          · exact absurd (mem_ofFn_update.2 (.inl rfl)) hn
      · intro o ho n hn
        simp only [List.map_cons, List.map_nil, List.mem_cons, List.not_mem_nil, or_false] at ho
        rcases ho with rfl | rfl
        · simp only [e.1, List.mem_ofFn] at hn
          obtain ⟨k, rfl⟩ := hn
          exact klens_le hd hr _ k
        · simp only [hB, List.mem_cons, List.not_mem_nil, or_false] at hn
          rcases hn with rfl | rfl
          exacts [hd j, hr j])
  simp only [List.map_cons, List.map_nil, List.prod_cons, List.prod_nil, mul_one] at b1 b2 b3
  rw [a1] at b1
  rw [← Except.ok.inj b1] at b3
  exact ⟨T', b2, E', A', e3, a3, b3⟩

theorem TNear.step' (hP : RoundOk (b * b) u P) (hu : 0 ≤ u) (hb : 1 ≤ b) (hd : ∀ j, dims j ≤ b) (hr : ∀ j, rk j ≤ b) {c : ℝ} (hc : 1 ≤ c)
    {T : Tensor ℝ} (hT : TNear c dims rk Ve Va W keep T) {lab : Fin N → Label} (hinj : Injective lab) {s : Label}
    (hs : ∀ k, lab k ≠ s) {j : Fin N} (hj : j ∈ keep) {B : Tensor ℝ} (hB : B.lens = [rk j, dims j])
    (hBW : ∀ x < dims j, ∀ r < rk j, mat B r x = W j x r) :
    ∃ T', P.ev (List.ofFn (klens dims rk (keep.erase j))) (List.ofFn (update lab j s))
        [(B, [s, lab j]), (T, List.ofFn lab)] = .ok T' ∧ TNear (c * (1 + u)) dims rk Ve Va W (keep.erase j) T' := by
  obtain ⟨E, A, e, a, rel⟩ := hT
  obtain ⟨E', e1, -, e3⟩ := e.step' hinj hs hj hB hBW
  obtain ⟨A', a1, -, a3⟩ := a.step' (A := absT B) hinj hs hj hB (by
    intro x hx r hr
    rw [mat_absT]
    simp only
    rw [hBW x hx r hr]
    rfl)
  obtain ⟨A'', T', b1, b2, b3⟩ := ev_rel hP hu (lens := List.ofFn (klens dims rk (keep.erase j))) (sc := List.ofFn (update lab j s))
    (l := [⟨B, absT B, B, [s, lab j], 1⟩, ⟨E, A, T, List.ofFn lab, c⟩]) (by simp) (by simp)
    (by
      intro q hq
      simp only [List.mem_cons, List.not_mem_nil, or_false] at hq
      rcases hq with rfl | rfl
      · exact ⟨le_rfl, RelT.exact B⟩
      · exact ⟨hc, rel⟩) (E' := E') e1 (by
      apply nTerms_le2 hb (lab j) (lab j)
      · intro o ho l' hl' hn
        rw [List.take_of_length_le (by simp)] at hn
        simp only [List.map_cons, List.map_nil, List.mem_cons, List.not_mem_nil, or_false] at ho
        rcases ho with rfl | rfl
        · have hl' := List.mem_of_mem_take hl'
          simp only [List.mem_cons, List.not_mem_nil, or_false] at hl'
          rcases hl' with rfl | rfl
          · exact absurd (mem_ofFn_update.2 (.inl rfl)) hn
          · simp
        · have hl' := List.mem_of_mem_take hl'
          simp only [List.mem_ofFn] at hl'
          obtain ⟨k, rfl⟩ := hl'
          left
          by_contra hne
          exact hn (mem_ofFn_update.2 (.inr ⟨k, fun e => hne (by rw [e]), rfl⟩))
      · intro o ho n hn
        simp only [List.map_cons, List.map_nil, List.mem_cons, List.not_mem_nil, or_false] at ho
        rcases ho with rfl | rfl
        · simp only [hB, List.mem_cons, List.not_mem_nil, or_false] at hn
          rcases hn with rfl | rfl
          exacts [hr j, hd j]
        · simp only [e.1, List.mem_ofFn] at hn
          obtain ⟨k, rfl⟩ := hn
          exact klens_le hd hr _ k)
  simp only [List.map_cons, List.map_nil, List.prod_cons, List.prod_nil, mul_one, one_mul] at b1 b2 b3
  rw [a1] at b1
  rw [← Except.ok.inj b1] at b3
  exact ⟨T', b2, E', A', e3, a3, b3⟩

theorem TNear.step2 (hP : RoundOk (b * b) u P) (hu : 0 ≤ u) (hb : 1 ≤ b) (hd : ∀ j, dims j ≤ b) (hr : ∀ j, rk j ≤ b) {c : ℝ} (hc : 1 ≤ c)
    {T : Tensor ℝ} (hT : TNear c dims rk Ve Va W keep T) {lab : Fin N → Label} (hinj : Injective lab) {s t : Label}
    (hs : ∀ k, lab k ≠ s) (ht : ∀ k, lab k ≠ t) (hst : s ≠ t) {j j' : Fin N} (hj : j ∈ keep) (hj' : j' ∈ keep)
    (hne : j ≠ j') {B C : Tensor ℝ} (hB : B.lens = [dims j, rk j]) (hBW : mat B = W j)
    (hC : C.lens = [dims j', rk j']) (hCW : mat C = W j') :
    ∃ T', P.ev (List.ofFn (klens dims rk ((keep.erase j).erase j'))) (List.ofFn (update (update lab j s) j' t))
        [(T, List.ofFn lab), (B, [lab j, s]), (C, [lab j', t])] = .ok T' ∧
      TNear (c * (1 + u)) dims rk Ve Va W ((keep.erase j).erase j') T' := by
  obtain ⟨E, A, e, a, rel⟩ := hT
  obtain ⟨E', e1, -, e3⟩ := e.step2 hinj hs ht hst hj hj' hne hB hBW hC hCW
  obtain ⟨A', a1, -, a3⟩ := a.step2 (B := absT B) (C := absT C) hinj hs ht hst hj hj' hne hB (by rw [mat_absT, hBW]; rfl) hC
    (by rw [mat_absT, hCW]; rfl)
  have hin : ∀ k, k ≠ j → k ≠ j' → lab k ∈ List.ofFn (update (update lab j s) j' t) := fun k h1 h2 =>
    mem_ofFn_update.2 (.inr ⟨k, h2, by rw [update_of_ne h1]⟩)
  have his : s ∈ List.ofFn (update (update lab j s) j' t) := mem_ofFn_update.2 (.inr ⟨j, hne, by rw [update_self]⟩)
  have hit : t ∈ List.ofFn (update (update lab j s) j' t) := mem_ofFn_update.2 (.inl rfl)
  obtain ⟨A'', T', b1, b2, b3⟩ := ev_rel hP hu (lens := List.ofFn (klens dims rk ((keep.erase j).erase j')))
    (sc := List.ofFn (update (update lab j s) j' t))
    (l := [⟨E, A, T, List.ofFn lab, c⟩, ⟨B, absT B, B, [lab j, s], 1⟩, ⟨C, absT C, C, [lab j', t], 1⟩]) (by simp) (by simp)
    (by
      intro q hq
      simp only [List.mem_cons, List.not_mem_nil, or_false] at hq
      rcases hq with rfl | rfl | rfl
      · exact ⟨hc, rel⟩
      · exact ⟨le_rfl, RelT.exact B⟩
      · exact ⟨le_rfl, RelT.exact C⟩) (E' := E') e1 (by
      apply nTerms_le2 hb (lab j) (lab j')
      · intro o ho l' hl' hn
        rw [List.take_of_length_le (by simp)] at hn
        simp only [List.map_cons, List.map_nil, List.mem_cons, List.not_mem_nil, or_false] at ho
        rcases ho with rfl | rfl | rfl
        · have hl' := List.mem_of_mem_take hl'
          simp only [List.mem_ofFn] at hl'
          obtain ⟨k, rfl⟩ := hl'
          by_contra hne
          rw [not_or] at hne
          exact hn (hin k (fun e => hne.1 (by rw [e])) fun e => hne.2 (by rw [e]))
        · have hl' := List.mem_of_mem_take hl'
          simp only [List.mem_cons, List.not_mem_nil, or_false] at hl'
          rcases hl' with rfl | rfl
          · simp
          · exact absurd his hn
        · have hl' := List.mem_of_mem_take hl'
          simp only [List.mem_cons, List.not_mem_nil, or_false] at hl'
          rcases hl' with rfl | rfl
          · simp
          · exact absurd hit hn
      · intro o ho n hn
        simp only [List.map_cons, List.map_nil, List.mem_cons, List.not_mem_nil, or_false] at ho
        rcases ho with rfl | rfl | rfl
        · simp only [e.1, List.mem_ofFn] at hn
          obtain ⟨k, rfl⟩ := hn
          exact klens_le hd hr _ k
        · simp only [hB, List.mem_cons, List.not_mem_nil, or_false] at hn
          rcases hn with rfl | rfl
          exacts [hd j, hr j]
        · simp only [hC, List.mem_cons, List.not_mem_nil, or_false] at hn
          rcases hn with rfl | rfl
          exacts [hd j', hr j'])
  simp only [List.map_cons, List.map_nil, List.prod_cons, List.prod_nil, mul_one] at b1 b2 b3
  rw [a1] at b1
  rw [← Except.ok.inj b1] at b3
  exact ⟨T', b2, E', A', e3, a3, b3⟩

end steps

end Model
