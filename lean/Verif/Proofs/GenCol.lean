import Verif.Proofs.Collinearity
import Verif.Properties.Build

/-! # `Gen_collinearity` as a whole -/

namespace Model

open Finset

/-- Loop rule: whatever a fold returns satisfies the invariant (the fold may also fail). -/
theorem foldlM_partial {α β : Type} {P : ℕ → α → Prop} {f : α → β → Except Fault α} :
    ∀ (l : List β) (m : ℕ) (a b : α), P m a →
      (∀ j x a b, l[j]? = some x → P (m + j) a → f a x = .ok b → P (m + j + 1) b) →
      l.foldlM f a = .ok b → P (m + l.length) b
  | [], m, a, b, h0, _, h => by
    simp only [List.foldlM_nil, pure, Except.pure, Except.ok.injEq] at h
    subst h; simpa using h0
  | x :: l, m, a, b, h0, hs, h => by
    rw [List.foldlM_cons] at h
    cases hx : f a x with
    | error e => rw [hx] at h; simp [bind, Except.bind] at h
    | ok a' =>
      rw [hx] at h
      have := foldlM_partial (P := P) l (m + 1) a' b (hs 0 x a a' (by simp) h0 hx) (by
        intro j y a b hj hP hf
        have := hs (j + 1) y a b (by simpa using hj) (by rwa [show m + (j + 1) = m + 1 + j by omega]) hf
        rwa [show m + (j + 1) + 1 = m + 1 + j + 1 by omega] at this) h
      rwa [show m + 1 + l.length = m + (x :: l).length by simp; omega] at this

/-- The vectors found by the search. -/
def VecsOk (cmin cmax : ℝ) (rnd : ℕ → ℕ → ℝ) (lens : List ℕ) (R m : ℕ) (vecs : List (List (Tensor ℝ))) : Prop :=
  vecs.length = m ∧ ∀ j < m, ∃ l, vecs[j]? = some (l.map (vecT (lens.getD j 0))) ∧ l.length = R ∧
    ColOk cmin cmax rnd (lens.getD j 0) l

theorem colVectors_partial {cmin cmax : ℝ} {rnd : ℕ → ℕ → ℝ} {lens : List ℕ} {R fuel : ℕ}
    {r : ℕ × List (List (Tensor ℝ))} (h : colVectors cmin cmax rnd lens R fuel = .ok r) :
    VecsOk cmin cmax rnd lens R lens.length r.2 := by
  unfold colVectors at h
  have := foldlM_partial (P := fun m (st : ℕ × List (List (Tensor ℝ))) => VecsOk cmin cmax rnd lens R m st.2)
    (List.range lens.length) 0 _ r ⟨rfl, by intro j hj; omega⟩ (by
      intro j x st st' hj hP hf
      have hjl : j < lens.length := by
        by_contra hc
        rw [List.getElem?_eq_none (by simpa using hc)] at hj
        cases hj
      rw [List.getElem?_range hjl] at hj
      cases hj
      rw [Nat.zero_add] at hP ⊢
      cases hq : ((List.range R).map fun i => vecT (lens.getD j 0) (rnd (i * lens.length + j))).foldlM
          (colMode cmin cmax rnd (lens.getD j 0) fuel) (st.1, []) with
      | error e => rw [hq] at hf; simp [bind, Except.bind] at hf
      | ok q =>
        rw [hq] at hf
        simp only [bind, Except.bind, pure, Except.pure, Except.ok.injEq] at hf
        subst hf
        obtain ⟨l', g1, g2, g3⟩ := colMode_partial ((List.range R).map fun i => rnd (i * lens.length + j)) st.1 [] q
          (by
            intro a ha
            simp only [List.mem_map] at ha
            obtain ⟨i, _, rfl⟩ := ha
            exact ⟨_, rfl⟩) ⟨by simp, by simp⟩ (by
              rw [List.map_map]
              exact hq)
        refine ⟨by simp [hP.1], ?_⟩
        intro k hk
        simp only []
        rcases Nat.lt_or_ge k j with hkj | hkj
        · obtain ⟨l, a1, a2, a3⟩ := hP.2 k hkj
          exact ⟨l, by rw [List.getElem?_append_left (by rw [hP.1]; exact hkj)]; exact a1, a2, a3⟩
        · have : k = j := by omega
          subst this
          refine ⟨l', ?_, by simpa using g2, g3⟩
          rw [List.getElem?_append_right (by rw [hP.1]), hP.1, Nat.sub_self, g1]
          rfl) h
  simpa using this

theorem colVectors_diverge {cmin cmax : ℝ} {rnd : ℕ → ℕ → ℝ} {lens : List ℕ} {R fuel : ℕ} (hR : 2 ≤ R)
    (hd : 1 ≤ lens.length)
    (hbad : ∀ c c', bothNonzero (lens.getD 0 0) (rnd c) (rnd c') ∧
      (colOf (lens.getD 0 0) (rnd c) (rnd c') < cmin ∨ cmax < colOf (lens.getD 0 0) (rnd c) (rnd c'))) :
    colVectors cmin cmax rnd lens R fuel = .error .diverge := by
  obtain ⟨m, hm⟩ : ∃ m, lens.length = m + 1 := ⟨lens.length - 1, by omega⟩
  obtain ⟨q, rfl⟩ : ∃ q, R = q + 1 + 1 := ⟨R - 2, by omega⟩
  unfold colVectors
  conv_lhs => arg 3; rw [hm, List.range_succ_eq_map]
  rw [List.foldlM_cons]
  have : ((List.range (q + 1 + 1)).map fun i => vecT (lens.getD 0 0) (rnd (i * lens.length + 0))).foldlM
      (colMode cmin cmax rnd (lens.getD 0 0) fuel) ((q + 1 + 1) * lens.length, []) = .error .diverge := by
    rw [range_map_shift, range_map_shift, List.foldlM_cons]
    have h1 : colMode cmin cmax rnd (lens.getD 0 0) fuel ((q + 1 + 1) * lens.length, [])
        (vecT (lens.getD 0 0) (rnd (0 * lens.length + 0))) =
        .ok ((q + 1 + 1) * lens.length, [rnd (0 * lens.length + 0)].map (vecT (lens.getD 0 0))) := by
      simp [colMode]
    rw [h1]
    simp only [bind, Except.bind]
    rw [List.foldlM_cons]
    have h2 : ∀ (cnt : ℕ), colMode cmin cmax rnd (lens.getD 0 0) fuel (cnt, [rnd (0 * lens.length + 0)].map (vecT (lens.getD 0 0)))
        (vecT (lens.getD 0 0) (rnd ((0 + 1) * lens.length + 0))) = .error .diverge := by
      intro cnt
      unfold colMode
      rw [if_neg (by simp)]
      simp only []
      rw [colResel_diverge (by
        intro c
        exact ⟨rnd (0 * lens.length + 0), List.mem_singleton.2 rfl, hbad c _⟩)]
      rfl
    rw [h2]
    rfl
  simp only [bind, Except.bind]
  rw [this]

theorem colVectors_accept {cmin cmax : ℝ} {rnd : ℕ → ℕ → ℝ} {lens : List ℕ} {R fuel : ℕ} (hf : 1 ≤ fuel)
    (hw : ∀ j < lens.length, ∀ c c', InWindow cmin cmax (lens.getD j 0) (rnd c) (rnd c')) :
    ∃ r, colVectors cmin cmax rnd lens R fuel = .ok r := by
  unfold colVectors
  obtain ⟨b, hb, _⟩ := foldlM_inv (P := fun _ _ => True) (f := fun (st : ℕ × List (List (Tensor ℝ))) (j : ℕ) => do
    let r ← ((List.range R).map fun i => vecT (lens.getD j 0) (rnd (i * lens.length + j))).foldlM
      (colMode cmin cmax rnd (lens.getD j 0) fuel) (st.1, [])
    pure (r.1, st.2 ++ [r.2])) (List.range lens.length) [] (R * lens.length, []) trivial (by
      intro d j st hj _ _
      have := colMode_accept hf (hw j (List.mem_range.1 hj)) ((List.range R).map fun i => rnd (i * lens.length + j)) st.1 []
        (by
          intro a ha
          simp only [List.mem_map] at ha
          obtain ⟨i, _, rfl⟩ := ha
          exact ⟨_, rfl⟩) (by simp)
      rw [List.map_map] at this
      have h' : ((List.range R).map fun i => vecT (lens.getD j 0) (rnd (i * lens.length + j))).foldlM
          (colMode cmin cmax rnd (lens.getD j 0) fuel) (st.1, []) = _ := this
      simp only [h', bind, Except.bind]
      exact ⟨_, rfl, trivial⟩)
  exact ⟨b, hb⟩

theorem mapM_rd_col {N : ℕ} {vecs : List (List (Tensor ℝ))} {i : ℕ} {g : ℕ → Tensor ℝ} (hl : vecs.length = N)
    (h : ∀ j < N, ∃ col, vecs[j]? = some col ∧ col[i]? = some (g j)) :
    (vecs.mapM fun col => rd col i) = .ok ((List.range N).map g) := by
  induction vecs generalizing N g with
  | nil => simp at hl; subst hl; rfl
  | cons c cs ih =>
    simp only [List.length_cons] at hl
    subst hl
    obtain ⟨col, h1, h2⟩ := h 0 (by omega)
    simp only [List.getElem?_cons_zero, Option.some.injEq] at h1
    subst h1
    rw [List.mapM_cons, ih (g := fun j => g (j + 1)) rfl (by
      intro j hj
      have := h (j + 1) (by omega)
      simpa using this)]
    have : rd c (i : ℤ) = .ok (g 0) := by simp [rd, h2]
    rw [this, range_map_shift]
    rfl

/-- The weight of term `i`. -/
noncomputable def colWeight (R i : ℕ) : ℝ := 0.2 + 0.6 / R * ((i : ℝ) + 1)

theorem colSum_ok {N : ℕ} (h2 : 2 ≤ N) (hN : N ≤ 18) {dims : Fin N → ℕ} {R : ℕ} {vecs : List (List (Tensor ℝ))}
    {a : Fin N → ℕ → ℕ → ℝ} (hlen : vecs.length = N)
    (hv : ∀ j : Fin N, vecs[j.1]? = some ((List.range R).map fun i => vecT (dims j) (a j i))) :
    ∃ X, (List.range R).foldlM (colTerm R vecs) (zeroT ℝ (List.ofFn dims)) = .ok X ∧ X.lens = List.ofFn dims ∧
      ∀ idx ∈ Spec.Box dims, arr X N idx = ∑ i ∈ range R, colWeight R i * ∏ j : Fin N, a j i (idx j) := by
  have := foldlM_range'_inv (P := fun m (X : Tensor ℝ) => X.lens = List.ofFn dims ∧
      ∀ idx ∈ Spec.Box dims, arr X N idx = ∑ i ∈ range m, colWeight R i * ∏ j : Fin N, a j i (idx j))
    (f := colTerm R vecs) (s := 0) (n := R) (a := zeroT ℝ (List.ofFn dims)) ⟨rfl, by intro idx _; simp [arr, zeroT]⟩ (by
      intro i X _ hi hX
      set g : ℕ → Tensor ℝ := fun j => if h : j < N then vecT (dims ⟨j, h⟩) (a ⟨j, h⟩ i) else ⟨[], fun _ => 0⟩ with hg
      have hm : (vecs.mapM fun col => rd col (i : ℤ)) = .ok ((List.range N).map g) := by
        refine mapM_rd_col hlen ?_
        intro j hj
        refine ⟨_, hv ⟨j, hj⟩, ?_⟩
        simp [hg, hj, List.getElem?_range (show i < R by omega)]
      have hw : ∀ j : Fin N, ((List.range N).map g)[j.1]? = some (vecT (dims j) (a j i)) := by
        intro j
        simp [hg, List.getElem?_range j.2]
      obtain ⟨B, b1, b2, b3⟩ := Properties.C15_build_V_vec (K := ℝ) (dims := dims) h2 hN (w := (List.range N).map g) (by
        intro j
        exact ⟨_, hw j, rfl⟩)
      obtain ⟨E, e1, _, e3, e4⟩ := zipT_ok (fun x y : ℝ => x + (0.2 + 0.6 / R * ((i : ℝ) + 1)) * y) (A := X) (B := B)
        (by rw [hX.1, b2])
      refine ⟨E, ?_, by rw [e3, hX.1], ?_⟩
      · unfold colTerm
        rw [hm]
        simp only [bind, Except.bind]
        rw [hlen, b1]
        exact e1
      · intro idx hidx
        have hf : fits X.lens (List.ofFn idx) = true := by
          rw [hX.1, fits_ofFn]
          exact Spec.mem_Box.1 hidx
        rw [Finset.sum_range_succ, ← hX.2 idx hidx]
        unfold arr
        rw [e4 _ hf]
        congr 1
        unfold colWeight
        congr 1
        rw [show B.val (List.ofFn idx) = arr B N idx from rfl, b3 idx hidx]
        refine Finset.prod_congr rfl fun j _ => ?_
        rw [List.getD_eq_getElem?_getD, hw j]
        exact vecT_val _ _ (Spec.mem_Box.1 hidx j))
  obtain ⟨X, x1, x2, x3⟩ := this
  rw [Nat.zero_add] at x3
  rw [← List.range_eq_range'] at x1
  exact ⟨X, x1, x2, x3⟩

theorem VecsOk.funs {N : ℕ} {dims : Fin N → ℕ} {cmin cmax : ℝ} {rnd : ℕ → ℕ → ℝ} {R : ℕ}
    {vecs : List (List (Tensor ℝ))} (h : VecsOk cmin cmax rnd (List.ofFn dims) R N vecs) :
    ∃ a : Fin N → ℕ → ℕ → ℝ,
      (∀ j : Fin N, vecs[j.1]? = some ((List.range R).map fun i => vecT (dims j) (a j i))) ∧
      (∀ j, ∀ i < R, ∃ c, a j i = rnd c) ∧
      ∀ j i k, k < i → i < R → InWindow cmin cmax (dims j) (a j i) (a j k) := by
  choose l h1 h2 h3 using fun j : Fin N => h.2 j.1 j.2
  have hd : ∀ j : Fin N, (List.ofFn dims).getD j.1 0 = dims j := by
    intro j
    simp [List.getD_eq_getElem?_getD]
  refine ⟨fun j i => (l j).getD i fun _ => 0, ?_, ?_, ?_⟩
  · intro j
    rw [h1 j, hd j]
    congr 1
    apply List.ext_getElem
    · simp [h2]
    · intro i hi hi'
      simp only [List.length_map] at hi
      simp [List.getD_eq_getElem?_getD, hi]
  · intro j i hi
    have hil : i < (l j).length := by rw [h2 j]; exact hi
    simp only [List.getD_eq_getElem?_getD, List.getElem?_eq_getElem hil, Option.getD_some]
    exact (h3 j).1 _ (List.getElem_mem hil)
  · intro j i k hki hi
    have hil : i < (l j).length := by rw [h2 j]; exact hi
    have hkl : k < (l j).length := by omega
    simp only [List.getD_eq_getElem?_getD, List.getElem?_eq_getElem hil, List.getElem?_eq_getElem hkl, Option.getD_some]
    have := List.pairwise_iff_getElem.1 (h3 j).2 k i hkl hil hki
    rwa [hd j] at this

/-- Cauchy-Schwarz: collinearities of nonnegative vectors lie in `[0,1]`. -/
theorem colOf_unit {n : ℕ} {a b : ℕ → ℝ} (ha : ∀ x < n, 0 ≤ a x) (hb : ∀ x < n, 0 ≤ b x) :
    0 ≤ colOf n a b ∧ colOf n a b ≤ 1 := by
  unfold colOf
  have h0 : 0 ≤ ∑ x ∈ range n, a x * b x :=
    Finset.sum_nonneg fun x hx => mul_nonneg (ha x (Finset.mem_range.1 hx)) (hb x (Finset.mem_range.1 hx))
  refine ⟨div_nonneg h0 (mul_nonneg (Real.sqrt_nonneg _) (Real.sqrt_nonneg _)), ?_⟩
  apply div_le_one_of_le₀ _ (mul_nonneg (Real.sqrt_nonneg _) (Real.sqrt_nonneg _))
  rw [← Real.sqrt_mul (Finset.sum_nonneg fun x _ => sq_nonneg _)]
  apply Real.le_sqrt_of_sq_le
  exact Finset.sum_mul_sq_le_sq_mul_sq _ _ _

end Model
