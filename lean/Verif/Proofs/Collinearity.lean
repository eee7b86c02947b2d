import Verif.Proofs.Laplacian

/-! # `fold_unfold`, `Gram_Schmidt`, `Gen_collinearity` -/

namespace Model

open Finset

variable {K : Type}

/-! ### fold_unfold -/

theorem mem_allPairs {X : Tensor K} {p : ℕ × K} :
    p ∈ allPairs X ↔ ∃ idx, fits X.lens idx = true ∧ p = (gidx X.lens idx, X.val idx) := by
  simp only [allPairs, List.mem_map, mem_boxList]
  constructor
  · rintro ⟨i, h, rfl⟩; exact ⟨i, h, rfl⟩
  · rintro ⟨i, h, rfl⟩; exact ⟨i, h, rfl⟩

theorem allPairs_nodup (X : Tensor K) : (allPairs X).Nodup := by
  refine List.Nodup.map_on ?_ (boxList_nodup _)
  intro a ha b hb h
  exact gidx_inj (mem_boxList.1 ha) (mem_boxList.1 hb) (Prod.mk.inj h).1

theorem foldUnfold_ok [AddCommMonoid K] {X Y : Tensor K} {parts : List (List (ℕ × K))}
    (hp : parts.flatten.Perm (allPairs X)) (hle : X.lens.prod ≤ Y.lens.prod) :
    ∃ Y', foldUnfold parts Y = .ok Y' ∧ Canon Y' ∧ Y'.lens = Y.lens ∧
      (∀ idx idx', fits X.lens idx = true → fits Y.lens idx' = true → gidx X.lens idx = gidx Y.lens idx' →
        Y'.val idx' = X.val idx) ∧
      ∀ idx', fits Y.lens idx' = true → X.lens.prod ≤ gidx Y.lens idx' → Y'.val idx' = Y.val idx' := by
  obtain ⟨Y', h1, h2, h3, h4⟩ := writeT_ok (T := Y) (pairs := parts.flatten) (by
    intro p hpm
    obtain ⟨idx, hf, rfl⟩ := mem_allPairs.1 (hp.mem_iff.1 hpm)
    exact lt_of_lt_of_le (gidx_lt hf) hle)
  refine ⟨Y', h1, h2, h3, ?_, ?_⟩
  · intro idx idx' hf hf' he
    have hm : (gidx X.lens idx, X.val idx) ∈ allPairs X := mem_allPairs.2 ⟨idx, hf, rfl⟩
    rw [(h4 idx' hf').1 ⟨_, hp.mem_iff.2 hm, he⟩]
    rw [((hp.filter _).map Prod.snd).sum_eq, filter_single (allPairs_nodup X) hm (by simpa using he)]
    · simp
    · intro x hx hq
      obtain ⟨i, hi, rfl⟩ := mem_allPairs.1 hx
      have : gidx X.lens i = gidx X.lens idx := by
        rw [he]; simpa using hq
      rw [gidx_inj hi hf this]
  · intro idx' hf' hge
    apply (h4 idx' hf').2
    rintro ⟨p, hpm, he⟩
    obtain ⟨idx, hf, rfl⟩ := mem_allPairs.1 (hp.mem_iff.1 hpm)
    have := gidx_lt hf
    simp only at he
    omega

theorem foldUnfold_ub [AddCommMonoid K] {X Y : Tensor K} {parts : List (List (ℕ × K))}
    (hp : parts.flatten.Perm (allPairs X)) (hlt : Y.lens.prod < X.lens.prod) :
    foldUnfold parts Y = .error .ub := by
  apply writeT_ub
  obtain ⟨idx, h1, h2⟩ := gidx_surj X.lens hlt
  exact ⟨_, hp.mem_iff.2 (mem_allPairs.2 ⟨idx, h1, rfl⟩), by simp [h2]⟩

theorem range_map_shift {α : Type} (n : ℕ) (f : ℕ → α) :
    (List.range (n + 1)).map f = f 0 :: (List.range n).map fun j => f (j + 1) := by
  rw [List.range_succ_eq_map, List.map_cons, List.map_map]
  rfl

theorem gidx_fold (s d : ℕ) (idx : ℕ → ℕ) :
    gidx (List.replicate d (s * s)) ((List.range d).map fun k => idx (2 * k) + s * idx (2 * k + 1)) =
      gidx (List.replicate (2 * d) s) ((List.range (2 * d)).map idx) := by
  induction d generalizing idx with
  | zero => rfl
  | succ d ih =>
    rw [range_map_shift, show 2 * (d + 1) = 2 * d + 1 + 1 by ring, range_map_shift, range_map_shift]
    simp only [List.replicate_succ, gidx]
    have := ih fun j => idx (j + 2)
    have e : (List.range d).map (fun k => idx (2 * k + 2) + s * idx (2 * k + 1 + 2)) =
        (List.range d).map fun j => idx (2 * (j + 1)) + s * idx (2 * (j + 1) + 1) := rfl
    rw [e] at this
    rw [this]
    simp only [Nat.add_assoc]
    ring

theorem fits_replicate {s n : ℕ} {idx : ℕ → ℕ} (h : ∀ j < n, idx j < s) :
    fits (List.replicate n s) ((List.range n).map idx) = true := by
  rw [fits_iff_getElem]
  refine ⟨by simp, ?_⟩
  intro j h1 h2
  simp only [List.length_replicate] at h1
  simpa using h j h1

/-! ### dot products -/

theorem dotT_ok [CommSemiring K] {A B : Tensor K} {n : ℕ} (hA : A.lens = [n]) (hB : B.lens = [n]) :
    dotT A B = .ok (∑ x ∈ range n, A.val [x] * B.val [x]) := by
  obtain ⟨T, h1, _, h3⟩ := einsum_two (K := K) (d := fun _ => n) (sc := []) (sa := [letter 8]) (sb := [letter 8])
    (A := A) (B := B) (fA := fun env => A.val [env (letter 8)]) (fB := fun env => B.val [env (letter 8)])
    ⟨by simp [hA], fun env _ => rfl⟩ ⟨by simp [hB], fun env _ => rfl⟩ (letter 8) (by simp) (by simp) (by simp) (by simp)
  unfold dotT
  have h1' : einsum [] [] [(A, [letter 8]), (B, [letter 8])] = .ok T := h1
  rw [h1']
  have := h3.2 (fun _ => 0) (by simp)
  simp only [List.map_nil] at this
  simp [bind, Except.bind, pure, Except.pure, this]

theorem gramSchmidt_ok [Field K] {A B : Tensor K} {n : ℕ} (hA : A.lens = [n]) (hB : B.lens = [n]) :
    ∃ A', gramSchmidt A B = .ok A' ∧ Canon A' ∧ A'.lens = [n] ∧
      ∀ x < n, A'.val [x] = A.val [x] -
        (∑ y ∈ range n, A.val [y] * B.val [y]) / (∑ y ∈ range n, B.val [y] * B.val [y]) * B.val [x] := by
  obtain ⟨E, e1, e2, e3, e4⟩ := zipT_ok (fun a b : K => a -
    (∑ y ∈ range n, A.val [y] * B.val [y]) / (∑ y ∈ range n, B.val [y] * B.val [y]) * b) (A := A) (B := B)
    (by rw [hA, hB])
  refine ⟨E, ?_, e2, by rw [e3, hA], ?_⟩
  · unfold gramSchmidt
    rw [dotT_ok hB hB, dotT_ok hA hB]
    exact e1
  · intro x hx
    exact e4 [x] (by rw [hA]; simp [fits, hx])

/-! ### collinearity -/

/-- Collinearity of two vectors of length `n`. -/
noncomputable def colOf (n : ℕ) (a b : ℕ → ℝ) : ℝ :=
  (∑ x ∈ range n, a x * b x) / (Real.sqrt (∑ x ∈ range n, a x ^ 2) * Real.sqrt (∑ x ∈ range n, b x ^ 2))

/-- Neither vector is zero. -/
def bothNonzero (n : ℕ) (a b : ℕ → ℝ) : Prop := (∃ x < n, a x ≠ 0) ∧ ∃ x < n, b x ≠ 0

theorem vecT_val (n : ℕ) (a : ℕ → ℝ) {x : ℕ} (h : x < n) : (vecT n a).val [x] = a x := by
  simp [vecT, fits, h]

theorem norm2_vecT (n : ℕ) (a : ℕ → ℝ) : norm2 (vecT n a) = Real.sqrt (∑ x ∈ range n, a x ^ 2) := by
  unfold norm2
  congr 1
  rw [sqNorm_eq (N := 1) (dims := fun _ => n) (by simp [vecT])]
  have : Spec.Box (fun _ : Fin 1 => n) = (range n).image fun x => fun _ => x := by
    ext f
    simp only [Spec.Box, Fintype.mem_piFinset, mem_range, mem_image]
    constructor
    · intro h
      refine ⟨f 0, h 0, ?_⟩
      funext i
      rw [Subsingleton.elim i 0]
    · rintro ⟨x, hx, rfl⟩ i
      exact hx
  rw [this, Finset.sum_image]
  · refine Finset.sum_congr rfl fun x hx => ?_
    rw [Finset.mem_range] at hx
    simp [arr, vecT_val n a hx]
  · intro x _ y _ h
    exact congrFun h 0

theorem sqrt_ne_zero_iff (n : ℕ) (a : ℕ → ℝ) : Real.sqrt (∑ x ∈ range n, a x ^ 2) ≠ 0 ↔ ∃ x < n, a x ≠ 0 := by
  rw [Real.sqrt_ne_zero (Finset.sum_nonneg fun x _ => sq_nonneg _), ne_eq,
    Finset.sum_eq_zero_iff_of_nonneg fun x _ => sq_nonneg _]
  simp

open Classical in
theorem colBad_ok (cmin cmax : ℝ) (n : ℕ) (a b : ℕ → ℝ) :
    colBad cmin cmax (vecT n a) (vecT n b) =
      .ok (decide (bothNonzero n a b ∧ (colOf n a b < cmin ∨ cmax < colOf n a b))) := by
  unfold colBad colParts
  rw [dotT_ok rfl rfl, norm2_vecT, norm2_vecT]
  have h1 : (∑ x ∈ range n, (vecT n a).val [x] * (vecT n b).val [x]) = ∑ x ∈ range n, a x * b x := by
    refine Finset.sum_congr rfl fun x hx => ?_
    rw [Finset.mem_range] at hx
    rw [vecT_val n a hx, vecT_val n b hx]
  rw [h1]
  simp only [bind, Except.bind, pure, Except.pure]
  congr 2
  rw [mul_ne_zero_iff, sqrt_ne_zero_iff, sqrt_ne_zero_iff]
  rfl

open Classical in
theorem colScan_ok (cmin cmax : ℝ) (n : ℕ) (a : ℕ → ℝ) (l : List (ℕ → ℝ)) :
    colScan cmin cmax (vecT n a) (l.map (vecT n)) =
      .ok (decide (∃ b ∈ l, bothNonzero n a b ∧ (colOf n a b < cmin ∨ cmax < colOf n a b))) := by
  induction l with
  | nil => simp [colScan]
  | cons b l ih =>
    rw [List.map_cons, colScan, colBad_ok]
    simp only [bind, Except.bind]
    by_cases h : bothNonzero n a b ∧ (colOf n a b < cmin ∨ cmax < colOf n a b)
    · simp [h, pure, Except.pure]
    · rw [decide_eq_false h]
      simp only [Bool.false_eq_true, if_false]
      rw [ih]
      congr 2
      simp only [List.mem_cons, exists_eq_or_imp, h, false_or]

/-- The window condition the generator enforces: a pair of nonzero vectors has its collinearity in the window. -/
def InWindow (cmin cmax : ℝ) (n : ℕ) (a b : ℕ → ℝ) : Prop :=
  bothNonzero n a b → cmin ≤ colOf n a b ∧ colOf n a b ≤ cmax

theorem colResel_partial {cmin cmax : ℝ} {rnd : ℕ → ℕ → ℝ} {n : ℕ} {l : List (ℕ → ℝ)} {fuel cnt : ℕ} {a : ℕ → ℝ}
    {r : ℕ × Tensor ℝ} (ha : ∃ c, a = rnd c)
    (h : colResel cmin cmax rnd n (l.map (vecT n)) fuel cnt (vecT n a) = .ok r) :
    ∃ a', r.2 = vecT n a' ∧ (∃ c, a' = rnd c) ∧ ∀ b ∈ l, InWindow cmin cmax n a' b := by
  induction fuel generalizing cnt a with
  | zero => simp [colResel] at h
  | succ fuel ih =>
    rw [colResel, colScan_ok] at h
    simp only [bind, Except.bind] at h
    split_ifs at h with hc
    · exact ih ⟨cnt, rfl⟩ h
    · simp only [pure, Except.pure, Except.ok.injEq] at h
      subst h
      refine ⟨a, rfl, ha, ?_⟩
      intro b hb hnz
      simp only [decide_eq_true_eq] at hc
      push Not at hc
      exact hc b hb hnz

theorem colResel_diverge {cmin cmax : ℝ} {rnd : ℕ → ℕ → ℝ} {n : ℕ} {l : List (ℕ → ℝ)} {fuel cnt : ℕ} {c0 : ℕ}
    (hbad : ∀ c, ∃ b ∈ l, bothNonzero n (rnd c) b ∧ (colOf n (rnd c) b < cmin ∨ cmax < colOf n (rnd c) b)) :
    colResel cmin cmax rnd n (l.map (vecT n)) fuel cnt (vecT n (rnd c0)) = .error .diverge := by
  induction fuel generalizing cnt c0 with
  | zero => rfl
  | succ fuel ih =>
    rw [colResel, colScan_ok]
    simp only [bind, Except.bind]
    rw [if_pos (by simpa using hbad c0)]
    exact ih

theorem colResel_accept {cmin cmax : ℝ} {rnd : ℕ → ℕ → ℝ} {n : ℕ} {l : List (ℕ → ℝ)} {fuel cnt : ℕ} {a : ℕ → ℝ}
    (hf : 1 ≤ fuel) (h : ∀ b ∈ l, InWindow cmin cmax n a b) :
    colResel cmin cmax rnd n (l.map (vecT n)) fuel cnt (vecT n a) = .ok (cnt, vecT n a) := by
  obtain ⟨m, rfl⟩ : ∃ m, fuel = m + 1 := ⟨fuel - 1, by omega⟩
  rw [colResel, colScan_ok]
  simp only [bind, Except.bind]
  rw [if_neg]
  · rfl
  · simp only [decide_eq_true_eq]
    rintro ⟨b, hb, hnz, hlt⟩
    obtain ⟨h1, h2⟩ := h b hb hnz
    rcases hlt with h' | h' <;> linarith

/-- The vectors of one mode: drawn from the stream, later ones in the window of all earlier ones. -/
def ColOk (cmin cmax : ℝ) (rnd : ℕ → ℕ → ℝ) (n : ℕ) (l : List (ℕ → ℝ)) : Prop :=
  (∀ a ∈ l, ∃ c, a = rnd c) ∧ l.Pairwise fun b a => InWindow cmin cmax n a b

theorem colMode_partial {cmin cmax : ℝ} {rnd : ℕ → ℕ → ℝ} {n fuel : ℕ} :
    ∀ (vs : List (ℕ → ℝ)) (cnt : ℕ) (l : List (ℕ → ℝ)) (r : ℕ × List (Tensor ℝ)),
      (∀ a ∈ vs, ∃ c, a = rnd c) → ColOk cmin cmax rnd n l →
      (vs.map (vecT n)).foldlM (colMode cmin cmax rnd n fuel) (cnt, l.map (vecT n)) = .ok r →
      ∃ l', r.2 = l'.map (vecT n) ∧ l'.length = l.length + vs.length ∧ ColOk cmin cmax rnd n l'
  | [], cnt, l, r, _, hl, h => by
    simp only [List.map_nil, List.foldlM_nil, pure, Except.pure, Except.ok.injEq] at h
    subst h
    exact ⟨l, rfl, by simp, hl⟩
  | v :: vs, cnt, l, r, hv, hl, h => by
    rw [List.map_cons, List.foldlM_cons] at h
    obtain ⟨cv, hcv⟩ := hv v (by simp)
    have hrest : ∀ a ∈ vs, ∃ c, a = rnd c := fun a ha => hv a (by simp [ha])
    cases l with
    | nil =>
      have : colMode cmin cmax rnd n fuel (cnt, List.map (vecT n) []) (vecT n v) = .ok (cnt, [v].map (vecT n)) := by
        simp [colMode]
      rw [this] at h
      simp only [bind, Except.bind] at h
      obtain ⟨l', h1, h2, h3⟩ := colMode_partial vs cnt [v] r hrest ⟨by
        intro a ha
        simp only [List.mem_singleton] at ha
        exact ⟨cv, by rw [ha, hcv]⟩, by simp⟩ h
      exact ⟨l', h1, by simp at h2 ⊢; omega, h3⟩
    | cons w ws =>
      cases hr : colResel cmin cmax rnd n ((w :: ws).map (vecT n)) fuel cnt (vecT n v) with
      | error e =>
        have : colMode cmin cmax rnd n fuel (cnt, (w :: ws).map (vecT n)) (vecT n v) = .error e := by
          unfold colMode
          rw [if_neg (by simp)]
          simp only [hr, bind, Except.bind]
        rw [this] at h
        simp [bind, Except.bind] at h
      | ok q =>
        obtain ⟨a', g1, g2, g3⟩ := colResel_partial ⟨cv, hcv⟩ hr
        have : colMode cmin cmax rnd n fuel (cnt, (w :: ws).map (vecT n)) (vecT n v) =
            .ok (q.1, ((w :: ws) ++ [a']).map (vecT n)) := by
          unfold colMode
          rw [if_neg (by simp)]
          simp only [hr, bind, Except.bind, pure, Except.pure, g1]
          simp
        rw [this] at h
        simp only [bind, Except.bind] at h
        obtain ⟨l', h1, h2, h3⟩ := colMode_partial vs q.1 ((w :: ws) ++ [a']) r hrest ⟨by
          intro a ha
          rcases List.mem_append.1 ha with ha | ha
          · exact hl.1 a ha
          · simp only [List.mem_singleton] at ha
            rw [ha]; exact g2, by
          rw [List.pairwise_append]
          refine ⟨hl.2, by simp, ?_⟩
          intro b hb a ha
          simp only [List.mem_singleton] at ha
          rw [ha]; exact g3 b hb⟩ h
        exact ⟨l', h1, by simp at h2 ⊢; omega, h3⟩

theorem colMode_accept {cmin cmax : ℝ} {rnd : ℕ → ℕ → ℝ} {n fuel : ℕ} (hf : 1 ≤ fuel)
    (hw : ∀ c c', InWindow cmin cmax n (rnd c) (rnd c')) :
    ∀ (vs : List (ℕ → ℝ)) (cnt : ℕ) (l : List (ℕ → ℝ)), (∀ a ∈ vs, ∃ c, a = rnd c) → (∀ a ∈ l, ∃ c, a = rnd c) →
      (vs.map (vecT n)).foldlM (colMode cmin cmax rnd n fuel) (cnt, l.map (vecT n)) = .ok (cnt, (l ++ vs).map (vecT n))
  | [], cnt, l, _, _ => by simp [pure, Except.pure]
  | v :: vs, cnt, l, hv, hl => by
    rw [List.map_cons, List.foldlM_cons]
    obtain ⟨cv, hcv⟩ := hv v (by simp)
    have hstep : colMode cmin cmax rnd n fuel (cnt, l.map (vecT n)) (vecT n v) = .ok (cnt, (l ++ [v]).map (vecT n)) := by
      unfold colMode
      split_ifs with h0
      · have : l = [] := by simpa using h0
        simp [this]
      · simp only []
        rw [colResel_accept hf (by
          intro b hb
          obtain ⟨c, hc⟩ := hl b hb
          rw [hcv, hc]
          exact hw cv c)]
        simp [bind, Except.bind, pure, Except.pure]
    rw [hstep]
    simp only [bind, Except.bind]
    rw [colMode_accept hf hw vs cnt (l ++ [v]) (fun a ha => hv a (by simp [ha])) (by
      intro a ha
      rcases List.mem_append.1 ha with ha | ha
      · exact hl a ha
      · simp only [List.mem_singleton] at ha
        exact ⟨cv, by rw [ha, hcv]⟩)]
    simp

end Model
