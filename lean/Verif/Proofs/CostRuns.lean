import Verif.Proofs.Cost

/-! How much the recording copies record. -/

namespace Model

open Spec (Tag Work termsOf storedOf countOf)

/-- `c` succeeds with result `x` and appends `w` to the record. -/
def Runs {α : Type} (c : CM α) (x : α) (w : List Work) : Prop := ∀ log, c log = .ok (x, log ++ w)

theorem Runs.pure {α : Type} (a : α) : Runs (Pure.pure a : CM α) a [] := fun log => by
  rw [List.append_nil]; rfl

theorem Runs.lift {α : Type} {x : Except Fault α} {a : α} (h : x = .ok a) : Runs (liftM x : CM α) a [] := by
  subst h
  intro log
  rw [List.append_nil]; rfl

theorem Runs.bind {α β : Type} {c : CM α} {a : α} {w w' : List Work} {f : α → CM β} {b : β}
    (h : Runs c a w) (hf : Runs (f a) b w') : Runs (c >>= f) b (w ++ w') := by
  intro log
  show ((c log).bind fun p => f p.1 p.2) = _
  rw [h log]
  show f a (log ++ w) = _
  rw [hf, List.append_assoc]

/-- Binding something that records nothing. -/
theorem Runs.bind0 {α β : Type} {c : CM α} {a : α} {w : List Work} {f : α → CM β} {b : β}
    (h : Runs c a []) (hf : Runs (f a) b w) : Runs (c >>= f) b w := h.bind hf

theorem Runs.erase {α : Type} {c : CM α} {x : Except Fault α} (h : Erases c x) {a : α} {w : List Work} (hr : Runs c a w) :
    x = .ok a := by
  rw [← h [], hr []]; rfl

theorem Runs.foldlM_range' {α : Type} {P : ℕ → α → Prop} {f : α → ℕ → CM α} {w : ℕ → List Work} {s n : ℕ} {a : α} (h0 : P s a)
    (hstep : ∀ j a, s ≤ j → j < s + n → P j a → ∃ b, Runs (f a j) b (w j) ∧ P (j + 1) b) :
    ∃ b, Runs ((List.range' s n).foldlM f a) b ((List.range' s n).flatMap w) ∧ P (s + n) b := by
  induction n generalizing s a with
  | zero => exact ⟨a, Runs.pure a, h0⟩
  | succ n ih =>
    obtain ⟨b, hb, hP⟩ := hstep s a (le_refl _) (by omega) h0
    obtain ⟨c, hc, hP'⟩ := ih hP (fun j a h1 h2 h3 => hstep j a (by omega) (by omega) h3)
    refine ⟨c, ?_, by rwa [show s + (n + 1) = s + 1 + n by omega]⟩
    rw [List.range'_succ, List.foldlM_cons, List.flatMap_cons]
    exact hb.bind hc

theorem Runs.foldlM_list {α β : Type} {P : α → Prop} {f : α → β → CM α} {w : β → List Work} : ∀ (l : List β) (a : α), P a →
    (∀ x ∈ l, ∀ a, P a → ∃ b, Runs (f a x) b (w x) ∧ P b) → ∃ b, Runs (l.foldlM f a) b (l.flatMap w) ∧ P b
  | [], a, h0, _ => ⟨a, Runs.pure a, h0⟩
  | x :: l, a, h0, h => by
    obtain ⟨b, hb, hP⟩ := h x (by simp) a h0
    obtain ⟨c, hc, hP'⟩ := Runs.foldlM_list l b hP fun y hy => h y (by simp [hy])
    refine ⟨c, ?_, hP'⟩
    rw [List.foldlM_cons, List.flatMap_cons]
    exact hb.bind hc

variable {K : Type} [CommRing K] {N : ℕ}

omit [CommRing K] in
/-- The size of an expression all of whose shapes agree with the extents `d`. -/
theorem exprTerms_eq {d : Label → ℕ} {sc : List Label} {ops : List (Tensor K × List Label)}
    (h : ∀ o ∈ ops, o.1.lens = o.2.map d) :
    exprTerms (sc.map d) sc ops = ∏ l ∈ (sc ++ ops.flatMap fun o => o.2).toFinset, d l := by
  have hnd := List.nodup_dedup (sc ++ ops.flatMap fun o => o.2)
  unfold exprTerms
  rw [show (sc ++ ops.flatMap fun o => o.2).toFinset = ((sc ++ ops.flatMap fun o => o.2).dedup).toFinset by ext; simp,
    List.prod_toFinset _ hnd]
  congr 1
  apply List.map_congr_left
  intro l hl
  apply lookup_of_forall
  · intro p hp
    rcases List.mem_append.1 hp with hp | hp
    · exact (mem_zip_map hp).2
    · exact opTable_of h p hp
  · rw [List.mem_dedup, List.mem_append] at hl
    rw [List.map_append, List.mem_append]
    rcases hl with hl | hl
    · left
      rw [List.map_fst_zip (by simp)]
      exact hl
    · right
      rw [List.mem_flatMap] at hl
      exact opTable_fst h hl

/-- An expression all of whose shapes agree with the extents `d` succeeds and is entered with its size. -/
theorem einsumC_runs (t : Tag) {d : Label → ℕ} {lensC : List ℕ} {sc : List Label} {ops : List (Tensor K × List Label)}
    (hC : lensC = sc.map d) (h : ∀ o ∈ ops, o.1.lens = o.2.map d) {s : Finset Label}
    (hs : (sc ++ ops.flatMap fun o => o.2).toFinset = s) :
    ∃ T, T.lens = lensC ∧ Runs (einsumC t lensC sc ops) T [⟨t, ∏ l ∈ s, d l, lensC.prod⟩] := by
  subst hC
  refine ⟨⟨sc.map d, einsumVal (sc.map d) sc ops⟩, rfl, fun log => ?_⟩
  unfold einsumC
  rw [einsum_eq h, exprTerms_eq h, hs]
  rfl

/-! ### the update of a factor -/

/-- Edge length of mode `m`. -/
def dimN (dims : Fin N → ℕ) (m : ℕ) : ℕ := if h : m < N then dims ⟨m, h⟩ else 0

theorem dimN_val (dims : Fin N → ℕ) (m : Fin N) : dimN dims m.1 = dims m := by
  unfold dimN
  rw [dif_pos m.2]

theorem flatMap_single {α β : Type} (f : α → β) (l : List α) : (l.flatMap fun a => [f a]) = l.map f := by
  induction l with
  | nil => rfl
  | cons a l ih => rw [List.flatMap_cons, ih]; rfl

/-- What `update_S` records. -/
def gramW (dims : Fin N → ℕ) (R : ℕ) (index : List ℕ) : List Work :=
  index.map fun m => ⟨.update, R * R * dimN dims m, R * R⟩

theorem prod_ijk (a b c : ℕ) : ∏ l ∈ ({li, lj, lk} : Finset Label), dIJK a b c l = a * b * c := by
  rw [Finset.prod_insert (by decide), Finset.prod_insert (by decide), Finset.prod_singleton]
  simp [mul_assoc]

theorem prod_ij (a b c : ℕ) : ∏ l ∈ ({li, lj} : Finset Label), dIJK a b c l = a * b := by
  rw [Finset.prod_insert (by decide), Finset.prod_singleton]
  simp

theorem gramSC_runs {dims : Fin N → ℕ} {R : ℕ} {V : Tensor K} {W : List (Tensor K)}
    (hS : Shaped dims R V W) (lam : K) {index : List ℕ} (hlt : ∀ x ∈ index, x < N) (hne : index ≠ []) :
    ∃ S, Runs (gramSC index R lam W) S (gramW dims R index) ∧ S.lens = [R, R] := by
  obtain ⟨m0, rest, rfl⟩ := List.exists_cons_of_ne_nil hne
  have hm0 : m0 < N := hlt m0 (by simp)
  obtain ⟨W0, hr0, _, hl0, _⟩ := mats_get hS ⟨m0, hm0⟩
  obtain ⟨S0, hl, h0⟩ := einsumC_runs (K := K) .update (d := dIJK R R (dims ⟨m0, hm0⟩)) (lensC := [R, R]) (sc := [li, lj])
    (ops := [(W0, [lk, li]), (W0, [lk, lj])]) (s := {li, lj, lk}) (by simp) (by simp [hl0]) (by simp only [List.flatMap_cons, List.flatMap_nil]; decide)
  rw [prod_ijk] at h0
  obtain ⟨S1, h1, hl1⟩ := Runs.foldlM_list (P := fun S : Tensor K => S.lens = [R, R])
    (f := fun S (m : ℕ) => (do
      let Wm ← rd W m
      einsumC .update [R, R] [li, lj] [(S, [li, lj]), (Wm, [lk, li]), (Wm, [lk, lj])] : CM (Tensor K)))
    (w := fun m => [⟨.update, R * R * dimN dims m, R * R⟩]) rest S0 hl (by
      intro x hx S hSl
      have hxN := hlt x (by simp [hx])
      obtain ⟨Wx, hr, _, hlx, _⟩ := mats_get hS ⟨x, hxN⟩
      obtain ⟨T, hT, h1⟩ := einsumC_runs (K := K) .update (d := dIJK R R (dims ⟨x, hxN⟩)) (lensC := [R, R]) (sc := [li, lj])
        (ops := [(S, [li, lj]), (Wx, [lk, li]), (Wx, [lk, lj])]) (s := {li, lj, lk}) (by simp) (by simp [hlx, hSl]) (by simp only [List.flatMap_cons, List.flatMap_nil]; decide)
      rw [prod_ijk] at h1
      refine ⟨T, (Runs.lift hr).bind0 ?_, hT⟩
      have : dimN dims x = dims ⟨x, hxN⟩ := dimN_val dims ⟨x, hxN⟩
      rw [this]
      simpa using h1)
  obtain ⟨S2, hz, _, hzl, _⟩ := zipT_ok (· + ·) (A := S1) (B := regul R lam) (by rw [hl1]; rfl)
  rw [hl1] at hzl
  refine ⟨S2, ?_, hzl⟩
  have hw : gramW dims R (m0 :: rest) = [⟨.update, R * R * dims ⟨m0, hm0⟩, R * R⟩] ++
      ((rest.flatMap fun m => [⟨.update, R * R * dimN dims m, R * R⟩]) ++ []) := by
    rw [List.append_nil]
    unfold gramW
    have : dimN dims m0 = dims ⟨m0, hm0⟩ := dimN_val dims ⟨m0, hm0⟩
    rw [List.map_cons, this]
    rw [flatMap_single]
    rfl
  rw [hw]
  unfold gramSC
  refine (Runs.lift (a := m0) (by rfl)).bind0 ((Runs.lift hr0).bind0 ?_)
  exact (by simpa using h0 : Runs _ S0 [⟨.update, R * R * dims ⟨m0, hm0⟩, R * R⟩]).bind (h1.bind (Runs.lift hz))

/-- What the gradient records. -/
def gradW (dims : Fin N → ℕ) (R : ℕ) (m : Fin N) : List Work := [⟨.update, dims m * R * R, dims m * R⟩]

theorem modeTailC_runs {dims : Fin N → ℕ} {R : ℕ} {V : Tensor K} {f : Fac K} (hS : Shaped dims R V f.W)
    (solve : Spec.Solver K) (i : Fin N) {M S : Tensor K} (hMl : M.lens = [dims i, R]) (hSl : S.lens = [R, R]) :
    ∃ f', Runs (modeTailC solve f i M S) f' (gradW dims R i) ∧ Shaped dims R V f'.W := by
  obtain ⟨Wi, hr, _, hl, _⟩ := mats_get hS i
  obtain ⟨T, hTl, hT⟩ := einsumC_runs (K := K) .update (d := dIJK (dims i) R R) (lensC := M.lens) (sc := [li, lj])
    (ops := [(Wi, [li, lk]), (S, [lk, lj])]) (s := {li, lj, lk}) (by simp [hMl]) (by simp [hl, hSl]) (by simp only [List.flatMap_cons, List.flatMap_nil]; decide)
  rw [prod_ijk] at hT
  obtain ⟨g, hz, _⟩ := zipT_ok (fun a b : K => -a + b) (A := M) (B := T) hTl.symm
  refine ⟨⟨f.W.set i.1 (solveT solve M S), f.G.set i.1 g⟩, ?_, hS.set i (by simp [solveT, nrow, ncol, hMl])⟩
  unfold modeTailC
  refine (Runs.lift hr).bind0 ?_
  have hw : gradW dims R i = [⟨.update, dims i * R * R, M.lens.prod⟩] ++ ([] ++ []) := by
    simp [gradW, hMl]
  rw [hw]
  exact hT.bind ((Runs.lift hz).bind (Runs.pure _))

/-- What the update of a factor records after its MTTKRP. -/
def updW (dims : Fin N → ℕ) (R : ℕ) (m : Fin N) : List Work := gramW dims R (othersOf N m) ++ gradW dims R m

theorem others_ne_nil (h2 : 2 ≤ N) {i : ℕ} {index : List ℕ} (hmem : ∀ m, m ∈ index ↔ m < N ∧ m ≠ i) : index ≠ [] := by
  rintro rfl
  have h0 := (hmem 0).2
  have h1 := (hmem 1).2
  simp at h0 h1
  omega

theorem updateModeC_runs (h2 : 2 ≤ N) {dims : Fin N → ℕ} {R : ℕ} {V : Tensor K} {f : Fac K} (hS : Shaped dims R V f.W)
    (lam : K) (solve : Spec.Solver K) (i : Fin N) {M : Tensor K} (hMl : M.lens = [dims i, R]) :
    ∃ f', Runs (updateModeC N R lam solve f i M) f' (updW dims R i) ∧ Shaped dims R V f'.W := by
  obtain ⟨S, hS1, hSl⟩ := gramSC_runs hS lam (index := othersOf N i.1) (fun m hm => ((mem_othersOf i.2).1 hm).1)
    (others_ne_nil h2 fun m => mem_othersOf i.2)
  obtain ⟨f', h1, h3⟩ := modeTailC_runs hS solve i hMl hSl
  exact ⟨f', hS1.bind h1, h3⟩

end Model
