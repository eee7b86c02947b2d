import Verif.Model.Ctf
import Mathlib.Tactic.Ring
import Mathlib.Data.List.Nodup
import Mathlib.Data.List.Dedup

/-! Lemmas about the CTF model. -/

namespace Model

open Finset

variable {K : Type}

/-! ### Labels -/

theorem letter_eq {j : ℕ} (h : j ≤ 30) : letter j = 97 + (j : ℤ) := by
  unfold letter
  change (_ : ℤ) = _
  omega

theorem letter_inj {i j : ℕ} (hi : i < 256) (hj : j < 256) (h : letter i = letter j) : i = j := by
  unfold letter at h
  change (_ : ℤ) = _ at h
  omega

theorem letter_ne_star {j : ℕ} (h : j ≤ 30) : letter j ≠ star := by
  rw [letter_eq h]; unfold star
  change ¬ ((_ : ℤ) = _)
  omega

/-! ### fits / bindIdx / sumOver -/

theorem fits_length {lens idx : List ℕ} (h : fits lens idx = true) : lens.length = idx.length := by
  induction lens generalizing idx with
  | nil => cases idx <;> simp_all [fits]
  | cons n ns ih =>
    cases idx with
    | nil => simp [fits] at h
    | cons x xs => simp [fits] at h; simp [ih h.2]

theorem fits_map {s : List Label} {d env : Label → ℕ} :
    fits (s.map d) (s.map env) = true ↔ ∀ l ∈ s, env l < d l := by
  induction s with
  | nil => simp [fits]
  | cons a s ih => simp [fits, ih]

theorem fits_iff_getElem {lens idx : List ℕ} :
    fits lens idx = true ↔ lens.length = idx.length ∧ ∀ k (h : k < lens.length) (h' : k < idx.length),
      idx[k] < lens[k] := by
  induction lens generalizing idx with
  | nil => cases idx <;> simp [fits]
  | cons n ns ih =>
    cases idx with
    | nil => simp [fits]
    | cons x xs =>
      simp only [fits, Bool.and_eq_true, decide_eq_true_eq, ih, List.length_cons]
      constructor
      · rintro ⟨h1, h2, h3⟩
        refine ⟨by omega, ?_⟩
        intro k h h'
        cases k with
        | zero => simpa
        | succ k => simpa using h3 k (by omega) (by omega)
      · rintro ⟨h1, h2⟩
        refine ⟨by simpa using h2 0 (by omega) (by omega), by omega, ?_⟩
        intro k h h'
        exact h2 (k+1) (by simp; omega) (by simp; omega)

theorem bindIdx_map {s : List Label} {env : Label → ℕ} {l : Label} (h : l ∈ s) :
    bindIdx s (s.map env) l = env l := by
  induction s with
  | nil => simp at h
  | cons a s ih =>
    simp only [List.map_cons, bindIdx]
    by_cases hl : l = a
    · subst hl; simp
    · rw [Function.update_of_ne hl]
      exact ih (by simpa [hl] using h)

theorem map_bindIdx {s : List Label} {env : Label → ℕ} :
    s.map (bindIdx s (s.map env)) = s.map env :=
  List.map_congr_left fun _ h => bindIdx_map h

/-- Any valid index string of a duplicate-free label list comes from an environment. -/
theorem exists_env_of_length {s : List Label} (hs : s.Nodup) {idx : List ℕ}
    (h : s.length = idx.length) : s.map (bindIdx s idx) = idx := by
  induction s generalizing idx with
  | nil => cases idx <;> simp_all
  | cons a s ih =>
    cases idx with
    | nil => simp at h
    | cons x xs =>
      simp only [List.nodup_cons] at hs
      simp only [List.map_cons, bindIdx, Function.update_self, List.cons.injEq, true_and]
      refine Eq.trans (List.map_congr_left ?_) (ih hs.2 (by simpa using h))
      intro l hl
      have hne : l ≠ a := fun e => hs.1 (e ▸ hl)
      rw [Function.update_of_ne hne]

/-- The environment only matters on the labels the integrand reads and that are not summed. -/
theorem sumOver_env [AddCommMonoid K] {dims : List (Label × ℕ)} {f : (Label → ℕ) → K}
    {env env' : Label → ℕ} (S : Set Label)
    (hf : ∀ e e' : Label → ℕ, (∀ l ∈ S, e l = e' l) → f e = f e')
    (henv : ∀ l ∈ S, l ∉ dims.map Prod.fst → env l = env' l) :
    sumOver dims f env = sumOver dims f env' := by
  induction dims generalizing env env' with
  | nil => exact hf _ _ fun l hl => henv l hl (by simp)
  | cons p rest ih =>
    obtain ⟨l, n⟩ := p
    simp only [sumOver]
    refine Finset.sum_congr rfl fun x _ => ih ?_
    intro l' hl' hr
    by_cases h : l' = l
    · subst h; simp
    · rw [Function.update_of_ne h, Function.update_of_ne h]
      exact henv l' hl' (by simpa [h] using hr)

/-- The integrand only matters on environments within the extents. -/
theorem sumOver_congr [AddCommMonoid K] {dims : List (Label × ℕ)} {f g : (Label → ℕ) → K}
    {env : Label → ℕ} (hnd : (dims.map Prod.fst).Nodup)
    (hfg : ∀ e : Label → ℕ, (∀ l, l ∉ dims.map Prod.fst → e l = env l) →
      (∀ p ∈ dims, e p.1 < p.2) → f e = g e) :
    sumOver dims f env = sumOver dims g env := by
  induction dims generalizing env with
  | nil => exact hfg _ (by simp) (by simp)
  | cons p rest ih =>
    obtain ⟨l, n⟩ := p
    simp only [sumOver]
    simp only [List.map_cons, List.nodup_cons] at hnd
    refine Finset.sum_congr rfl fun x hx => ih hnd.2 ?_
    intro e h1 h2
    refine hfg e ?_ ?_
    · intro l' hl'
      simp only [List.map_cons, List.mem_cons, not_or] at hl'
      rw [h1 l' hl'.2, Function.update_of_ne hl'.1]
    · intro p hp
      rcases List.mem_cons.1 hp with rfl | hp
      · rw [h1 _ hnd.1]; simpa using hx
      · exact h2 p hp

/-! ### Tensors described by an expression in the labels -/

/-- `T`, indexed with the label string `s`, holds the expression `f` (extents given by `d`). -/
def Rep (T : Tensor K) (s : List Label) (d : Label → ℕ) (f : (Label → ℕ) → K) : Prop :=
  T.lens = s.map d ∧ ∀ env : Label → ℕ, (∀ l ∈ s, env l < d l) → T.val (s.map env) = f env

/-- `T` is zero outside its box. -/
def Canon [Zero K] (T : Tensor K) : Prop := ∀ idx, fits T.lens idx ≠ true → T.val idx = 0

theorem Tensor.ext_canon [Zero K] {A B : Tensor K} (hA : Canon A) (hB : Canon B)
    (hl : A.lens = B.lens) (hv : ∀ idx, fits A.lens idx = true → A.val idx = B.val idx) : A = B := by
  obtain ⟨la, va⟩ := A
  obtain ⟨lb, vb⟩ := B
  simp only at hl; subst hl
  congr 1
  funext idx
  by_cases h : fits la idx = true
  · exact hv idx h
  · rw [show va idx = 0 from hA idx h, show vb idx = 0 from hB idx h]

theorem Rep.congr {T : Tensor K} {s : List Label} {d : Label → ℕ} {f g : (Label → ℕ) → K}
    (h : Rep T s d f) (hfg : ∀ env : Label → ℕ, (∀ l ∈ s, env l < d l) → f env = g env) :
    Rep T s d g :=
  ⟨h.1, fun env he => (h.2 env he).trans (hfg env he)⟩

theorem Rep.self {T : Tensor K} {s : List Label} {d : Label → ℕ} (h : T.lens = s.map d) :
    Rep T s d fun env => T.val (s.map env) := ⟨h, fun _ _ => rfl⟩

theorem mem_zip_map {s : List Label} {d : Label → ℕ} {p : Label × ℕ} (h : p ∈ s.zip (s.map d)) :
    p.1 ∈ s ∧ p.2 = d p.1 := by
  induction s with
  | nil => simp at h
  | cons a s ih =>
    simp only [List.map_cons, List.zip_cons_cons, List.mem_cons] at h
    rcases h with rfl | h
    · simp
    · simp [ih h]

theorem lookup_of_forall {tab : List (Label × ℕ)} {d : Label → ℕ} (h : ∀ p ∈ tab, p.2 = d p.1)
    {l : Label} (hl : l ∈ tab.map Prod.fst) : extent tab l = d l := by
  unfold extent
  induction tab with
  | nil => simp at hl
  | cons p tab ih =>
    obtain ⟨a, n⟩ := p
    simp only [List.lookup]
    by_cases ha : l = a
    · subst ha; simpa using h (l, n) (by simp)
    · have : (l == a) = false := by simpa using ha
      rw [this]
      apply ih (fun p hp => h p (by simp [hp]))
      simpa [ha] using hl

theorem contracted_nodup (sc : List Label) (ops : List (Tensor K × List Label)) :
    (contracted sc ops).Nodup := (List.nodup_dedup _).filter _

theorem mem_contracted {sc : List Label} {ops : List (Tensor K × List Label)} {l : Label} :
    l ∈ contracted sc ops ↔ (∃ o ∈ ops, l ∈ o.2) ∧ l ∉ sc := by
  simp [contracted]

/-- The value of the sum of a CTF expression at an environment. -/
def exprVal [CommSemiring K] (d : Label → ℕ) (sc : List Label)
    (ops : List (Tensor K × List Label)) (env : Label → ℕ) : K :=
  sumOver ((contracted sc ops).map fun l => (l, d l))
    (fun env => (ops.map fun o => o.1.val (o.2.map env)).prod) env

theorem tableOk_of {tab : List (Label × ℕ)} {d : Label → ℕ} (h : ∀ p ∈ tab, p.2 = d p.1) :
    tableOk tab = true := by
  simp only [tableOk, List.all_eq_true, decide_eq_true_eq]
  intro p hp q hq e
  rw [h p hp, h q hq, e]

theorem opTable_of {ops : List (Tensor K × List Label)} {d : Label → ℕ}
    (h : ∀ o ∈ ops, o.1.lens = o.2.map d) : ∀ p ∈ ops.flatMap opTable, p.2 = d p.1 := by
  intro p hp
  obtain ⟨o, ho, hp⟩ := List.mem_flatMap.1 hp
  rw [opTable, h o ho] at hp
  exact (mem_zip_map hp).2

theorem ops_take {ops : List (Tensor K × List Label)} {d : Label → ℕ}
    (h : ∀ o ∈ ops, o.1.lens = o.2.map d) :
    (ops.map fun o => (o.1, o.2.take o.1.lens.length)) = ops := by
  conv_rhs => rw [← List.map_id ops]
  apply List.map_congr_left
  rintro ⟨T, s⟩ ho
  have := h _ ho
  simp only at this
  simp [this]

theorem opTable_fst {ops : List (Tensor K × List Label)} {d : Label → ℕ}
    (h : ∀ o ∈ ops, o.1.lens = o.2.map d) {l : Label} (hl : ∃ o ∈ ops, l ∈ o.2) :
    l ∈ (ops.flatMap opTable).map Prod.fst := by
  obtain ⟨o, ho, hl⟩ := hl
  simp only [List.mem_map, List.mem_flatMap]
  refine ⟨(l, d l), ⟨o, ho, ?_⟩, rfl⟩
  rw [opTable, h o ho]
  generalize o.2 = s at hl
  induction s with
  | nil => simp at hl
  | cons a s ih =>
    simp only [List.map_cons, List.zip_cons_cons, List.mem_cons] at hl ⊢
    rcases hl with rfl | hl
    · simp
    · exact Or.inr (ih hl)

theorem einsum_eq [CommSemiring K] {d : Label → ℕ} {sc : List Label}
    {ops : List (Tensor K × List Label)} (h : ∀ o ∈ ops, o.1.lens = o.2.map d) :
    einsum (sc.map d) sc ops = .ok ⟨sc.map d, einsumVal (sc.map d) sc ops⟩ := by
  have h1 : ¬ (sc.length < (sc.map d).length ∨ ∃ o ∈ ops, o.2.length < o.1.lens.length) := by
    rintro (h' | ⟨o, ho, h'⟩)
    · simp at h'
    · rw [h o ho] at h'; simp at h'
  unfold einsum
  rw [if_neg h1]
  simp only [List.length_map, List.take_length, ops_take h]
  rw [if_pos]
  apply tableOk_of (d := d)
  intro p hp
  rcases List.mem_append.1 hp with hp | hp
  · exact (mem_zip_map hp).2
  · exact opTable_of h p hp

/-- Main evaluation rule: if all operand shapes agree with the extents `d`, the CTF expression succeeds
and its value at every environment is the Einstein sum. -/
theorem einsum_rep [CommSemiring K] {d : Label → ℕ} {sc : List Label}
    {ops : List (Tensor K × List Label)} (h : ∀ o ∈ ops, o.1.lens = o.2.map d) :
    ∃ T, einsum (sc.map d) sc ops = .ok T ∧ Canon T ∧ Rep T sc d (exprVal d sc ops) := by
  refine ⟨_, einsum_eq h, ?_, rfl, ?_⟩
  · intro idx hidx
    simp only [einsumVal]
    rw [if_neg]
    exact fun hh => hidx hh.1
  · intro env henv
    simp only [einsumVal]
    rw [if_pos ⟨fits_map.2 henv, map_bindIdx⟩, exprVal]
    have hd : ((contracted sc ops).map fun l => (l, extent (ops.flatMap opTable) l)) =
        (contracted sc ops).map fun l => (l, d l) := by
      apply List.map_congr_left
      intro l hl
      rw [lookup_of_forall (opTable_of h) (opTable_fst h (mem_contracted.1 hl).1)]
    rw [hd]
    apply sumOver_env {l | ∃ o ∈ ops, l ∈ o.2}
    · intro e e' hee
      congr 1
      apply List.map_congr_left
      intro o ho
      congr 1
      exact List.map_congr_left fun l hl => hee l ⟨o, ho, hl⟩
    · intro l hl hn
      simp only [List.map_map, Function.comp_def, List.map_id'] at hn
      have : l ∈ sc := by
        by_contra hc
        exact hn (mem_contracted.2 ⟨hl, hc⟩)
      exact bindIdx_map this

theorem contracted_eq_single {sc : List Label} {ops : List (Tensor K × List Label)} {l : Label}
    (h1 : ∃ o ∈ ops, l ∈ o.2) (h2 : l ∉ sc) (h3 : ∀ o ∈ ops, ∀ l' ∈ o.2, l' ∉ sc → l' = l) :
    contracted sc ops = [l] := by
  have hnd := contracted_nodup sc ops
  have hm : l ∈ contracted sc ops := mem_contracted.2 ⟨h1, h2⟩
  have hall : ∀ l' ∈ contracted sc ops, l' = l := by
    intro l' hl'
    obtain ⟨⟨o, ho, h⟩, hn⟩ := mem_contracted.1 hl'
    exact h3 o ho l' h hn
  generalize contracted sc ops = c at *
  match c, hnd, hm, hall with
  | [a], _, _, hall => simpa using hall a (by simp)
  | a :: b :: t, hnd, _, hall =>
    have ha := hall a (by simp)
    have hb := hall b (by simp)
    subst ha; subst hb; simp at hnd

theorem contracted_eq_nil {sc : List Label} {ops : List (Tensor K × List Label)}
    (h3 : ∀ o ∈ ops, ∀ l' ∈ o.2, l' ∈ sc) : contracted sc ops = [] := by
  apply List.eq_nil_iff_forall_not_mem.2
  intro l hl
  obtain ⟨⟨o, ho, h⟩, hn⟩ := mem_contracted.1 hl
  exact hn (h3 o ho l h)

/-- Binary contraction over a single label. -/
theorem einsum_two [CommSemiring K] {d : Label → ℕ} {sc sa sb : List Label} {A B : Tensor K}
    {fA fB : (Label → ℕ) → K} (hA : Rep A sa d fA) (hB : Rep B sb d fB) (l : Label)
    (hl : l ∈ sa ∨ l ∈ sb) (hn : l ∉ sc)
    (ha : ∀ l' ∈ sa, l' ∉ sc → l' = l) (hb : ∀ l' ∈ sb, l' ∉ sc → l' = l) :
    ∃ T, einsum (sc.map d) sc [(A, sa), (B, sb)] = .ok T ∧ Canon T ∧
      Rep T sc d fun env => ∑ x ∈ range (d l),
        fA (Function.update env l x) * fB (Function.update env l x) := by
  obtain ⟨T, h1, h2, h3⟩ := einsum_rep (K := K) (d := d) (sc := sc) (ops := [(A, sa), (B, sb)])
    (by simp [hA.1, hB.1])
  refine ⟨T, h1, h2, h3.congr ?_⟩
  intro env henv
  have hc : contracted sc [(A, sa), (B, sb)] = [l] := by
    apply contracted_eq_single
    · simpa using hl
    · exact hn
    · intro o ho
      simp only [List.mem_cons, List.not_mem_nil, or_false] at ho
      rcases ho with rfl | rfl
      · exact ha
      · exact hb
  simp only [exprVal, hc, List.map_cons, List.map_nil, sumOver, List.prod_cons, List.prod_nil, mul_one]
  refine Finset.sum_congr rfl fun x hx => ?_
  have hr : ∀ s : List Label, (∀ l' ∈ s, l' ∉ sc → l' = l) →
      ∀ l' ∈ s, Function.update env l x l' < d l' := by
    intro s hs l' hl'
    by_cases he : l' = l
    · subst he; simpa using hx
    · rw [Function.update_of_ne he]
      by_contra hc
      exact he (hs l' hl' fun hin => hc (henv l' hin))
  rw [hA.2 _ (hr sa ha), hB.2 _ (hr sb hb)]

/-- Binary product without summation. -/
theorem einsum_two_nosum [CommSemiring K] {d : Label → ℕ} {sc sa sb : List Label} {A B : Tensor K}
    {fA fB : (Label → ℕ) → K} (hA : Rep A sa d fA) (hB : Rep B sb d fB)
    (ha : ∀ l' ∈ sa, l' ∈ sc) (hb : ∀ l' ∈ sb, l' ∈ sc) :
    ∃ T, einsum (sc.map d) sc [(A, sa), (B, sb)] = .ok T ∧ Canon T ∧
      Rep T sc d fun env => fA env * fB env := by
  obtain ⟨T, h1, h2, h3⟩ := einsum_rep (K := K) (d := d) (sc := sc) (ops := [(A, sa), (B, sb)])
    (by simp [hA.1, hB.1])
  refine ⟨T, h1, h2, h3.congr ?_⟩
  intro env henv
  have hc : contracted sc [(A, sa), (B, sb)] = [] := by
    apply contracted_eq_nil
    intro o ho
    simp only [List.mem_cons, List.not_mem_nil, or_false] at ho
    rcases ho with rfl | rfl
    · exact ha
    · exact hb
  simp only [exprVal, hc, List.map_nil, sumOver, List.map_cons, List.prod_cons, List.prod_nil, mul_one]
  rw [hA.2 _ fun l hl => henv l (ha l hl), hB.2 _ fun l hl => henv l (hb l hl)]

/-- A label whose extents disagree makes CTF abort. -/
theorem einsum_abort [CommSemiring K] {lensC : List ℕ} {sc : List Label}
    {ops : List (Tensor K × List Label)} (hlen : sc.length = lensC.length)
    (hops : ∀ o ∈ ops, o.2.length = o.1.lens.length) {l : Label} {m n : ℕ} (hmn : m ≠ n)
    (h1 : (l, m) ∈ sc.zip lensC ++ ops.flatMap opTable)
    (h2 : (l, n) ∈ sc.zip lensC ++ ops.flatMap opTable) :
    einsum lensC sc ops = .error .abort := by
  have hg : ¬ (sc.length < lensC.length ∨ ∃ o ∈ ops, o.2.length < o.1.lens.length) := by
    rintro (h' | ⟨o, ho, h'⟩)
    · omega
    · rw [hops o ho] at h'; omega
  have ht : (ops.map fun o => (o.1, o.2.take o.1.lens.length)) = ops := by
    conv_rhs => rw [← List.map_id ops]
    apply List.map_congr_left
    rintro ⟨T, s⟩ ho
    have := hops _ ho
    simp only at this
    simp [← this]
  unfold einsum
  rw [if_neg hg]
  simp only [← hlen, List.take_length, ht]
  rw [if_neg]
  simp only [tableOk, List.all_eq_true, decide_eq_true_eq]
  intro hh
  exact hmn (hh _ h1 _ h2 rfl)

/-! ### pointwise combination -/

theorem zipT_ok [Zero K] (f : K → K → K) {A B : Tensor K} (h : A.lens = B.lens) :
    ∃ T, zipT f A B = .ok T ∧ Canon T ∧ T.lens = A.lens ∧
      ∀ idx, fits A.lens idx = true → T.val idx = f (A.val idx) (B.val idx) := by
  refine ⟨⟨A.lens, fun idx => if fits A.lens idx = true then f (A.val idx) (B.val idx) else 0⟩,
    by unfold zipT; rw [if_pos h], ?_, rfl, ?_⟩
  · intro idx hidx
    simp only at hidx ⊢
    rw [if_neg hidx]
  · intro idx hidx
    simp only
    rw [if_pos hidx]

/-! ### array reads -/

theorem rd_ok {α : Type} {a : List α} {j : ℕ} (h : j < a.length) : rd a (j : ℤ) = .ok a[j] := by
  simp [rd, h]

end Model
