import Verif.Proofs.Valid
import Mathlib.Algebra.BigOperators.Group.Finset.Sigma

/-! Contraction of two modes in one CTF expression (the three-mode leaves of the legacy trees). -/

namespace Model

open Finset

variable {K : Type} {N : ℕ}

theorem nodup_two {α : Type} {l : List α} {a b : α} (hnd : l.Nodup) (ha : a ∈ l) (hb : b ∈ l) (hab : a ≠ b)
    (hall : ∀ x ∈ l, x = a ∨ x = b) : l = [a, b] ∨ l = [b, a] := by
  match l, hnd, ha, hb, hall with
  | [x], _, ha, hb, _ =>
    simp only [List.mem_singleton] at ha hb
    exact absurd (ha.trans hb.symm) hab
  | [x, y], hnd, ha, hb, _ =>
    simp only [List.mem_cons, List.not_mem_nil, or_false] at ha hb
    rcases ha with rfl | rfl <;> rcases hb with rfl | rfl
    · exact absurd rfl hab
    · exact .inl rfl
    · exact .inr rfl
    · exact absurd rfl hab
  | x :: y :: z :: t, hnd, _, _, hall =>
    simp only [List.nodup_cons, List.mem_cons, not_or] at hnd
    have hx := hall x (by simp)
    have hy := hall y (by simp)
    have hz := hall z (by simp)
    obtain ⟨⟨h1, h2, _⟩, ⟨h3, _⟩, _⟩ := hnd
    rcases hx with rfl | rfl <;> rcases hy with rfl | rfl <;> rcases hz with rfl | rfl <;> simp_all

/-- Ternary contraction over two labels. -/
theorem einsum_three [CommSemiring K] {d : Label → ℕ} {sc sa sb se : List Label} {A B C : Tensor K}
    {fA fB fC : (Label → ℕ) → K} (hA : Rep A sa d fA) (hB : Rep B sb d fB) (hC : Rep C se d fC) (l1 l2 : Label)
    (h12 : l1 ≠ l2) (hl1 : l1 ∈ sa) (hl2 : l2 ∈ sa) (hn1 : l1 ∉ sc) (hn2 : l2 ∉ sc)
    (ha : ∀ l' ∈ sa, l' ∉ sc → l' = l1 ∨ l' = l2) (hb : ∀ l' ∈ sb, l' ∉ sc → l' = l1 ∨ l' = l2)
    (hc : ∀ l' ∈ se, l' ∉ sc → l' = l1 ∨ l' = l2) :
    ∃ T, einsum (sc.map d) sc [(A, sa), (B, sb), (C, se)] = .ok T ∧ Canon T ∧
      Rep T sc d fun env => ∑ x ∈ range (d l1), ∑ y ∈ range (d l2),
        fA (Function.update (Function.update env l1 x) l2 y) * (fB (Function.update (Function.update env l1 x) l2 y) *
          fC (Function.update (Function.update env l1 x) l2 y)) := by
  obtain ⟨T, h1, h2, h3⟩ := einsum_rep (K := K) (d := d) (sc := sc) (ops := [(A, sa), (B, sb), (C, se)])
    (by simp [hA.1, hB.1, hC.1])
  refine ⟨T, h1, h2, h3.congr ?_⟩
  intro env henv
  have hcs : contracted sc [(A, sa), (B, sb), (C, se)] = [l1, l2] ∨
      contracted sc [(A, sa), (B, sb), (C, se)] = [l2, l1] := by
    refine nodup_two (contracted_nodup _ _) (mem_contracted.2 ⟨⟨(A, sa), by simp, hl1⟩, hn1⟩)
      (mem_contracted.2 ⟨⟨(A, sa), by simp, hl2⟩, hn2⟩) h12 ?_
    intro l hl
    obtain ⟨⟨o, ho, hlo⟩, hn⟩ := mem_contracted.1 hl
    simp only [List.mem_cons, List.not_mem_nil, or_false] at ho
    rcases ho with rfl | rfl | rfl
    · exact ha l hlo hn
    · exact hb l hlo hn
    · exact hc l hlo hn
  have hr : ∀ x < d l1, ∀ y < d l2, ∀ s : List Label, (∀ l' ∈ s, l' ∉ sc → l' = l1 ∨ l' = l2) →
      ∀ l' ∈ s, Function.update (Function.update env l1 x) l2 y l' < d l' := by
    intro x hx y hy s hs l' hl'
    by_cases he : l' = l2
    · subst he; simpa using hy
    · rw [Function.update_of_ne he]
      by_cases he1 : l' = l1
      · subst he1; simpa using hx
      · rw [Function.update_of_ne he1]
        by_contra hcc
        rcases hs l' hl' fun hin => hcc (henv l' hin) with h | h
        · exact he1 h
        · exact he h
  rcases hcs with hcs | hcs
  · simp only [exprVal, hcs, List.map_cons, List.map_nil, sumOver, List.prod_cons, List.prod_nil, mul_one]
    refine Finset.sum_congr rfl fun x hx => Finset.sum_congr rfl fun y hy => ?_
    have := hr x (by simpa using hx) y (by simpa using hy)
    rw [hA.2 _ (this sa ha), hB.2 _ (this sb hb), hC.2 _ (this se hc)]
  · simp only [exprVal, hcs, List.map_cons, List.map_nil, sumOver, List.prod_cons, List.prod_nil, mul_one]
    rw [Finset.sum_comm]
    refine Finset.sum_congr rfl fun x hx => Finset.sum_congr rfl fun y hy => ?_
    rw [Function.update_comm h12.symm]
    have := hr x (by simpa using hx) y (by simpa using hy)
    rw [hA.2 _ (this sa ha), hB.2 _ (this sb hb), hC.2 _ (this se hc)]

variable [CommSemiring K]

/-- Contract two modes of a valid node at once. -/
theorem contract_valid2 (L : Labelling N) {dims : Fin N → ℕ} {R : ℕ}
    {V : (Fin N → ℕ) → K} {W : Fin N → ℕ → ℕ → K}
    {T W1 W2 : Tensor K} {j1 j2 : Fin N} {ms ms' : List (Fin N)}
    (hT : Valid dims R V W T ms) (hl1 : W1.lens = [dims j1, R]) (hW1 : mat W1 = W j1)
    (hl2 : W2.lens = [dims j2, R]) (hW2 : mat W2 = W j2)
    (hj1 : j1 ∈ ms) (hj2 : j2 ∈ ms) (hne : j1 ≠ j2)
    (hms : ms'.toFinset = (ms.toFinset.erase j2).erase j1) :
    ∃ T', einsum (ms'.map dims ++ [R]) (ms'.map L.lab ++ [L.rk])
        [(T, ms.map L.lab ++ [L.rk]), (W1, [L.lab j1, L.rk]), (W2, [L.lab j2, L.rk])] = .ok T' ∧ Canon T' ∧
      Valid dims R V W T' ms' := by
  have hd := L.d_lab dims R
  have hTp := (isPartial_iff_valid L).2 hT
  have hR1 : Rep W1 [L.lab j1, L.rk] (L.d dims R) fun env => W j1 (env (L.lab j1)) (env L.rk) := by
    rw [← hW1]; exact rep_mat L hl1 (L.d_lab dims R j1) (L.d_rk dims R)
  have hR2 : Rep W2 [L.lab j2, L.rk] (L.d dims R) fun env => W j2 (env (L.lab j2)) (env L.rk) := by
    rw [← hW2]; exact rep_mat L hl2 (L.d_lab dims R j2) (L.d_rk dims R)
  have hmem : ∀ k, L.lab k ∈ ms'.map L.lab ++ [L.rk] ↔ k ≠ j1 ∧ k ≠ j2 ∧ k ∈ ms := by
    intro k
    rw [← List.mem_toFinset (l := ms), ← Finset.mem_erase, ← Finset.mem_erase, ← hms]
    simp only [List.mem_append, List.mem_map, List.mem_singleton, List.mem_toFinset, L.ne, or_false]
    constructor
    · rintro ⟨a, ha, e⟩; exact L.inj e ▸ ha
    · intro h; exact ⟨k, h, rfl⟩
  have hrk : L.rk ∈ ms'.map L.lab ++ [L.rk] := by simp
  obtain ⟨T', h1, h2, h3⟩ := einsum_three (sc := ms'.map L.lab ++ [L.rk]) hTp hR1 hR2 (L.lab j1) (L.lab j2)
    (fun e => hne (L.inj e))
    (by simp only [List.mem_append, List.mem_map]; exact .inl ⟨_, hj1, rfl⟩)
    (by simp only [List.mem_append, List.mem_map]; exact .inl ⟨_, hj2, rfl⟩)
    (by rw [hmem]; simp) (by rw [hmem]; simp)
    (by
      intro l hl hn
      simp only [List.mem_append, List.mem_map, List.mem_singleton] at hl
      rcases hl with ⟨k, hk, rfl⟩ | rfl
      · rw [hmem] at hn
        by_contra hc
        push Not at hc
        exact hn ⟨fun e => hc.1 (by rw [e]), fun e => hc.2 (by rw [e]), hk⟩
      · exact absurd hrk hn)
    (by
      intro l hl hn
      simp only [List.mem_cons, List.not_mem_nil, or_false] at hl
      rcases hl with rfl | rfl
      · exact .inl rfl
      · exact absurd hrk hn)
    (by
      intro l hl hn
      simp only [List.mem_cons, List.not_mem_nil, or_false] at hl
      rcases hl with rfl | rfl
      · exact .inr rfl
      · exact absurd hrk hn)
  rw [L.map_d] at h1
  refine ⟨T', h1, h2, (isPartial_iff_valid L).1 (h3.congr ?_)⟩
  intro env henv
  rw [hms]
  rw [← Spec.partialMttkrp_contract (j := j1) (by simp [hj1, hne])]
  rw [hd j1]
  refine Finset.sum_congr rfl fun x _ => ?_
  rw [← Spec.partialMttkrp_contract (j := j2) (by simpa using hj2), Finset.sum_mul, hd j2]
  refine Finset.sum_congr rfl fun y _ => ?_
  rw [update_lab, update_lab, Function.update_of_ne (a := L.lab j1) (fun e => hne (L.inj e)), Function.update_self,
    Function.update_self, Function.update_of_ne (L.ne j2).symm, Function.update_of_ne (L.ne j1).symm]
  ring

end Model
