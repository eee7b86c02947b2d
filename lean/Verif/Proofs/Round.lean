import Verif.Model.Round
import Verif.Proofs.Valid
import Mathlib.Algebra.Order.BigOperators.Group.Finset
import Mathlib.Algebra.Order.BigOperators.Group.Multiset
import Mathlib.Tactic.Linarith
import Mathlib.Tactic.Positivity
import Mathlib.Tactic.Ring

/-! Rounding errors of contractions. -/

namespace Spec

theorem add_rel {eps c E1 E2 A1 A2 a b v : ℝ} (he : 0 ≤ eps) (hc : 1 ≤ c) (h1 : |E1| ≤ A1) (h2 : |E2| ≤ A2)
    (ha : |a - E1| ≤ (c - 1) * A1) (hb : |b - E2| ≤ (c - 1) * A2) (hv : |v - (a + b)| ≤ eps * |a + b|) :
    |v - (E1 + E2)| ≤ ((1 + eps) * c - 1) * (A1 + A2) := by
  have e1 : |a| ≤ c * A1 := by
    have := abs_add_le (a - E1) E1
    rw [sub_add_cancel] at this
    linarith
  have e2 : |b| ≤ c * A2 := by
    have := abs_add_le (b - E2) E2
    rw [sub_add_cancel] at this
    linarith
  have h2 : |v - (E1 + E2)| ≤ |v - (a + b)| + (|a - E1| + |b - E2|) := by
    have : v - (E1 + E2) = (v - (a + b)) + ((a - E1) + (b - E2)) := by ring
    rw [this]
    exact (abs_add_le _ _).trans (add_le_add le_rfl (abs_add_le _ _))
  have h3 : eps * |a + b| ≤ eps * (c * A1 + c * A2) :=
    mul_le_mul_of_nonneg_left ((abs_add_le _ _).trans (add_le_add e1 e2)) he
  linarith [show eps * (c * A1 + c * A2) + ((c - 1) * A1 + (c - 1) * A2) = ((1 + eps) * c - 1) * (A1 + A2) by ring]

theorem mul_rel {eps c d p q A B a b v : ℝ} (he : 0 ≤ eps) (hc : 1 ≤ c) (hd : 1 ≤ d) (h1 : |p| ≤ A) (h2 : |q| ≤ B)
    (ha : |a - p| ≤ (c - 1) * A) (hb : |b - q| ≤ (d - 1) * B) (hv : |v - a * b| ≤ eps * |a * b|) :
    |v - p * q| ≤ ((1 + eps) * (c * d) - 1) * (A * B) := by
  have hA : 0 ≤ A := (abs_nonneg _).trans h1
  have hB : 0 ≤ B := (abs_nonneg _).trans h2
  have e1 : |a| ≤ c * A := by
    have := abs_add_le (a - p) p
    rw [sub_add_cancel] at this
    linarith
  have e2 : |b| ≤ d * B := by
    have := abs_add_le (b - q) q
    rw [sub_add_cancel] at this
    linarith
  have e3 : |a * b - p * q| ≤ (c * d - 1) * (A * B) := by
    have : a * b - p * q = (a - p) * b + p * (b - q) := by ring
    rw [this]
    refine (abs_add_le _ _).trans ?_
    rw [abs_mul, abs_mul]
    have f1 : |a - p| * |b| ≤ ((c - 1) * A) * (d * B) := mul_le_mul ha e2 (abs_nonneg _) (mul_nonneg (by linarith) hA)
    have f2 : |p| * |b - q| ≤ A * ((d - 1) * B) := mul_le_mul h1 hb (abs_nonneg _) hA
    linarith [show ((c - 1) * A) * (d * B) + A * ((d - 1) * B) = (c * d - 1) * (A * B) by ring]
  have e4 : |a * b| ≤ c * d * (A * B) := by
    rw [abs_mul]
    calc |a| * |b| ≤ (c * A) * (d * B) := mul_le_mul e1 e2 (abs_nonneg _) (by positivity)
      _ = _ := by ring
  have e5 : |v - p * q| ≤ |v - a * b| + |a * b - p * q| := by
    have : v - p * q = (v - a * b) + (a * b - p * q) := by ring
    rw [this]; exact abs_add_le _ _
  have e6 := mul_le_mul_of_nonneg_left e4 he
  linarith [show eps * (c * d * (A * B)) + (c * d - 1) * (A * B) = ((1 + eps) * (c * d) - 1) * (A * B) by ring]

theorem FlPoly.card_pos {eps : ℝ} {s : Multiset (Multiset ℝ)} {v : ℝ} (h : FlPoly eps s v) : 1 ≤ s.card := by
  induction h with
  | leaf x => simp
  | add _ _ _ ih1 ih2 => rw [Multiset.card_add]; omega
  | mul _ _ _ ih1 ih2 => simp only [Multiset.card_bind, Function.comp_def, Multiset.card_map, Multiset.map_const', Multiset.sum_replicate, smul_eq_mul]; exact Nat.mul_pos ih1 ih2

/-- The exact value of a sum of products. -/
def polyVal (s : Multiset (Multiset ℝ)) : ℝ := (s.map Multiset.prod).sum

/-- The sum of the absolute values of the products. -/
def polyAbs (s : Multiset (Multiset ℝ)) : ℝ := (s.map fun m => |m.prod|).sum

theorem polyVal_abs (s : Multiset (Multiset ℝ)) : |polyVal s| ≤ polyAbs s := by
  unfold polyVal polyAbs
  induction s using Multiset.induction_on with
  | empty => simp
  | cons a s ih => simp only [Multiset.map_cons, Multiset.sum_cons]; exact (abs_add_le _ _).trans (by linarith)

theorem polyVal_mul (s t : Multiset (Multiset ℝ)) : polyVal (s.bind fun m => t.map fun n => m + n) = polyVal s * polyVal t := by
  unfold polyVal
  rw [Multiset.map_bind, Multiset.sum_bind, ← Multiset.sum_map_mul_right]
  congr 1
  refine Multiset.map_congr rfl fun m _ => ?_
  rw [Multiset.map_map, ← Multiset.sum_map_mul_left]
  simp

theorem polyAbs_mul (s t : Multiset (Multiset ℝ)) : polyAbs (s.bind fun m => t.map fun n => m + n) = polyAbs s * polyAbs t := by
  unfold polyAbs
  rw [Multiset.map_bind, Multiset.sum_bind, ← Multiset.sum_map_mul_right]
  congr 1
  refine Multiset.map_congr rfl fun m _ => ?_
  rw [Multiset.map_map, ← Multiset.sum_map_mul_left]
  simp [abs_mul]

/-- Any evaluation order: with `n` monomials of degree `k` at most `n + k - 2` roundings accumulate. -/
theorem FlPoly.err {eps : ℝ} (he : 0 ≤ eps) {s : Multiset (Multiset ℝ)} {v : ℝ} (h : FlPoly eps s v) :
    ∀ k, (∀ m ∈ s, m.card = k) → 1 ≤ k ∧ |v - polyVal s| ≤ ((1 + eps) ^ (s.card + k - 2) - 1) * polyAbs s := by
  have h1 : (1 : ℝ) ≤ 1 + eps := by linarith
  induction h with
  | leaf x =>
    intro k hk
    have := hk {x} (by simp)
    simp at this
    subst this
    simp [polyVal]
  | @add s t a b v hs ht hv ih1 ih2 =>
    intro k hk
    obtain ⟨k1, a1⟩ := ih1 k fun m hm => hk m (by simp [hm])
    obtain ⟨_, b1⟩ := ih2 k fun m hm => hk m (by simp [hm])
    have hs1 := hs.card_pos
    have ht1 := ht.card_pos
    refine ⟨k1, ?_⟩
    have eV : polyVal (s + t) = polyVal s + polyVal t := by simp [polyVal]
    have eA : polyAbs (s + t) = polyAbs s + polyAbs t := by simp [polyAbs]
    rw [eV, eA]
    set c := (1 + eps) ^ (s.card + t.card + k - 3)
    have c1 : (1 + eps) ^ (s.card + k - 2) ≤ c := pow_le_pow_right₀ h1 (by omega)
    have c2 : (1 + eps) ^ (t.card + k - 2) ≤ c := pow_le_pow_right₀ h1 (by omega)
    have := add_rel (c := c) he (one_le_pow₀ h1) (polyVal_abs s) (polyVal_abs t)
      (a1.trans (mul_le_mul_of_nonneg_right (by linarith) ((abs_nonneg _).trans (polyVal_abs s))))
      (b1.trans (mul_le_mul_of_nonneg_right (by linarith) ((abs_nonneg _).trans (polyVal_abs t)))) hv
    rw [← pow_succ', show s.card + t.card + k - 3 + 1 = (s + t).card + k - 2 by rw [Multiset.card_add]; omega] at this
    exact this
  | @mul s t a b v hs ht hv ih1 ih2 =>
    intro k hk
    have hs1 := hs.card_pos
    have ht1 := ht.card_pos
    obtain ⟨m0, hm0⟩ := Multiset.card_pos_iff_exists_mem.1 hs1
    obtain ⟨n0, hn0⟩ := Multiset.card_pos_iff_exists_mem.1 ht1
    have hk' : ∀ m ∈ s, ∀ n ∈ t, m.card + n.card = k := by
      intro m hm n hn
      rw [← Multiset.card_add]
      exact hk _ (by simp only [Multiset.mem_bind, Multiset.mem_map]; exact ⟨m, hm, n, hn, rfl⟩)
    have h00 := hk' m0 hm0 n0 hn0
    obtain ⟨k1, a1⟩ := ih1 m0.card fun m hm => by have := hk' m hm n0 hn0; omega
    obtain ⟨k2, b1⟩ := ih2 n0.card fun n hn => by have := hk' m0 hm0 n hn; omega
    refine ⟨by omega, ?_⟩
    have := mul_rel he (one_le_pow₀ h1) (one_le_pow₀ h1) (polyVal_abs s) (polyVal_abs t) a1 b1 hv
    rw [polyVal_mul, polyAbs_mul]
    refine this.trans (mul_le_mul_of_nonneg_right ?_ (mul_nonneg ((abs_nonneg _).trans (polyVal_abs s)) ((abs_nonneg _).trans (polyVal_abs t))))
    rw [← pow_add, ← pow_succ']
    have hcard : (s.bind fun m => t.map fun n => m + n).card = s.card * t.card := by
      simp [Multiset.card_bind, Function.comp_def]
    rw [hcard]
    have hm : s.card + t.card ≤ s.card * t.card + 1 := by nlinarith
    have := pow_le_pow_right₀ h1 (show s.card + m0.card - 2 + (t.card + n0.card - 2) + 1 ≤ s.card * t.card + k - 2 by omega)
    linarith

theorem FlSum.err {eps : ℝ} (he : 0 ≤ eps) {s : Multiset (Multiset ℝ)} {v : ℝ} (h : FlSum eps s v) {k : ℕ}
    (hk : ∀ m ∈ s, m.card = k) : |v - polyVal s| ≤ ((1 + eps) ^ (s.card + k - 2) - 1) * polyAbs s := by
  rcases h with ⟨rfl, rfl⟩ | h
  · simp [polyVal, polyAbs]
  · exact (h.err he k hk).2

end Spec

namespace Model

open Finset

/-! ### sums over labels -/

theorem sum_range_list (n : ℕ) (f : ℕ → ℝ) : ∑ x ∈ range n, f x = ((List.range n).map f).sum := by
  induction n with
  | zero => simp
  | succ n ih => rw [sum_range_succ, List.range_succ, List.map_append, List.sum_append, ih]; simp

theorem sumOver_envs (tab : List (Label × ℕ)) (f : (Label → ℕ) → ℝ) (env : Label → ℕ) :
    sumOver tab f env = ((envs tab env).map f).sum := by
  induction tab generalizing env with
  | nil => simp [sumOver, envs]
  | cons p tab ih =>
    obtain ⟨l, n⟩ := p
    simp only [sumOver, envs, List.map_flatMap, ih]
    rw [List.flatMap_def, List.sum_flatten, List.map_map, sum_range_list]
    rfl

theorem envs_length (tab : List (Label × ℕ)) (env : Label → ℕ) : (envs tab env).length = (tab.map Prod.snd).prod := by
  induction tab generalizing env with
  | nil => rfl
  | cons p tab ih =>
    obtain ⟨l, n⟩ := p
    simp only [envs, List.length_flatMap, ih, List.map_cons, List.prod_cons]
    simp

theorem sumOver_diff {tab : List (Label × ℕ)} {f g h : (Label → ℕ) → ℝ} {k : ℝ} (hk : ∀ e, |f e - g e| ≤ k * h e) (env : Label → ℕ) :
    |sumOver tab f env - sumOver tab g env| ≤ k * sumOver tab h env := by
  induction tab generalizing env with
  | nil => exact hk env
  | cons p tab ih =>
    obtain ⟨l, n⟩ := p
    simp only [sumOver]
    rw [← sum_sub_distrib, mul_sum]
    exact (abs_sum_le_sum_abs _ _).trans (sum_le_sum fun x _ => ih _)

theorem sumOver_abs {tab : List (Label × ℕ)} {f h : (Label → ℕ) → ℝ} (hk : ∀ e, |f e| ≤ h e) (env : Label → ℕ) :
    |sumOver tab f env| ≤ sumOver tab h env := by
  induction tab generalizing env with
  | nil => exact hk env
  | cons p tab ih =>
    obtain ⟨l, n⟩ := p
    simp only [sumOver]
    exact (abs_sum_le_sum_abs _ _).trans (sum_le_sum fun x _ => ih _)

theorem sumOver_mono {tab : List (Label × ℕ)} {f h : (Label → ℕ) → ℝ} (hk : ∀ e, f e ≤ h e) (env : Label → ℕ) :
    sumOver tab f env ≤ sumOver tab h env := by
  induction tab generalizing env with
  | nil => exact hk env
  | cons p tab ih =>
    obtain ⟨l, n⟩ := p
    simp only [sumOver]
    exact sum_le_sum fun x _ => ih _

/-! ### evaluation depends on shapes and labels only -/

/-- Shapes and labels of the operands. -/
def shapesOf (ops : List (Tensor ℝ × List Label)) : List (List ℕ × List Label) := ops.map fun o => (o.1.lens, o.2)

theorem opTable_shapes (ops : List (Tensor ℝ × List Label)) :
    (cutOps ops).flatMap opTable = (shapesOf ops).flatMap fun p => (p.2.take p.1.length).zip p.1 := by
  unfold cutOps shapesOf
  rw [List.flatMap_map, List.flatMap_map]
  rfl

theorem contracted_shapes (sc : List Label) (ops : List (Tensor ℝ × List Label)) :
    contracted sc (cutOps ops) = ((((shapesOf ops).flatMap fun p => p.2.take p.1.length).dedup).filter fun l => decide (l ∉ sc)) := by
  unfold contracted cutOps shapesOf
  rw [List.flatMap_map, List.flatMap_map]

theorem sumTab_shapes {lens : List ℕ} {sc : List Label} {ops ops' : List (Tensor ℝ × List Label)} (h : shapesOf ops = shapesOf ops') :
    sumTab lens sc ops = sumTab lens sc ops' := by
  unfold sumTab
  rw [contracted_shapes, contracted_shapes, opTable_shapes, opTable_shapes, h]

theorem einsum_cut {lens : List ℕ} {sc : List Label} {ops : List (Tensor ℝ × List Label)} {C : Tensor ℝ}
    (h : einsum lens sc ops = .ok C) : C = ⟨lens, einsumVal lens (sc.take lens.length) (cutOps ops)⟩ := by
  unfold einsum at h
  split_ifs at h with h1
  simp only at h
  split_ifs at h with h2
  exact (Except.ok.inj h).symm

theorem einsum_shapes {lens : List ℕ} {sc : List Label} {ops ops' : List (Tensor ℝ × List Label)} {C : Tensor ℝ}
    (hs : shapesOf ops = shapesOf ops') (h : einsum lens sc ops = .ok C) :
    einsum lens sc ops' = .ok ⟨lens, einsumVal lens (sc.take lens.length) (cutOps ops')⟩ := by
  have e1 : (∃ o ∈ ops', o.2.length < o.1.lens.length) ↔ ∃ o ∈ ops, o.2.length < o.1.lens.length := by
    have e : ∀ l : List (Tensor ℝ × List Label), (∃ o ∈ l, o.2.length < o.1.lens.length) ↔ ∃ p ∈ shapesOf l, p.2.length < p.1.length := by
      intro l
      simp only [shapesOf, List.mem_map]
      constructor
      · rintro ⟨o, h1, h2⟩; exact ⟨_, ⟨o, h1, rfl⟩, h2⟩
      · rintro ⟨_, ⟨o, h1, rfl⟩, h2⟩; exact ⟨o, h1, h2⟩
    rw [e, e, hs]
  have e2 := opTable_shapes ops
  have e3 := opTable_shapes ops'
  rw [← hs, ← e2] at e3
  unfold einsum at h ⊢
  split_ifs at h with h1
  simp only at h
  split_ifs at h with h2
  rw [if_neg (by rwa [e1])]
  change (if tableOk (_ ++ (cutOps ops').flatMap opTable) = true then _ else _) = _
  rw [e3]
  exact if_pos h2

theorem einsumVal_tab (lens : List ℕ) (sc : List Label) (ops : List (Tensor ℝ × List Label)) (idx : List ℕ) :
    einsumVal lens (sc.take lens.length) (cutOps ops) idx =
      if fits lens idx = true ∧ (sc.take lens.length).map (bindIdx (sc.take lens.length) idx) = idx then
        sumOver (sumTab lens sc ops) (fun env => ((cutOps ops).map fun o => o.1.val (o.2.map env)).prod)
          (bindIdx (sc.take lens.length) idx) else 0 := rfl

/-! ### one contraction -/

/-- `T` approximates `E` with an error of at most `(c-1) A`, where `A` bounds `E`. -/
def RelT (c : ℝ) (E A T : Tensor ℝ) : Prop :=
  E.lens = T.lens ∧ A.lens = T.lens ∧ ∀ idx, |E.val idx| ≤ A.val idx ∧ |T.val idx - E.val idx| ≤ (c - 1) * A.val idx

theorem RelT.exact (T : Tensor ℝ) : RelT 1 T (absT T) T :=
  ⟨rfl, rfl, fun idx => ⟨le_rfl, by simp [absT]⟩⟩

theorem RelT.mono {c c' : ℝ} {E A T : Tensor ℝ} (h : RelT c E A T) (hc : c ≤ c') : RelT c' E A T :=
  ⟨h.1, h.2.1, fun idx => ⟨(h.2.2 idx).1, (h.2.2 idx).2.trans (mul_le_mul_of_nonneg_right (by linarith)
    ((abs_nonneg _).trans (h.2.2 idx).1))⟩⟩

/-- An operand with its exact value, its bound, and the factor. -/
structure Quad where
  E : Tensor ℝ
  A : Tensor ℝ
  T : Tensor ℝ
  lab : List Label
  c : ℝ

theorem prod_rel (l : List (ℝ × ℝ × ℝ × ℝ)) (h : ∀ q ∈ l, 1 ≤ q.2.2.2 ∧ |q.1| ≤ q.2.1 ∧ |q.2.2.1 - q.1| ≤ (q.2.2.2 - 1) * q.2.1) :
    1 ≤ (l.map fun q => q.2.2.2).prod ∧ |(l.map fun q => q.1).prod| ≤ (l.map fun q => q.2.1).prod ∧
      |(l.map fun q => q.2.2.1).prod - (l.map fun q => q.1).prod| ≤
        ((l.map fun q => q.2.2.2).prod - 1) * (l.map fun q => q.2.1).prod := by
  induction l with
  | nil => simp
  | cons q l ih =>
    obtain ⟨a1, a2, a3⟩ := ih fun q hq => h q (by simp [hq])
    obtain ⟨b1, b2, b3⟩ := h q (by simp)
    simp only [List.map_cons, List.prod_cons]
    obtain ⟨e, a, t, c⟩ := q
    simp only at b1 b2 b3 ⊢
    generalize (l.map fun q => q.1).prod = E at *
    generalize (l.map fun q => q.2.1).prod = A at *
    generalize (l.map fun q => q.2.2.1).prod = T at *
    generalize (l.map fun q => q.2.2.2).prod = C at *
    have hA : 0 ≤ A := (abs_nonneg _).trans a2
    have ha : 0 ≤ a := (abs_nonneg _).trans b2
    have hT : |T| ≤ C * A := by
      have := abs_add_le (T - E) E
      rw [sub_add_cancel] at this
      linarith
    refine ⟨by nlinarith, by rw [abs_mul]; exact mul_le_mul b2 a2 (abs_nonneg _) ha, ?_⟩
    have : t * T - e * E = (t - e) * T + e * (T - E) := by ring
    rw [this]
    refine (abs_add_le _ _).trans ?_
    rw [abs_mul, abs_mul]
    have f1 : |t - e| * |T| ≤ ((c - 1) * a) * (C * A) := mul_le_mul b3 hT (abs_nonneg _) (mul_nonneg (by linarith) ha)
    have f2 : |e| * |T - E| ≤ a * ((C - 1) * A) := mul_le_mul b2 a3 (abs_nonneg _) ha
    nlinarith

theorem prod_abs_map {α : Type} (l : List α) (f : α → ℝ) : (l.map fun a => |f a|).prod = |(l.map f).prod| := by
  induction l with
  | nil => simp
  | cons q l ih => simp only [List.map_cons, List.prod_cons, abs_mul, ih]

/-- **One rounded contraction.** If the operands approximate exact ones with factors `c`, the result approximates the exact contraction
with the product of the factors times `1 + u`. -/
theorem ev_rel {B : ℕ} {u : ℝ} {P : Arith} (hP : RoundOk B u P) (hu : 0 ≤ u) {lens : List ℕ} {sc : List Label} {l : List Quad}
    (h0 : l ≠ []) (h3 : l.length ≤ 3) (hl : ∀ q ∈ l, 1 ≤ q.c ∧ RelT q.c q.E q.A q.T) {E' : Tensor ℝ}
    (hE : einsum lens sc (l.map fun q => (q.E, q.lab)) = .ok E') (hB : nTerms lens sc (l.map fun q => (q.E, q.lab)) ≤ B) :
    ∃ A' T', einsum lens sc (l.map fun q => (q.A, q.lab)) = .ok A' ∧ P.ev lens sc (l.map fun q => (q.T, q.lab)) = .ok T' ∧
      RelT ((l.map fun q => q.c).prod * (1 + u)) E' A' T' := by
  have s1 : shapesOf (l.map fun q => (q.E, q.lab)) = shapesOf (l.map fun q => (q.A, q.lab)) := by
    unfold shapesOf
    rw [List.map_map, List.map_map]
    exact List.map_congr_left fun q hq => by simp [(hl q hq).2.1, (hl q hq).2.2.1]
  have s2 : shapesOf (l.map fun q => (q.E, q.lab)) = shapesOf (l.map fun q => (q.T, q.lab)) := by
    unfold shapesOf
    rw [List.map_map, List.map_map]
    exact List.map_congr_left fun q hq => by simp [(hl q hq).2.1]
  have s3 : shapesOf (l.map fun q => (q.E, q.lab)) = shapesOf ((l.map fun q => (q.T, q.lab)).map fun o => (absT o.1, o.2)) := by
    rw [s2]
    unfold shapesOf
    rw [List.map_map, List.map_map, List.map_map]
    rfl
  have eA := einsum_shapes s1 hE
  have eT := einsum_shapes s2 hE
  have eB := einsum_shapes s3 hE
  obtain ⟨T', t1, t2, t3⟩ := hP.ev_ok (by simpa using h0) (by simpa using h3) eT (by unfold nTerms at hB ⊢; rw [← sumTab_shapes s2]; exact hB) eB
  refine ⟨_, T', eA, t1, ?_⟩
  rw [einsum_cut hE] at *
  refine ⟨t2.symm, t2.symm, fun idx => ?_⟩
  have t3 := t3 idx
  simp only at t3 ⊢
  rw [einsumVal_tab, einsumVal_tab] at t3
  rw [einsumVal_tab, einsumVal_tab]
  rw [← sumTab_shapes s2, ← sumTab_shapes s3] at t3
  rw [← sumTab_shapes s1]
  by_cases hc : fits lens idx = true ∧ (sc.take lens.length).map (bindIdx (sc.take lens.length) idx) = idx
  · rw [if_pos hc, if_pos hc] at t3
    rw [if_pos hc, if_pos hc]
    generalize sumTab lens sc (l.map fun q => (q.E, q.lab)) = tab at *
    have key : ∀ env : Label → ℕ,
        1 ≤ (l.map fun q => q.c).prod ∧
        |((cutOps (l.map fun q => (q.E, q.lab))).map fun o => o.1.val (o.2.map env)).prod| ≤
          ((cutOps (l.map fun q => (q.A, q.lab))).map fun o => o.1.val (o.2.map env)).prod ∧
        |((cutOps (l.map fun q => (q.T, q.lab))).map fun o => o.1.val (o.2.map env)).prod -
          ((cutOps (l.map fun q => (q.E, q.lab))).map fun o => o.1.val (o.2.map env)).prod| ≤
          ((l.map fun q => q.c).prod - 1) * ((cutOps (l.map fun q => (q.A, q.lab))).map fun o => o.1.val (o.2.map env)).prod := by
      intro env
      have hh := prod_rel (l.map fun q => (q.E.val ((q.lab.take q.T.lens.length).map env), q.A.val ((q.lab.take q.T.lens.length).map env),
        q.T.val ((q.lab.take q.T.lens.length).map env), q.c)) (by
          intro p hp
          obtain ⟨q, hq, rfl⟩ := List.mem_map.1 hp
          exact ⟨(hl q hq).1, ((hl q hq).2.2.2 _).1, ((hl q hq).2.2.2 _).2⟩)
      unfold cutOps
      simp only [List.map_map, Function.comp_def] at hh ⊢
      have g1 : (l.map fun q => q.E.val ((q.lab.take q.E.lens.length).map env)) =
          l.map fun q => q.E.val ((q.lab.take q.T.lens.length).map env) :=
        List.map_congr_left fun q hq => by rw [(hl q hq).2.1]
      have g2 : (l.map fun q => q.A.val ((q.lab.take q.A.lens.length).map env)) =
          l.map fun q => q.A.val ((q.lab.take q.T.lens.length).map env) :=
        List.map_congr_left fun q hq => by rw [(hl q hq).2.2.1]
      rw [g1, g2]
      exact hh
    have k1 : 1 ≤ (l.map fun q => q.c).prod := (key fun _ => 0).1
    have hab : ∀ env : Label → ℕ,
        ((cutOps ((l.map fun q => (q.T, q.lab)).map fun o => (absT o.1, o.2))).map fun o => o.1.val (o.2.map env)).prod ≤
          (l.map fun q => q.c).prod * ((cutOps (l.map fun q => (q.A, q.lab))).map fun o => o.1.val (o.2.map env)).prod := by
      intro env
      obtain ⟨k2, k3, k4⟩ := key env
      have e : ((cutOps ((l.map fun q => (q.T, q.lab)).map fun o => (absT o.1, o.2))).map fun o => o.1.val (o.2.map env)).prod =
          |((cutOps (l.map fun q => (q.T, q.lab))).map fun o => o.1.val (o.2.map env)).prod| := by
        unfold cutOps
        simp only [List.map_map, Function.comp_def]
        exact prod_abs_map l fun q => q.T.val ((q.lab.take q.T.lens.length).map env)
      rw [e]
      have := abs_add_le (((cutOps (l.map fun q => (q.T, q.lab))).map fun o => o.1.val (o.2.map env)).prod -
        ((cutOps (l.map fun q => (q.E, q.lab))).map fun o => o.1.val (o.2.map env)).prod)
        ((cutOps (l.map fun q => (q.E, q.lab))).map fun o => o.1.val (o.2.map env)).prod
      rw [sub_add_cancel] at this
      linarith
    refine ⟨sumOver_abs (fun e => (key e).2.1) _, ?_⟩
    have d1 := sumOver_diff (tab := tab) (fun e => (key e).2.2) (bindIdx (sc.take lens.length) idx)
    have d2 := sumOver_mono (tab := tab) hab (bindIdx (sc.take lens.length) idx)
    have d3 : sumOver tab (fun env => (l.map fun q => q.c).prod * ((cutOps (l.map fun q => (q.A, q.lab))).map fun o => o.1.val (o.2.map env)).prod)
        (bindIdx (sc.take lens.length) idx) = (l.map fun q => q.c).prod * sumOver tab (fun env =>
          ((cutOps (l.map fun q => (q.A, q.lab))).map fun o => o.1.val (o.2.map env)).prod) (bindIdx (sc.take lens.length) idx) := by
      rw [sumOver_envs, sumOver_envs, List.sum_map_mul_left]
    rw [d3] at d2
    have d4 := mul_le_mul_of_nonneg_left d2 hu
    set SA := sumOver tab (fun env => ((cutOps (l.map fun q => (q.A, q.lab))).map fun o => o.1.val (o.2.map env)).prod)
      (bindIdx (sc.take lens.length) idx)
    set SE := sumOver tab (fun env => ((cutOps (l.map fun q => (q.E, q.lab))).map fun o => o.1.val (o.2.map env)).prod)
      (bindIdx (sc.take lens.length) idx)
    set ST := sumOver tab (fun env => ((cutOps (l.map fun q => (q.T, q.lab))).map fun o => o.1.val (o.2.map env)).prod)
      (bindIdx (sc.take lens.length) idx)
    have d5 := abs_add_le (T'.val idx - ST) (ST - SE)
    rw [sub_add_sub_cancel] at d5
    linarith
  · rw [if_neg hc, if_neg hc] at t3
    rw [if_neg hc, if_neg hc]
    simpa using t3

/-- Floating-point evaluation satisfies the contract. -/
theorem FlEval.roundOk {eps : ℝ} {P : Arith} (he : 0 ≤ eps) (h : FlEval eps P) (B : ℕ) : RoundOk B ((1 + eps) ^ (B + 1) - 1) P where
  ev_ok := by
    intro lens sc ops C A hne h3 hC hB hA
    obtain ⟨C', c1, c2, c3⟩ := h.ev_ok hne hC
    refine ⟨C', c1, c2, fun idx => ?_⟩
    have hs : shapesOf ops = shapesOf (ops.map fun o => (absT o.1, o.2)) := by
      unfold shapesOf
      rw [List.map_map]
      rfl
    have c3 := c3 idx
    rw [einsum_cut hC, einsum_cut hA]
    simp only
    rw [einsumVal_tab, einsumVal_tab, ← sumTab_shapes hs]
    by_cases hc : fits lens idx = true ∧ (sc.take lens.length).map (bindIdx (sc.take lens.length) idx) = idx
    · rw [if_pos hc] at c3
      rw [if_pos hc, if_pos hc, sumOver_envs, sumOver_envs]
      have hk : ∀ m ∈ (((envs (sumTab lens sc ops) (bindIdx (sc.take lens.length) idx)).map fun env =>
          (((cutOps ops).map fun o => o.1.val (o.2.map env) : List ℝ) : Multiset ℝ) : List (Multiset ℝ)) : Multiset (Multiset ℝ)),
          m.card = ops.length := by
        intro m hm
        obtain ⟨e, _, rfl⟩ := List.mem_map.1 (Multiset.mem_coe.1 hm)
        simp [cutOps]
      have e := c3.err he hk
      have e1 : Spec.polyVal (((envs (sumTab lens sc ops) (bindIdx (sc.take lens.length) idx)).map fun env =>
          (((cutOps ops).map fun o => o.1.val (o.2.map env) : List ℝ) : Multiset ℝ) : List (Multiset ℝ)) : Multiset (Multiset ℝ)) =
          ((envs (sumTab lens sc ops) (bindIdx (sc.take lens.length) idx)).map fun env =>
            ((cutOps ops).map fun o => o.1.val (o.2.map env)).prod).sum := by
        simp [Spec.polyVal, Function.comp_def]
      have e2 : Spec.polyAbs (((envs (sumTab lens sc ops) (bindIdx (sc.take lens.length) idx)).map fun env =>
          (((cutOps ops).map fun o => o.1.val (o.2.map env) : List ℝ) : Multiset ℝ) : List (Multiset ℝ)) : Multiset (Multiset ℝ)) =
          ((envs (sumTab lens sc ops) (bindIdx (sc.take lens.length) idx)).map fun env =>
            ((cutOps (ops.map fun o => (absT o.1, o.2))).map fun o => o.1.val (o.2.map env)).prod).sum := by
        simp only [Spec.polyAbs, Multiset.map_coe, Multiset.sum_coe, List.map_map, Function.comp_def, Multiset.prod_coe]
        congr 1
        refine List.map_congr_left fun env _ => ?_
        unfold cutOps
        simp only [List.map_map, Function.comp_def]
        exact (prod_abs_map ops fun o => o.1.val ((o.2.take o.1.lens.length).map env)).symm
      rw [e1, e2] at e
      refine e.trans (mul_le_mul_of_nonneg_right (sub_le_sub_right (pow_le_pow_right₀ (by linarith) ?_) _) ?_)
      · simp only [Multiset.coe_card, List.length_map, envs_length]
        unfold nTerms at hB
        omega
      · rw [← e2]
        exact (abs_nonneg _).trans (Spec.polyVal_abs _)
    · rw [if_neg hc] at c3
      rw [if_neg hc, if_neg hc, c3]
      simp
  zp_ok := by
    intro f A B' C hf hC
    obtain ⟨C', c1, c2, c3⟩ := h.zp_ok hf hC
    refine ⟨C', c1, c2, fun idx => (c3 idx).trans (mul_le_mul_of_nonneg_right ?_ (abs_nonneg _))⟩
    have : (1 + eps) ^ 1 ≤ (1 + eps) ^ (B + 1) := pow_le_pow_right₀ (by linarith) (by omega)
    rw [pow_one] at this
    linarith

theorem RoundOk.exact (B : ℕ) : RoundOk B 0 .exact where
  ev_ok := fun _ _ h _ _ => ⟨_, h, rfl, fun _ => by simp⟩
  zp_ok := fun _ h => ⟨_, h, rfl, fun _ => by simp⟩

/-! ### number of summands -/

theorem extent_le {tab : List (Label × ℕ)} {B : ℕ} (h : ∀ p ∈ tab, p.2 ≤ B) (l : Label) : extent tab l ≤ B := by
  unfold extent
  induction tab with
  | nil => simp
  | cons p tab ih =>
    obtain ⟨a, n⟩ := p
    simp only [List.lookup]
    cases (l == a) with
    | true => simpa using h (a, n) (by simp)
    | false => exact ih fun p hp => h p (by simp [hp])

/-- At most one summed label, extents at most `B`. -/
theorem nTerms_le {lens : List ℕ} {sc : List Label} {ops : List (Tensor ℝ × List Label)} {B : ℕ} (hB : 1 ≤ B) (l : Label)
    (h1 : ∀ o ∈ ops, ∀ l' ∈ o.2.take o.1.lens.length, l' ∉ sc.take lens.length → l' = l) (h2 : ∀ o ∈ ops, ∀ n ∈ o.1.lens, n ≤ B) :
    nTerms lens sc ops ≤ B := by
  have hext : ∀ l, extent ((cutOps ops).flatMap opTable) l ≤ B := by
    intro l
    apply extent_le
    intro p hp
    obtain ⟨o, ho, hp⟩ := List.mem_flatMap.1 hp
    obtain ⟨q, hq, rfl⟩ := List.mem_map.1 ho
    exact h2 q hq _ (List.of_mem_zip hp).2
  unfold nTerms sumTab
  have hall : ∀ l' ∈ contracted (sc.take lens.length) (cutOps ops), l' = l := by
    intro l' hl'
    obtain ⟨⟨o, ho, h⟩, hn⟩ := mem_contracted.1 hl'
    obtain ⟨q, hq, rfl⟩ := List.mem_map.1 ho
    exact h1 q hq l' h hn
  have hnd := contracted_nodup (sc.take lens.length) (cutOps ops)
  generalize contracted (sc.take lens.length) (cutOps ops) = c at *
  match c, hnd, hall with
  | [], _, _ => simpa using hB
  | [a], _, _ => simpa using hext a
  | a :: b :: t, hnd, hall =>
    have ha := hall a (by simp)
    have hb := hall b (by simp)
    subst ha; subst hb; simp at hnd

end Model
