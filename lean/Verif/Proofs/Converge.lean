import Verif.Proofs.Monotone
import Mathlib.Algebra.Order.BigOperators.Ring.Finset
import Mathlib.Data.Real.Sqrt
import Mathlib.Tactic.Positivity

/-! # Sufficient decrease of ALS: the recorded gradient is bounded by the decrease of the objective -/

namespace Spec

open Finset

variable {N : ℕ} {dims : Fin N → ℕ} {R : ℕ} {V : (Fin N → ℕ) → ℝ} {W : Fin N → ℕ → ℕ → ℝ} {i : Fin N} {lam : ℝ}

theorem normalMat_update (X : ℕ → ℕ → ℝ) : normalMat dims R lam (Function.update W i X) i = normalMat dims R lam W i := by
  unfold normalMat gramExcept
  funext a b
  congr 1
  funext a b
  congr 1
  exact prod_congr rfl fun j hj => by rw [Function.update_of_ne (ne_of_mem_erase hj)]

theorem mttkrp_update (X : ℕ → ℕ → ℝ) : mttkrp dims V (Function.update W i X) i = mttkrp dims V W i := by
  unfold mttkrp
  funext a b
  refine sum_congr rfl fun idx _ => ?_
  congr 1
  exact prod_congr rfl fun j hj => by rw [Function.update_of_ne (ne_of_mem_erase hj)]

theorem modelChange_update (X D : ℕ → ℕ → ℝ) (idx : Fin N → ℕ) :
    modelChange R (Function.update W i X) i D idx = modelChange R W i D idx := by
  unfold modelChange
  refine sum_congr rfl fun r _ => ?_
  congr 1
  exact prod_congr rfl fun j hj => by rw [Function.update_of_ne (ne_of_mem_erase hj)]

/-- Exact decrease of the objective when a factor is replaced by a solution of its normal equations. -/
theorem update_decrease {X : ℕ → ℕ → ℝ}
    (hX : Solves (dims i) R X (normalMat dims R lam W i) (mttkrp dims V W i)) :
    fullObj2 dims R lam V W - fullObj2 dims R lam V (Function.update W i X) =
      ∑ idx ∈ Box dims, modelChange R W i (fun x r => W i x r - X x r) idx ^ 2 +
        lam * frob (dims i) R (fun x r => W i x r - X x r) (fun x r => W i x r - X x r) := by
  have hg : ∀ x r, alsGrad dims R lam V (Function.update W i X) i x r = 0 := by
    intro x r
    unfold alsGrad clip
    split_ifs with h
    · rw [normalMat_update, mttkrp_update, Function.update_self]
      simp only
      rw [hX x h.1 r h.2]; ring
    · rfl
  have e := modeObj2_expand (dims := dims) (R := R) (V := V) (W := Function.update W i X) (i := i) lam
    (fun x r => W i x r - X x r)
  rw [Function.update_self, Function.update_idem] at e
  have hY : (fun x r => X x r + (W i x r - X x r)) = W i := by funext x r; ring
  rw [hY, Function.update_eq_self] at e
  have h0 : frob (dims i) R (alsGrad dims R lam V (Function.update W i X) i) (fun x r => W i x r - X x r) = 0 := by
    unfold frob
    exact sum_eq_zero fun x _ => sum_eq_zero fun r _ => by rw [hg]; ring
  rw [h0] at e
  simp_rw [modelChange_update] at e
  rw [fullObj2_eq lam W i, fullObj2_eq lam (Function.update W i X) i, e]
  have : ∑ j ∈ univ.erase i, frob (dims j) R (Function.update W i X j) (Function.update W i X j) =
      ∑ j ∈ univ.erase i, frob (dims j) R (W j) (W j) :=
    sum_congr rfl fun j hj => by rw [Function.update_of_ne (ne_of_mem_erase hj)]
  rw [this]
  ring

/-- The recorded gradient is `(W_i - X) S`. -/
theorem grad_eq_change {X : ℕ → ℕ → ℝ}
    (hX : Solves (dims i) R X (normalMat dims R lam W i) (mttkrp dims V W i)) {x r : ℕ} (hx : x < dims i) (hr : r < R) :
    alsGrad dims R lam V W i x r =
      ∑ idx ∈ Box dims with idx i = x, modelChange R W i (fun x r => W i x r - X x r) idx *
          (∏ j ∈ univ.erase i, W j (idx j) r) + lam * (W i x r - X x r) := by
  have h1 : alsGrad dims R lam V W i x r = ∑ k ∈ range R, (W i x k - X x k) * normalMat dims R lam W i k r := by
    unfold alsGrad
    rw [clip_of hx hr]
    rw [← hX x hx r hr]
    simp_rw [sub_mul]
    rw [sum_sub_distrib]
    ring
  have h2 : ∑ k ∈ range R, (W i x k - X x k) * normalMat dims R lam W i k r =
      ∑ k ∈ range R, (W i x k - X x k) * gramExcept dims W i k r + (W i x r - X x r) * lam := by
    rw [← Finset.sum_ite_eq' (range R) r (fun k => (W i x k - X x k) * lam) |>.trans (if_pos (mem_range.2 hr)),
      ← sum_add_distrib]
    refine sum_congr rfl fun k hk => ?_
    rw [mem_range] at hk
    simp only [normalMat, clip, hk, hr, and_self, if_true]
    split_ifs <;> ring
  rw [h1, h2, mul_comm lam]
  congr 1
  have : ∀ idx ∈ (Box dims).filter (fun idx => idx i = x),
      modelChange R W i (fun x r => W i x r - X x r) idx * (∏ j ∈ univ.erase i, W j (idx j) r) =
      ∑ k ∈ range R, (W i x k - X x k) *
        ((∏ j ∈ univ.erase i, W j (idx j) k) * (∏ j ∈ univ.erase i, W j (idx j) r)) := by
    intro idx hidx
    have e : idx i = x := (mem_filter.1 hidx).2
    unfold modelChange
    rw [e, sum_mul]
    exact sum_congr rfl fun k _ => by ring
  rw [sum_congr rfl this, sum_comm]
  refine sum_congr rfl fun k _ => ?_
  rw [← mul_sum, slice_gram hx]

theorem reg_cauchy {a p q c lam : ℝ} (hl : 0 ≤ lam) (hp : 0 ≤ p) (hq : 0 ≤ q) (h : a ^ 2 ≤ p * q) :
    (a + lam * c) ^ 2 ≤ (p + lam) * (q + lam * c ^ 2) := by
  have h1 : 2 * (a * c) ≤ p * c ^ 2 + q := by
    have h2 : (2 * (a * c)) ^ 2 ≤ (p * c ^ 2 + q) ^ 2 := by
      have := mul_le_mul_of_nonneg_right h (sq_nonneg c)
      nlinarith [sq_nonneg (p * c ^ 2 - q)]
    exact le_of_abs_le ((sq_le_sq.1 h2).trans (le_of_eq (abs_of_nonneg (by positivity))))
  nlinarith [mul_le_mul_of_nonneg_left h1 hl]

/-- Sum over the columns of the product of their squared norms is at most the product of the squared norms. -/
theorem sum_prod_le_prod_sum {ι : Type*} [DecidableEq ι] {s : Finset ι} (hs : s.Nonempty) (a : ι → ℕ → ℝ)
    (ha : ∀ j r, 0 ≤ a j r) : ∑ r ∈ range R, ∏ j ∈ s, a j r ≤ ∏ j ∈ s, ∑ r ∈ range R, a j r := by
  induction hs using Finset.Nonempty.cons_induction with
  | singleton j => simp
  | cons j s hj hs ih =>
    simp only [prod_cons]
    have h0 : ∀ r ∈ range R, 0 ≤ ∏ j ∈ s, a j r := fun r _ => prod_nonneg fun k _ => ha k r
    calc ∑ r ∈ range R, a j r * ∏ j ∈ s, a j r
        ≤ ∑ r ∈ range R, a j r * ∑ r ∈ range R, ∏ j ∈ s, a j r :=
          sum_le_sum fun r hr => mul_le_mul_of_nonneg_left (single_le_sum h0 hr) (ha j r)
      _ = (∑ r ∈ range R, a j r) * ∑ r ∈ range R, ∏ j ∈ s, a j r := by rw [sum_mul]
      _ ≤ _ := mul_le_mul_of_nonneg_left ih (sum_nonneg fun r _ => ha j r)

theorem trace_le (h2 : 2 ≤ N) {B : ℝ} (hB : ∀ j, frob (dims j) R (W j) (W j) ≤ B) :
    ∑ r ∈ range R, gramExcept dims W i r r ≤ B ^ (N - 1) := by
  have hne : (univ.erase i : Finset (Fin N)).Nonempty := by
    rw [← card_pos, card_erase_of_mem (mem_univ _), card_univ, Fintype.card_fin]
    omega
  unfold gramExcept
  refine (sum_prod_le_prod_sum hne (fun j r => gram (dims j) (W j) r r)
    (fun j r => sum_nonneg fun _ _ => mul_self_nonneg _)).trans ?_
  have h : ∀ j ∈ univ.erase i, ∑ r ∈ range R, gram (dims j) (W j) r r ≤ B := by
    intro j _
    refine le_trans (le_of_eq ?_) (hB j)
    unfold gram frob
    rw [sum_comm]
  refine (prod_le_prod (fun j _ => sum_nonneg fun r _ => sum_nonneg fun _ _ => mul_self_nonneg _) h).trans ?_
  rw [prod_const, card_erase_of_mem (mem_univ _), card_univ, Fintype.card_fin]

/-- The recorded gradient of an update is bounded by the decrease of the objective. -/
theorem grad_le_decrease (h2 : 2 ≤ N) (hl : 0 ≤ lam) {X : ℕ → ℕ → ℝ} {B : ℝ}
    (hB : ∀ j, frob (dims j) R (W j) (W j) ≤ B)
    (hX : Solves (dims i) R X (normalMat dims R lam W i) (mttkrp dims V W i)) :
    frob (dims i) R (alsGrad dims R lam V W i) (alsGrad dims R lam V W i) ≤
      (B ^ (N - 1) + R * lam) *
        (fullObj2 dims R lam V W - fullObj2 dims R lam V (Function.update W i X)) := by
  rw [update_decrease hX]
  set D : ℕ → ℕ → ℝ := fun x r => W i x r - X x r with hD
  have htr := trace_le (i := i) h2 hB
  have hgn : ∀ r, 0 ≤ gramExcept dims W i r r := fun r => prod_nonneg fun j _ => sum_nonneg fun _ _ => mul_self_nonneg _
  have hrow : ∀ x ∈ range (dims i), ∑ r ∈ range R, alsGrad dims R lam V W i x r * alsGrad dims R lam V W i x r ≤
      (B ^ (N - 1) + R * lam) * (∑ idx ∈ Box dims with idx i = x, modelChange R W i D idx ^ 2 +
        lam * ∑ r ∈ range R, D x r * D x r) := by
    intro x hx
    rw [mem_range] at hx
    set q := ∑ idx ∈ Box dims with idx i = x, modelChange R W i D idx ^ 2 with hq
    have hq0 : 0 ≤ q := sum_nonneg fun _ _ => sq_nonneg _
    have hent : ∀ r ∈ range R, alsGrad dims R lam V W i x r * alsGrad dims R lam V W i x r ≤
        (gramExcept dims W i r r + lam) * (q + lam * ∑ r ∈ range R, D x r * D x r) := by
      intro r hr
      rw [grad_eq_change hX hx (mem_range.1 hr), ← sq]
      refine (reg_cauchy hl (hgn r) hq0 ?_).trans ?_
      · rw [← slice_gram hx, mul_comm]
        simp_rw [← sq]
        exact sum_mul_sq_le_sq_mul_sq _ _ _
      · refine mul_le_mul_of_nonneg_left ?_ (add_nonneg (hgn r) hl)
        have := single_le_sum (f := fun r => D x r * D x r) (fun r _ => mul_self_nonneg _) hr
        have := mul_le_mul_of_nonneg_left this hl
        rw [sq]
        simp only [hD] at this ⊢
        linarith
    refine (sum_le_sum hent).trans ?_
    rw [← sum_mul, sum_add_distrib, sum_const, card_range, nsmul_eq_mul]
    refine mul_le_mul_of_nonneg_right (by linarith) ?_
    exact add_nonneg hq0 (mul_nonneg hl (sum_nonneg fun _ _ => mul_self_nonneg _))
  unfold frob
  refine (sum_le_sum hrow).trans (le_of_eq ?_)
  rw [← mul_sum, sum_add_distrib, ← mul_sum, ← sum_box_slices i]

/-- The factor norms are bounded by the objective. -/
theorem frob_le_obj (hl : 0 < lam) (j : Fin N) :
    frob (dims j) R (W j) (W j) ≤ fullObj2 dims R lam V W / lam := by
  rw [le_div_iff₀ hl]
  unfold fullObj2
  have h1 : 0 ≤ resid2 dims R V W := sum_nonneg fun _ _ => sq_nonneg _
  have h2 := single_le_sum (f := fun j => frob (dims j) R (W j) (W j)) (fun j _ => frob_self_nonneg (dims j) R (W j))
    (mem_univ j)
  have := mul_le_mul_of_nonneg_left h2 hl.le
  linarith

theorem fullObj2_nonneg (hl : 0 ≤ lam) : 0 ≤ fullObj2 dims R lam V W :=
  add_nonneg (sum_nonneg fun _ _ => sq_nonneg _)
    (mul_nonneg hl (sum_nonneg fun j _ => frob_self_nonneg (dims j) R (W j)))

/-- The entries of a factor change by at most `√(decrease / lam)` in an update. -/
theorem entry_change (hl : 0 < lam) {X : ℕ → ℕ → ℝ}
    (hX : Solves (dims i) R X (normalMat dims R lam W i) (mttkrp dims V W i)) {x r : ℕ} (hx : x < dims i) (hr : r < R) :
    |X x r - W i x r| ≤
      Real.sqrt ((fullObj2 dims R lam V W - fullObj2 dims R lam V (Function.update W i X)) / lam) := by
  rw [update_decrease hX]
  apply Real.le_sqrt_of_sq_le
  rw [sq_abs, le_div_iff₀ hl]
  have h1 : 0 ≤ ∑ idx ∈ Box dims, modelChange R W i (fun x r => W i x r - X x r) idx ^ 2 :=
    sum_nonneg fun _ _ => sq_nonneg _
  have h2 : (W i x r - X x r) * (W i x r - X x r) ≤
      frob (dims i) R (fun x r => W i x r - X x r) (fun x r => W i x r - X x r) := by
    unfold frob
    refine le_trans ?_ (single_le_sum (f := fun x => ∑ r ∈ range R, (W i x r - X x r) * (W i x r - X x r))
      (fun x _ => sum_nonneg fun _ _ => mul_self_nonneg _) (mem_range.2 hx))
    exact single_le_sum (f := fun r => (W i x r - X x r) * (W i x r - X x r)) (fun _ _ => mul_self_nonneg _)
      (mem_range.2 hr)
  have h3 := mul_le_mul_of_nonneg_left h2 hl.le
  have : (X x r - W i x r) ^ 2 * lam = lam * ((W i x r - X x r) * (W i x r - X x r)) := by ring
  linarith

section run

variable {solve : Solver ℝ}

theorem alsRun_append (l1 l2 : List (Fin N)) (st : AlsState N ℝ) :
    alsRun dims R lam solve V (l1 ++ l2) st = alsRun dims R lam solve V l2 (alsRun dims R lam solve V l1 st) := by
  unfold alsRun; rw [List.foldl_append]

/-- A run of updates: the recorded gradients of all modes it touches are bounded by the decrease of the objective. -/
theorem alsRun_grads (h2 : 2 ≤ N) (hl : 0 < lam)
    (h : ∀ W i, Solves (dims i) R (alsFactor dims R lam solve V W i) (normalMat dims R lam W i) (mttkrp dims V W i))
    {f0 : ℝ} (modes : List (Fin N)) (st : AlsState N ℝ) (hf : fullObj2 dims R lam V st.W ≤ f0) :
    ∑ j ∈ modes.toFinset, frob (dims j) R ((alsRun dims R lam solve V modes st).G j)
        ((alsRun dims R lam solve V modes st).G j) ≤
      ((f0 / lam) ^ (N - 1) + R * lam) *
        (fullObj2 dims R lam V st.W - fullObj2 dims R lam V (alsRun dims R lam solve V modes st).W) := by
  induction modes using List.reverseRecOn with
  | nil => simp [alsRun]
  | append_singleton l i ih =>
    rw [alsRun_append]
    set mid := alsRun dims R lam solve V l st with hmid
    have hm : fullObj2 dims R lam V mid.W ≤ f0 := (alsRun_mono hl.le h l st).trans hf
    have hb : ∀ j, frob (dims j) R (mid.W j) (mid.W j) ≤ f0 / lam := fun j =>
      (frob_le_obj (V := V) hl j).trans (div_le_div_of_nonneg_right hm hl.le)
    have hi := grad_le_decrease h2 hl.le hb (h mid.W i)
    have e : alsRun dims R lam solve V [i] mid = alsUpdate dims R lam solve V mid i := rfl
    rw [e]
    have hset : (l ++ [i]).toFinset = insert i (l.toFinset.erase i) := by
      ext j; simp only [List.mem_toFinset, List.mem_append, List.mem_singleton, mem_insert, mem_erase]
      tauto
    rw [hset, sum_insert (by simp)]
    have h1 : ∑ j ∈ l.toFinset.erase i, frob (dims j) R ((alsUpdate dims R lam solve V mid i).G j)
        ((alsUpdate dims R lam solve V mid i).G j) = ∑ j ∈ l.toFinset.erase i, frob (dims j) R (mid.G j) (mid.G j) :=
      sum_congr rfl fun j hj => by
        simp only [alsUpdate]
        rw [Function.update_of_ne (ne_of_mem_erase hj)]
    have h3 : ∑ j ∈ l.toFinset.erase i, frob (dims j) R (mid.G j) (mid.G j) ≤
        ∑ j ∈ l.toFinset, frob (dims j) R (mid.G j) (mid.G j) :=
      sum_le_sum_of_subset_of_nonneg (erase_subset _ _) fun j _ _ => frob_self_nonneg _ _ _
    rw [h1]
    simp only [alsUpdate, Function.update_self] at hi ⊢
    refine (add_le_add hi (h3.trans ih)).trans (le_of_eq ?_)
    ring

/-- A run changes the entries of the factors by at most its length times `√(decrease / lam)`. -/
theorem alsRun_entries (hl : 0 < lam)
    (h : ∀ W i, Solves (dims i) R (alsFactor dims R lam solve V W i) (normalMat dims R lam W i) (mttkrp dims V W i))
    (modes : List (Fin N)) (st : AlsState N ℝ) (j : Fin N) {x r : ℕ} (hx : x < dims j) (hr : r < R) :
    |(alsRun dims R lam solve V modes st).W j x r - st.W j x r| ≤ modes.length *
      Real.sqrt ((fullObj2 dims R lam V st.W - fullObj2 dims R lam V (alsRun dims R lam solve V modes st).W) / lam) := by
  induction modes generalizing st with
  | nil => simp [alsRun]
  | cons i l ih =>
    set mid := alsUpdate dims R lam solve V st i with hmid
    have e : alsRun dims R lam solve V (i :: l) st = alsRun dims R lam solve V l mid := rfl
    rw [e]
    set fin := alsRun dims R lam solve V l mid with hfin
    have m1 : fullObj2 dims R lam V mid.W ≤ fullObj2 dims R lam V st.W := fullObj2_update_le hl.le (h st.W i)
    have m2 : fullObj2 dims R lam V fin.W ≤ fullObj2 dims R lam V mid.W := alsRun_mono hl.le h l mid
    have a1 : |mid.W j x r - st.W j x r| ≤ Real.sqrt ((fullObj2 dims R lam V st.W - fullObj2 dims R lam V fin.W) / lam) := by
      by_cases hj : j = i
      · subst hj
        have := entry_change hl (h st.W j) hx hr
        simp only [hmid, alsUpdate, Function.update_self]
        refine this.trans (Real.sqrt_le_sqrt (div_le_div_of_nonneg_right ?_ hl.le))
        have m2' : fullObj2 dims R lam V fin.W ≤
          fullObj2 dims R lam V (Function.update st.W j (alsFactor dims R lam solve V st.W j)) := m2
        linarith
      · simp only [hmid, alsUpdate]
        rw [Function.update_of_ne hj]
        simp [Real.sqrt_nonneg]
    have a2 : |fin.W j x r - mid.W j x r| ≤
        l.length * Real.sqrt ((fullObj2 dims R lam V st.W - fullObj2 dims R lam V fin.W) / lam) := by
      refine (ih mid).trans (mul_le_mul_of_nonneg_left (Real.sqrt_le_sqrt
        (div_le_div_of_nonneg_right ?_ hl.le)) (Nat.cast_nonneg _))
      linarith
    have := abs_sub_le (fin.W j x r) (mid.W j x r) (st.W j x r)
    rw [List.length_cons]
    push_cast
    linarith

end run

/-- Abstract stopping argument: a sequence whose squares are bounded by the decrease over two steps of a nonnegative
non-increasing sequence falls below any tolerance, within an explicit number of tests made every `s` steps. -/
theorem stop_within {g F : ℕ → ℝ} {L tol : ℝ} (hL : 0 ≤ L) (hF : ∀ k, F (k + 1) ≤ F k) (hF0 : ∀ k, 0 ≤ F k)
    (hg0 : ∀ k, 0 ≤ g k) (hg : ∀ k, g (k + 2) ^ 2 ≤ L * (F k - F (k + 2))) (ht : 0 < tol) {s : ℕ} (hs : 1 ≤ s) :
    ∃ m : ℕ, (m : ℝ) ≤ 2 * L * F 0 / tol ^ 2 + 2 ∧ g (m * s) < tol := by
  by_contra hcon
  push_neg at hcon
  have hanti : Antitone F := antitone_nat_of_succ_le hF
  set M : ℕ := ⌊2 * L * F 0 / tol ^ 2⌋₊ + 1 with hM
  have hq : 0 ≤ 2 * L * F 0 / tol ^ 2 := div_nonneg (mul_nonneg (by linarith) (hF0 0)) (sq_nonneg _)
  have hfl : (⌊2 * L * F 0 / tol ^ 2⌋₊ : ℝ) ≤ 2 * L * F 0 / tol ^ 2 := Nat.floor_le hq
  have hlow : ∀ m < M, tol ^ 2 ≤ L * (F (m * s) - F ((m + 2) * s)) := by
    intro m hm
    have h1 := hcon (m + 2) (by
      have : (m : ℝ) ≤ ⌊2 * L * F 0 / tol ^ 2⌋₊ := by exact_mod_cast Nat.lt_succ_iff.1 hm
      push_cast
      linarith)
    obtain ⟨k, hk⟩ : ∃ k, (m + 2) * s = k + 2 := ⟨(m + 2) * s - 2, by
      have : 2 * 1 ≤ (m + 2) * s := Nat.mul_le_mul (by omega) hs
      omega⟩
    have h2 := hg k
    rw [← hk] at h2
    have h3 : F k ≤ F (m * s) := hanti (by
      have : (m + 2) * s = m * s + 2 * s := by ring
      omega)
    have h4 : tol ^ 2 ≤ g ((m + 2) * s) ^ 2 := pow_le_pow_left₀ ht.le h1 2
    refine (h4.trans h2).trans (mul_le_mul_of_nonneg_left (by linarith) hL)
  have hsum : (M : ℝ) * tol ^ 2 ≤ L * ∑ m ∈ range M, (F (m * s) - F ((m + 2) * s)) := by
    rw [mul_sum]
    calc (M : ℝ) * tol ^ 2 = ∑ _m ∈ range M, tol ^ 2 := by simp
      _ ≤ _ := sum_le_sum fun m hm => hlow m (mem_range.1 hm)
  have htel : ∀ n, ∑ m ∈ range n, (F (m * s) - F ((m + 2) * s)) = F 0 + F s - F (n * s) - F ((n + 1) * s) := by
    intro n
    induction n with
    | zero => simp
    | succ n ih => rw [sum_range_succ, ih]; ring
  rw [htel] at hsum
  have h5 : F 0 + F s - F (M * s) - F ((M + 1) * s) ≤ 2 * F 0 := by
    have := hanti (Nat.zero_le s)
    linarith [hF0 (M * s), hF0 ((M + 1) * s)]
  have h6 := mul_le_mul_of_nonneg_left h5 hL
  have h7 : (M : ℝ) ≤ 2 * L * F 0 / tol ^ 2 := by
    rw [le_div_iff₀ (by positivity)]
    linarith
  have h8 : 2 * L * F 0 / tol ^ 2 < M := by rw [hM]; exact_mod_cast Nat.lt_floor_add_one _
  linarith

end Spec
