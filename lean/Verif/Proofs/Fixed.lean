import Verif.Proofs.Converge
import Verif.Proofs.PPSpec
import Verif.Properties.Objective

/-! # Fixed points of ALS -/

namespace Spec

open Finset

variable {N : ℕ} {dims : Fin N → ℕ} {R : ℕ} {V : (Fin N → ℕ) → ℝ} {W W' : Fin N → ℕ → ℕ → ℝ} {i : Fin N} {lam : ℝ}
  {solve : Solver ℝ}

/-- The factors have the same entries. -/
def FacEq (dims : Fin N → ℕ) (R : ℕ) (W W' : Fin N → ℕ → ℕ → ℝ) : Prop :=
  ∀ j, ∀ x < dims j, ∀ r < R, W j x r = W' j x r

theorem gramExcept_congr (h : FacEq dims R W W') {a b : ℕ} (ha : a < R) (hb : b < R) :
    gramExcept dims W i a b = gramExcept dims W' i a b := by
  unfold gramExcept gram
  refine prod_congr rfl fun j _ => sum_congr rfl fun x hx => ?_
  rw [h j x (mem_range.1 hx) a ha, h j x (mem_range.1 hx) b hb]

theorem normalMat_congr (h : FacEq dims R W W') : normalMat dims R lam W i = normalMat dims R lam W' i := by
  unfold normalMat
  funext a b
  unfold clip
  split_ifs with hab
  · beta_reduce
    rw [gramExcept_congr h hab.1 hab.2]
  · rfl

theorem alsGrad_congr (h : FacEq dims R W W') : alsGrad dims R lam V W i = alsGrad dims R lam V W' i := by
  unfold alsGrad
  funext x r
  unfold clip
  split_ifs with hx
  · beta_reduce
    rw [mttkrp_congr (fun j _ y hy => h j y hy r hx.2), normalMat_congr h]
    congr 1
    exact sum_congr rfl fun k hk => by rw [h i x hx.1 k (mem_range.1 hk)]
  · rfl

theorem fullObj2_congr (h : FacEq dims R W W') : fullObj2 dims R lam V W = fullObj2 dims R lam V W' := by
  unfold fullObj2 resid2 recon frob
  congr 1
  · refine sum_congr rfl fun idx hidx => ?_
    congr 2
    exact sum_congr rfl fun r hr => prod_congr rfl fun j _ => h j _ (mem_Box.1 hidx j) r (mem_range.1 hr)
  · congr 1
    refine sum_congr rfl fun j _ => sum_congr rfl fun x hx => sum_congr rfl fun r hr => ?_
    rw [h j x (mem_range.1 hx) r (mem_range.1 hr)]

/-- A positive definite system has at most one solution. -/
theorem solves_unique {n : ℕ} {X Y S M : ℕ → ℕ → ℝ} (hS : PosDef R S) (hX : Solves n R X S M) (hY : Solves n R Y S M) :
    ∀ x < n, ∀ r < R, X x r = Y x r := by
  intro x hx r hr
  by_contra hne
  have hpos := hS.2 (fun a => X x a - Y x a) ⟨r, hr, sub_ne_zero.2 hne⟩
  have h0 : ∑ a ∈ range R, ∑ b ∈ range R, (X x a - Y x a) * S a b * (X x b - Y x b) = 0 := by
    rw [sum_comm]
    refine sum_eq_zero fun b hb => ?_
    rw [← sum_mul]
    have : ∑ a ∈ range R, (X x a - Y x a) * S a b = 0 := by
      simp_rw [sub_mul]
      rw [sum_sub_distrib, hX x hx b (mem_range.1 hb), hY x hx b (mem_range.1 hb), sub_self]
    rw [this, zero_mul]
  linarith

theorem grad_zero_iff : (∀ x r, alsGrad dims R lam V W i x r = 0) ↔
    Solves (dims i) R (W i) (normalMat dims R lam W i) (mttkrp dims V W i) := by
  constructor
  · intro h x hx r hr
    have := h x r
    unfold alsGrad at this
    rw [clip_of hx hr] at this
    linarith
  · intro h x r
    unfold alsGrad clip
    split_ifs with hx
    · beta_reduce
      rw [h x hx.1 r hx.2]; ring
    · rfl

/-- The update of a mode whose gradient vanishes and whose normal matrix is positive definite changes nothing. -/
theorem alsFactor_fixed (hsv : SolvesPosDef solve) (hpd : 0 < dims i → PosDef R (normalMat dims R lam W i))
    (hg : ∀ x r, alsGrad dims R lam V W i x r = 0) :
    ∀ x < dims i, ∀ r < R, alsFactor dims R lam solve V W i x r = W i x r := by
  intro x hx r hr
  have hp := hpd (by omega)
  have hX : Solves (dims i) R (alsFactor dims R lam solve V W i) (normalMat dims R lam W i) (mttkrp dims V W i) :=
    (hsv (dims i) R (clip (dims i) R (mttkrp dims V W i)) _ hp).congr (fun x hx r hr => clip_of hx hr)
      fun x hx r hr => (clip_of hx hr).symm
  exact solves_unique hp hX (grad_zero_iff.1 hg) x hx r hr

/-- A run of updates started at a stationary point stays there, and records zero gradients. -/
theorem alsRun_fixed (hsv : SolvesPosDef solve) (hpd : ∀ i, 0 < dims i → PosDef R (normalMat dims R lam W i))
    (hg : ∀ i x r, alsGrad dims R lam V W i x r = 0) (modes : List (Fin N)) (st : AlsState N ℝ) (h0 : FacEq dims R st.W W) :
    FacEq dims R (alsRun dims R lam solve V modes st).W W ∧
      ∀ i ∈ modes, ∀ x r, (alsRun dims R lam solve V modes st).G i x r = 0 := by
  induction modes using List.reverseRecOn with
  | nil => exact ⟨h0, by simp⟩
  | append_singleton l i ih =>
    rw [alsRun_append]
    set mid := alsRun dims R lam solve V l st
    have e : alsRun dims R lam solve V [i] mid = alsUpdate dims R lam solve V mid i := rfl
    rw [e]
    obtain ⟨i1, i2⟩ := ih
    have hgm : ∀ x r, alsGrad dims R lam V mid.W i x r = 0 := by rw [alsGrad_congr i1]; exact hg i
    have hfix := alsFactor_fixed (V := V) hsv (by rw [normalMat_congr i1]; exact hpd i) hgm
    refine ⟨?_, ?_⟩
    · intro j x hx r hr
      by_cases hj : j = i
      · subst hj
        simp only [alsUpdate, Function.update_self]
        rw [hfix x hx r hr, i1 j x hx r hr]
      · simp only [alsUpdate, Function.update_of_ne hj]
        exact i1 j x hx r hr
    · intro j hj x r
      by_cases hji : j = i
      · subst hji
        simp only [alsUpdate, Function.update_self]
        exact hgm x r
      · simp only [alsUpdate, Function.update_of_ne hji]
        simp only [List.mem_append, List.mem_singleton, hji, or_false] at hj
        exact i2 j hj x r

/-- A run of updates that does not lower the regularised objective changes nothing, and the gradients of its modes vanish. -/
theorem alsRun_stuck (hl : 0 < lam)
    (h : ∀ W i, Solves (dims i) R (alsFactor dims R lam solve V W i) (normalMat dims R lam W i) (mttkrp dims V W i))
    (modes : List (Fin N)) (st : AlsState N ℝ)
    (hle : fullObj2 dims R lam V st.W ≤ fullObj2 dims R lam V (alsRun dims R lam solve V modes st).W) :
    FacEq dims R (alsRun dims R lam solve V modes st).W st.W ∧ ∀ i ∈ modes, ∀ x r, alsGrad dims R lam V st.W i x r = 0 := by
  induction modes using List.reverseRecOn with
  | nil => exact ⟨fun _ _ _ _ _ => rfl, by simp⟩
  | append_singleton l i ih =>
    rw [alsRun_append] at hle ⊢
    set mid := alsRun dims R lam solve V l st with hmid
    have e : alsRun dims R lam solve V [i] mid = alsUpdate dims R lam solve V mid i := rfl
    rw [e] at hle ⊢
    have m1 := alsRun_mono hl.le h l st
    have m2 := fullObj2_update_le hl.le (h mid.W i)
    have hdec := update_decrease (h mid.W i)
    have hle' : fullObj2 dims R lam V st.W ≤
        fullObj2 dims R lam V (Function.update mid.W i (alsFactor dims R lam solve V mid.W i)) := hle
    rw [← hmid] at m1
    have hzero : frob (dims i) R (fun x r => mid.W i x r - alsFactor dims R lam solve V mid.W i x r)
        (fun x r => mid.W i x r - alsFactor dims R lam solve V mid.W i x r) = 0 := by
      have h1 : 0 ≤ ∑ idx ∈ Box dims, modelChange R mid.W i
          (fun x r => mid.W i x r - alsFactor dims R lam solve V mid.W i x r) idx ^ 2 := sum_nonneg fun _ _ => sq_nonneg _
      have h2 := frob_self_nonneg (dims i) R (fun x r => mid.W i x r - alsFactor dims R lam solve V mid.W i x r)
      have h3 : lam * frob (dims i) R (fun x r => mid.W i x r - alsFactor dims R lam solve V mid.W i x r)
        (fun x r => mid.W i x r - alsFactor dims R lam solve V mid.W i x r) ≤ 0 := by linarith
      nlinarith
    have hsame : ∀ x < dims i, ∀ r < R, mid.W i x r = alsFactor dims R lam solve V mid.W i x r := by
      intro x hx r hr
      unfold frob at hzero
      have h1 := (sum_eq_zero_iff_of_nonneg (fun x _ => sum_nonneg fun r _ => mul_self_nonneg _)).1 hzero x (mem_range.2 hx)
      have h2 := (sum_eq_zero_iff_of_nonneg (fun r _ => mul_self_nonneg _)).1 h1 r (mem_range.2 hr)
      exact sub_eq_zero.1 (mul_self_eq_zero.1 h2)
    obtain ⟨i1, i2⟩ := ih (by linarith)
    have hgm : ∀ x r, alsGrad dims R lam V mid.W i x r = 0 :=
      grad_zero_iff.2 ((h mid.W i).congr hsame fun _ _ _ _ => rfl)
    refine ⟨?_, ?_⟩
    · intro j x hx r hr
      by_cases hj : j = i
      · subst hj
        simp only [alsUpdate, Function.update_self]
        rw [← hsame x hx r hr, i1 j x hx r hr]
      · simp only [alsUpdate, Function.update_of_ne hj]
        exact i1 j x hx r hr
    · intro j hj x r
      simp only [List.mem_append, List.mem_singleton] at hj
      rcases hj with hj | rfl
      · exact i2 j hj x r
      · rw [← alsGrad_congr i1]
        exact hgm x r

end Spec

namespace Properties

open Finset

variable {N : ℕ} {dims : Fin N → ℕ} {R : ℕ} {V : (Fin N → ℕ) → ℝ} {W : Fin N → ℕ → ℕ → ℝ} {i : Fin N} {lam : ℝ}

/-- The gradient with respect to a factor is unique. -/
theorem modeGradient_eq {G : ℕ → ℕ → ℝ} (h : IsModeGradient dims R lam V W i G) :
    ∀ x < dims i, ∀ r < R, Spec.alsGrad dims R lam V W i x r = G x r := by
  intro x hx r hr
  obtain ⟨c1, e1⟩ := h (fun y s => if y = x ∧ s = r then 1 else 0)
  obtain ⟨c2, e2⟩ := alsGrad_isGradient dims R lam V W i (fun y s => if y = x ∧ s = r then 1 else 0)
  have hfr : ∀ A : ℕ → ℕ → ℝ, Spec.frob (dims i) R A (fun y s => if y = x ∧ s = r then 1 else 0) = A x r := by
    intro A
    unfold Spec.frob
    rw [sum_eq_single_of_mem x (mem_range.2 hx) (fun y _ hy => sum_eq_zero fun s _ => by simp [hy]),
      sum_eq_single_of_mem r (mem_range.2 hr) (fun s _ hs => by simp [hs])]
    simp
  simp only [hfr] at e1 e2
  have a1 := (e1 1).symm.trans (e2 1)
  have a2 := (e1 (-1)).symm.trans (e2 (-1))
  linarith

/-- Vanishing of the gradient with respect to a factor, in terms of the ALS gradient. -/
theorem stationary_iff : IsModeGradient dims R lam V W i (fun _ _ => 0) ↔ ∀ x r, Spec.alsGrad dims R lam V W i x r = 0 := by
  constructor
  · intro h x r
    by_cases hx : x < dims i ∧ r < R
    · exact modeGradient_eq h x hx.1 r hx.2
    · unfold Spec.alsGrad Spec.clip
      rw [if_neg hx]
  · intro h
    have : Spec.alsGrad dims R lam V W i = fun _ _ => 0 := by funext x r; exact h x r
    have hg := alsGrad_isGradient dims R lam V W i
    rwa [this] at hg

/-- At a point where no change of `W_i` lowers the objective of mode `i`, its gradient vanishes. -/
theorem stationary_of_min (h : ∀ Y : ℕ → ℕ → ℝ, Spec.modeObj2 dims R lam V W i ≤ Spec.modeObj2 dims R lam V (Function.update W i Y) i) :
    IsModeGradient dims R lam V W i (fun _ _ => 0) := by
  rw [stationary_iff]
  intro x r
  by_cases hx : x < dims i ∧ r < R
  swap
  · unfold Spec.alsGrad Spec.clip
    rw [if_neg hx]
  have hg := alsGrad_isGradient dims R lam V W i
  set G := Spec.alsGrad dims R lam V W i with hG
  obtain ⟨c, e⟩ := hg G
  have hq : ∀ t : ℝ, 0 ≤ 2 * t * Spec.frob (dims i) R G G + t ^ 2 * c := by
    intro t
    have h1 := h (fun x r => W i x r + t * G x r)
    have h2 := e t
    linarith
  have hfrob : Spec.frob (dims i) R G G = 0 := by
    have hnn := Spec.frob_self_nonneg (dims i) R G
    by_contra hne
    have hpos : 0 < Spec.frob (dims i) R G G := lt_of_le_of_ne hnn (Ne.symm hne)
    set F := Spec.frob (dims i) R G G
    have h1 := hq (-(F / (|c| + 1)))
    have hc : c ≤ |c| := le_abs_self c
    have hd : 0 < |c| + 1 := by positivity
    have h2 : (F / (|c| + 1)) ^ 2 * c ≤ (F / (|c| + 1)) ^ 2 * (|c| + 1) :=
      mul_le_mul_of_nonneg_left (by linarith) (sq_nonneg _)
    have h3 : (F / (|c| + 1)) ^ 2 * (|c| + 1) = F / (|c| + 1) * F := by field_simp
    have h4 : 0 < F / (|c| + 1) * F := mul_pos (div_pos hpos hd) hpos
    nlinarith
  unfold Spec.frob at hfrob
  have h1 := (sum_eq_zero_iff_of_nonneg (fun x _ => sum_nonneg fun r _ => mul_self_nonneg _)).1 hfrob x (mem_range.2 hx.1)
  have h2 := (sum_eq_zero_iff_of_nonneg (fun r _ => mul_self_nonneg _)).1 h1 r (mem_range.2 hx.2)
  exact mul_self_eq_zero.1 h2

/-- The factors reproduce `V`. -/
def Exact (dims : Fin N → ℕ) (R : ℕ) (V : (Fin N → ℕ) → ℝ) (W : Fin N → ℕ → ℕ → ℝ) : Prop :=
  ∀ idx ∈ Spec.Box dims, V idx = Spec.recon R W idx

theorem exact_iff : Exact dims R V W ↔ Spec.resid2 dims R V W = 0 := by
  unfold Exact Spec.resid2
  rw [sum_eq_zero_iff_of_nonneg fun _ _ => sq_nonneg _]
  refine forall₂_congr fun idx _ => ?_
  rw [sq_eq_zero_iff, sub_eq_zero]

theorem exact_stationary (h : Exact dims R V W) : ∀ x r, Spec.alsGrad dims R 0 V W i x r = 0 := by
  rw [← stationary_iff]
  refine stationary_of_min fun Y => ?_
  unfold Spec.modeObj2
  rw [exact_iff.1 h, zero_mul, zero_mul, add_zero, add_zero]
  exact sum_nonneg fun _ _ => sq_nonneg _

/-- Unregularised updates keep an exact decomposition exact, and record zero gradients. -/
theorem alsRun_exact {solve : Spec.Solver ℝ} (hsv : Spec.SolvesConsistent solve) (modes : List (Fin N)) (st : Spec.AlsState N ℝ)
    (h0 : Exact dims R V st.W) :
    Exact dims R V (Spec.alsRun dims R 0 solve V modes st).W ∧
      ∀ i ∈ modes, ∀ x r, (Spec.alsRun dims R 0 solve V modes st).G i x r = 0 := by
  have hsol := Spec.alsFactor_solves (dims := dims) (R := R) (V := V) (Or.inl ⟨le_refl (0 : ℝ), hsv⟩)
  have key : ∀ l, Exact dims R V (Spec.alsRun dims R 0 solve V l st).W := by
    intro l
    have := Spec.alsRun_mono (le_refl 0) hsol l st
    unfold Spec.fullObj2 at this
    rw [exact_iff.1 h0] at this
    rw [exact_iff]
    refine le_antisymm (by linarith) (sum_nonneg fun _ _ => sq_nonneg _)
  refine ⟨key modes, ?_⟩
  induction modes using List.reverseRecOn with
  | nil => simp
  | append_singleton l i ih =>
    rw [Spec.alsRun_append]
    have e : Spec.alsRun dims R 0 solve V [i] (Spec.alsRun dims R 0 solve V l st) =
      Spec.alsUpdate dims R 0 solve V (Spec.alsRun dims R 0 solve V l st) i := rfl
    rw [e]
    intro j hj x r
    by_cases hji : j = i
    · subst hji
      simp only [Spec.alsUpdate, Function.update_self]
      exact exact_stationary (key l) x r
    · simp only [Spec.alsUpdate, Function.update_of_ne hji]
      simp only [List.mem_append, List.mem_singleton, hji, or_false] at hj
      exact ih j hj x r

end Properties
