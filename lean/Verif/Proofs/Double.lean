import Verif.Spec.Double
import Mathlib.Tactic.Linarith
import Mathlib.Tactic.NormNum
import Mathlib.Tactic.Ring
import Mathlib.Tactic.Positivity
import Mathlib.Tactic.FieldSimp
import Mathlib.Data.Finset.Max
import Mathlib.Order.Interval.Finset.Defs
import Mathlib.Data.Int.Interval
import Mathlib.Algebra.Order.Round

namespace Spec

/-- Rounding to nearest is possible. -/
theorem exists_nearest : ∃ fl, Nearest fl := by
  classical
  obtain ⟨S, hS⟩ : ∃ S : Finset ℚ, ∀ x, x ∈ S ↔ IsDouble x := by
    refine ⟨((Finset.Ioo (-(2 : ℤ) ^ 53) (2 ^ 53)) ×ˢ (Finset.Icc (-1074 : ℤ) 971)).image fun p => (p.1 : ℚ) * (2 : ℚ) ^ p.2, ?_⟩
    intro x
    simp only [Finset.mem_image, Finset.mem_product, Finset.mem_Ioo, Finset.mem_Icc, Prod.exists]
    constructor
    · rintro ⟨m, e, ⟨h1, h2⟩, rfl⟩
      exact ⟨m, e, abs_lt.2 h1, h2.1, h2.2, rfl⟩
    · rintro ⟨m, e, h1, h2, h3, rfl⟩
      exact ⟨m, e, ⟨abs_lt.1 h1, h2, h3⟩, rfl⟩
  have h0 : S.Nonempty := ⟨0, (hS 0).2 ⟨0, 0, by norm_num, by norm_num, by norm_num, by norm_num⟩⟩
  have h : ∀ x : ℚ, ∃ y ∈ S, ∀ z ∈ S, |y - x| ≤ |z - x| := fun x => Finset.exists_min_image S (fun y => |y - x|) h0
  choose fl h1 h2 using h
  exact ⟨fl, fun x _ => (hS _).1 (h1 x), fun x _ y hy => h2 x y ((hS y).2 hy)⟩

variable {fl : ℚ → ℚ}

theorem Nearest.exact (h : Nearest fl) {x : ℚ} (hx : IsDouble x) (hb : |x| ≤ (2 : ℚ) ^ (1023 : ℤ)) : fl x = x := by
  have := h.nearest x hb x hx
  rw [sub_self, abs_zero] at this
  exact sub_eq_zero.1 (abs_eq_zero.1 (le_antisymm this (abs_nonneg _)))

/-- Multiples of a small power of two. -/
theorem isDouble_of {m e : ℤ} (hm : |m| < 2 ^ 53) (he : -1074 ≤ e) (he' : e ≤ 971) : IsDouble (m * (2 : ℚ) ^ e) :=
  ⟨m, e, hm, he, he', rfl⟩

/-- The absolute error of rounding a number between `0` and `2 ^ j`. -/
theorem Nearest.err (h : Nearest fl) {x : ℚ} {j : ℤ} (hj : -1000 ≤ j) (hj' : j ≤ 900) (h0 : 0 ≤ x) (hx : x ≤ 2 ^ j) :
    |fl x - x| ≤ 2 ^ (j - 54) := by
  have hb : |x| ≤ (2 : ℚ) ^ (1023 : ℤ) := by
    rw [abs_of_nonneg h0]
    refine hx.trans ?_
    exact zpow_le_zpow_right₀ (by norm_num) (by omega)
  have hp : (0 : ℚ) < 2 ^ (j - 53) := by positivity
  have h53 : (2 : ℚ) ^ j = 2 ^ 53 * 2 ^ (j - 53) := by
    have := zpow_add₀ (two_ne_zero' ℚ) 53 (j - 53)
    rw [show (53 : ℤ) + (j - 53) = j by ring] at this
    rw [this]
    rfl
  have hhalf : (2 : ℚ) ^ (j - 54) = 1 / 2 * 2 ^ (j - 53) := by
    rw [show j - 53 = (j - 54) + 1 by ring, zpow_add₀ (by norm_num : (2 : ℚ) ≠ 0), zpow_one]
    ring
  -- the nearest multiple of `2 ^ (j - 53)`
  obtain ⟨m, hm⟩ : ∃ m : ℤ, m = round (x / 2 ^ (j - 53)) := ⟨_, rfl⟩
  have hr := abs_sub_round (x / 2 ^ (j - 53))
  rw [← hm] at hr
  have hd : |(m : ℚ) * 2 ^ (j - 53) - x| ≤ 2 ^ (j - 54) := by
    have : (m : ℚ) * 2 ^ (j - 53) - x = -((x / 2 ^ (j - 53) - m) * 2 ^ (j - 53)) := by
      field_simp
      ring
    rw [this, abs_neg, abs_mul, abs_of_pos hp, hhalf]
    exact mul_le_mul_of_nonneg_right hr hp.le
  have hx0 : 0 ≤ x / 2 ^ (j - 53) := div_nonneg h0 hp.le
  have hx1 : x / 2 ^ (j - 53) ≤ 2 ^ 53 := by rw [div_le_iff₀ hp, ← h53]; exact hx
  have hm0 : 0 ≤ m := by
    have := abs_le.1 hr
    have : (-1 : ℚ) < m := by linarith
    have : (-1 : ℤ) < m := by exact_mod_cast this
    omega
  have hm1 : m ≤ 2 ^ 53 := by
    have := abs_le.1 hr
    have : (m : ℚ) < 2 ^ 53 + 1 := by linarith
    have : m < 2 ^ 53 + 1 := by exact_mod_cast this
    omega
  have hdbl : IsDouble ((m : ℚ) * 2 ^ (j - 53)) := by
    rcases lt_or_eq_of_le hm1 with h1 | h1
    · exact isDouble_of (by rw [abs_of_nonneg hm0]; exact h1) (by omega) (by omega)
    · refine ⟨1, j, by norm_num, by omega, ?_, ?_⟩
      · omega
      · rw [h1, h53]
        push_cast
        ring
  exact (h.nearest x hb _ hdbl).trans hd

/-- Two `double`s at least one of which is larger than `2 ^ 52 * 2 ^ e` differ by at least `2 ^ e`. -/
theorem isDouble_gap {z y : ℚ} {m e : ℤ} (hz : z = m * (2 : ℚ) ^ e) (h1 : 2 ^ 52 < m) (hy : IsDouble y) (hne : y ≠ z) :
    (2 : ℚ) ^ e ≤ |y - z| := by
  have hp : (0 : ℚ) < 2 ^ e := by positivity
  obtain ⟨m', e', hm', -, -, rfl⟩ := hy
  by_cases he : e ≤ e'
  · obtain ⟨d, rfl⟩ : ∃ d : ℕ, e' = e + d := ⟨(e' - e).toNat, by omega⟩
    have e1 : (m' : ℚ) * 2 ^ (e + (d : ℤ)) - z = ((m' * 2 ^ d - m : ℤ) : ℚ) * 2 ^ e := by
      rw [hz, zpow_add₀ (by norm_num : (2 : ℚ) ≠ 0), zpow_natCast]
      push_cast
      ring
    have hne' : m' * 2 ^ d - m ≠ 0 := by
      intro h0
      apply hne
      rw [h0] at e1
      simp at e1
      linarith
    rw [e1, abs_mul, abs_of_pos hp]
    have : (1 : ℚ) ≤ |((m' * 2 ^ d - m : ℤ) : ℚ)| := by
      have := Int.one_le_abs hne'
      rw [← Int.cast_abs]
      exact_mod_cast this
    nlinarith
  · have e1 : (2 : ℚ) ^ e' ≤ 2 ^ (e - 1) := zpow_le_zpow_right₀ (by norm_num) (by omega)
    have e2 : (2 : ℚ) ^ e = 2 * 2 ^ (e - 1) := by
      conv_lhs => rw [show e = (e - 1) + 1 by ring, zpow_add₀ (by norm_num : (2 : ℚ) ≠ 0), zpow_one]
      ring
    have hm'' : (m' : ℚ) ≤ 2 ^ 53 := by
      have := (abs_lt.1 hm').2
      exact_mod_cast this.le
    have hq : (0 : ℚ) < 2 ^ e' := by positivity
    have hle : (m' : ℚ) * 2 ^ e' ≤ 2 ^ 52 * 2 ^ e := by
      calc (m' : ℚ) * 2 ^ e' ≤ 2 ^ 53 * 2 ^ e' := mul_le_mul_of_nonneg_right hm'' hq.le
        _ ≤ 2 ^ 53 * 2 ^ (e - 1) := mul_le_mul_of_nonneg_left e1 (by norm_num)
        _ = 2 ^ 52 * 2 ^ e := by rw [e2]; ring
    have hmz : (2 : ℚ) ^ 52 + 1 ≤ m := by
      have : (2 : ℤ) ^ 52 + 1 ≤ m := h1
      exact_mod_cast this
    have : (2 : ℚ) ^ e ≤ z - m' * 2 ^ e' := by
      rw [hz]
      nlinarith
    rw [abs_sub_comm]
    exact this.trans (le_abs_self _)

/-- What is closer to a `double` than half its spacing is rounded to it. -/
theorem Nearest.eq (h : Nearest fl) {x z : ℚ} {m e : ℤ} (hz : z = m * (2 : ℚ) ^ e) (h1 : 2 ^ 52 < m) (h2 : m < 2 ^ 53) (he : -1074 ≤ e)
    (he' : e ≤ 900) (hx : |x - z| < 2 ^ e / 2) : fl x = z := by
  have hp : (0 : ℚ) < 2 ^ e := by positivity
  have hzd : IsDouble z := ⟨m, e, by rw [abs_of_nonneg (by omega)]; exact h2, he, by omega, hz⟩
  have hm0 : (0 : ℚ) < m := by
    have : (0 : ℤ) < m := by omega
    exact_mod_cast this
  have hb : |x| ≤ (2 : ℚ) ^ (1023 : ℤ) := by
    have a1 : |x| ≤ |x - z| + |z| := by
      have := abs_add_le (x - z) z
      rwa [sub_add_cancel] at this
    have a2 : |z| ≤ 2 ^ 53 * 2 ^ e := by
      rw [hz, abs_of_pos (by positivity)]
      refine mul_le_mul_of_nonneg_right ?_ hp.le
      exact_mod_cast h2.le
    have a3 : (2 : ℚ) ^ 54 * 2 ^ e ≤ 2 ^ (1023 : ℤ) := by
      rw [← zpow_natCast (2 : ℚ) 54, ← zpow_add₀ (by norm_num)]
      exact zpow_le_zpow_right₀ (by norm_num) (by push_cast; omega)
    refine le_trans ?_ a3
    have : (2 : ℚ) ^ 54 * 2 ^ e = 2 ^ 53 * 2 ^ e + 2 ^ 53 * 2 ^ e := by ring
    have : (2 : ℚ) ^ e ≤ 2 ^ 53 * 2 ^ e := by nlinarith
    linarith
  by_contra hne
  have g := isDouble_gap hz h1 (h.double x hb) hne
  have n := h.nearest x hb z hzd
  have : |fl x - z| ≤ |fl x - x| + |x - z| := abs_sub_le _ _ _
  rw [abs_sub_comm z x] at n
  linarith

end Spec
