import Mathlib.Data.Rat.Floor
import Mathlib.Algebra.Order.Field.Power

/-! # The numbers of type `double` and rounding to the nearest of them (IEEE 754 binary64) -/

namespace Spec

/-- `x` is a finite number of type `double`: an integer of at most 53 bits times a power of two. -/
def IsDouble (x : ℚ) : Prop :=
  ∃ m e : ℤ, |m| < 2 ^ 53 ∧ -1074 ≤ e ∧ e ≤ 971 ∧ x = m * (2 : ℚ) ^ e

/-- `fl` rounds every rational that does not overflow to a nearest `double`; how ties are broken is left open. -/
structure Nearest (fl : ℚ → ℚ) : Prop where
  double : ∀ x, |x| ≤ (2 : ℚ) ^ (1023 : ℤ) → IsDouble (fl x)
  nearest : ∀ x, |x| ≤ (2 : ℚ) ^ (1023 : ℤ) → ∀ y, IsDouble y → |fl x - x| ≤ |y - x|

end Spec
