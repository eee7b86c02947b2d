import Mathlib.Data.Real.Basic

/-! # Specification of command-line options -/

namespace Spec

/-- `value` is what an option with the given token has to be: the default if the option is absent or its value `v` (as read
by `read`) is not admissible, and `v` otherwise. -/
def OptionValue {T A : Type} (read : T → A → Prop) (valid : A → Prop) (dflt : A) (token : Option T) (value : A) : Prop :=
  (token = none ∧ value = dflt) ∨
  ∃ t v, token = some t ∧ read t v ∧ ((valid v ∧ value = v) ∨ (¬ valid v ∧ value = dflt))

/-- The token following the first occurrence of `option` in `argv`. -/
def Follows {T : Type} (argv : List T) (option t : T) : Prop :=
  ∃ i, argv[i]? = some option ∧ (∀ j < i, argv[j]? ≠ some option) ∧ argv[i + 1]? = some t

/-- The white space characters of C: space, `\t`, `\n`, `\v`, `\f`, `\r`. -/
def cSpaces : List Char := [' ', Char.ofNat 9, Char.ofNat 10, Char.ofNat 11, Char.ofNat 12, Char.ofNat 13]

end Spec
