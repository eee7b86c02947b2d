import Verif.Model.PP

/-! # Tree keys as C strings -/

namespace Model

/-- `vec2str` (common.cxx:10-18) including the conversion of the `char` array to a `string`, which stops at the first NUL. -/
def vec2strC (v : List ℕ) : Key := (v.map letter ++ [star]).takeWhile fun c => decide (c ≠ 0)

end Model
