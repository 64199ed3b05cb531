import Mathlib.Data.Rat.Floor
/-!
# Specification vocabulary for IEEE 754 binary64 numbers and rounding

A `double` that is neither infinite nor a NaN is a rational `m * 2 ^ e` with `|m| < 2 ^ 53` and
`e ≥ -1074`.  There is no upper limit on `e` here: nothing computed with these numbers in the
claims comes near to `2 ^ 1024`.
-/
namespace Verif.Binary64

/-- The finite `double`s. -/
def F (x : ℚ) : Prop := ∃ m e : Int, |m| < 2 ^ 53 ∧ -1074 ≤ e ∧ x = m * (2 : ℚ) ^ e

/-- A rounding to nearest, whatever it does with a number half way between two `double`s. -/
structure Nearest (r : ℚ → ℚ) : Prop where
  mem : ∀ x, F (r x)
  near : ∀ x f, F f → |r x - x| ≤ |f - x|

end Verif.Binary64
