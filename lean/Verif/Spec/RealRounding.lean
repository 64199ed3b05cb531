import Verif.Spec.Binary64
import Mathlib.Data.Real.Basic
/-!
# Rounding of real numbers to doubles

For operations whose exact results are not rational (square roots, sines): the `double` nearest to a real number,
whatever is done half way between two of them.
-/
namespace Verif.Binary64

/-- A rounding of real numbers to nearest. -/
structure NearestR (r : ℝ → ℝ) : Prop where
  mem : ∀ x, ∃ f : ℚ, F f ∧ r x = f
  near : ∀ x (f : ℚ), F f → |r x - x| ≤ |(f : ℝ) - x|

end Verif.Binary64
