import Mathlib.Probability.Distributions.Gaussian.Real
import Mathlib.MeasureTheory.Constructions.Pi
/-!
# The chi-square distribution

The probability that `d` independent standard normal numbers have squares whose sum is at most `x`.
-/
namespace Verif.Spec.Gate
open MeasureTheory ProbabilityTheory

/-- `d` independent standard normal numbers. -/
noncomputable def normals (d : ℕ) : Measure (Fin d → ℝ) := Measure.pi fun _ => gaussianReal 0 1

/-- The distribution function of the chi-square distribution with `d` degrees of freedom. -/
noncomputable def chi2 (d : ℕ) (x : ℝ) : ℝ := (normals d).real {z | ∑ i, z i ^ 2 ≤ x}

end Verif.Spec.Gate
