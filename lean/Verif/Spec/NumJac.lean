import Mathlib.Analysis.Calculus.Deriv.Basic

/-!
Reference notions for numerical derivatives.  Nothing here mentions the model.
-/

namespace Verif.Spec.NumJac

/-- `g` has the derivative `d` at zero, is three times differentiable on `[-h, h]`, and its third derivative is at most `M` there. -/
def Curve (g : ℝ → ℝ) (h d M : ℝ) : Prop :=
  ∃ g1 g2 g3 : ℝ → ℝ, g1 0 = d ∧ ∀ t, |t| ≤ h →
    HasDerivAt g (g1 t) t ∧ HasDerivAt g1 (g2 t) t ∧ HasDerivAt g2 (g3 t) t ∧ |g3 t| ≤ M

end Verif.Spec.NumJac
