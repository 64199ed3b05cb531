import Verif.Spec.Gate
import Mathlib.LinearAlgebra.Matrix.NonsingularInverse
/-!
# Model of the gate of the generated filter

core/ekf/ekf_gen/ekf_gen.py 463-474 (`compute_max_mahal`), core/ekf/ekf_gen/ekf_gen_templates.py 692-697.

Numbers are reals.  `scipy.stats.chi2.cdf` is the distribution function of `Spec/Gate.lean` and NaN (`none`) for zero degrees of freedom;
`argmin` of numpy is the index of the first NaN if there is one, else of the first least element.
-/
namespace Verif.Gate
open Verif.Spec.Gate

/-- `chi2.cdf(x, df)`. -/
noncomputable def scipyCdf (df : ℕ) (x : ℝ) : Option ℝ := if df = 0 then none else some (chi2 df x)

open Classical in
/-- `numpy.argmin` of the elements `f 0` to `f n`. -/
noncomputable def argmin (f : ℕ → Option ℝ) : ℕ → ℕ
  | 0 => 0
  | n + 1 =>
    let b := argmin f n
    match f b, f (n + 1) with
    | none, _ => b
    | some _, none => n + 1
    | some u, some v => if v < u then n + 1 else b

/-- `np.arange(0, 1000, 0.01)`: a hundred thousand elements. -/
noncomputable def grid (i : ℕ) : ℝ := i / 100

open Classical in
/-- `compute_max_mahal` (ekf_gen.py 463-474) of a measurement with `size` elements; `none` is the largest `double`. -/
noncomputable def maxMahal (size : ℕ) (prob : ℝ) : Option ℝ :=
  if prob < 1 then
    some (grid (argmin (fun i => (scipyCdf (size - 1) (grid i)).map fun c => |c - prob|) 99999))
  else none

/-- `mahal` (ekf_gen_templates.py 692) with the inverse of the covariance of the innovation. -/
noncomputable def mahal {n : ℕ} (S : Matrix (Fin n) (Fin n) ℝ) (res : Fin n → ℝ) : ℝ := dotProduct res (S⁻¹.mulVec res)

/-- The measurement is rejected (ekf_gen_templates.py 694-697). -/
def Gated {n : ℕ} (prob : ℝ) (S : Matrix (Fin n) (Fin n) ℝ) (res : Fin n → ℝ) : Prop :=
  ∃ m, maxMahal n prob = some m ∧ mahal S res > m

end Verif.Gate
