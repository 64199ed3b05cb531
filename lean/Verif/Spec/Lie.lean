import Mathlib.Algebra.Quaternion
import Mathlib.LinearAlgebra.Matrix.NonsingularInverse
import Mathlib.Data.Matrix.Mul
import Mathlib.Analysis.SpecialFunctions.Trigonometric.Basic

/-!
Reference notions for the rotation and rigid-motion classes: Mathlib's quaternion algebra, rotation
matrices, the Euclidean inner product and Rodrigues' formula.  Nothing here mentions the model.
-/

namespace Verif.Spec.Lie

/-- Inner product of two vectors. -/
def inner (u v : Fin 3 → ℝ) : ℝ := ∑ i, u i * v i

/-- A rotation matrix: orthogonal with determinant one. -/
def IsRot (M : Matrix (Fin 3) (Fin 3) ℝ) : Prop := M * M.transpose = 1 ∧ M.det = 1

/-- The four numbers `(w, x, y, z)` as an element of Mathlib's quaternion algebra. -/
def hamilton (w x y z : ℝ) : Quaternion ℝ := ⟨w, x, y, z⟩

/-- A map of vectors which is linear. -/
def IsLin (f : (Fin 3 → ℝ) → (Fin 3 → ℝ)) : Prop :=
  ∀ (a b : ℝ) (u v : Fin 3 → ℝ), f (a • u + b • v) = a • f u + b • f v

/-- A map of points which preserves the distance (squared) of every two points. -/
def IsIsometry (f : (Fin 3 → ℝ) → (Fin 3 → ℝ)) : Prop :=
  ∀ u v, inner (f u - f v) (f u - f v) = inner (u - v) (u - v)

/-- The vector product. -/
def vprod (u v : Fin 3 → ℝ) : Fin 3 → ℝ :=
  ![u 1 * v 2 - u 2 * v 1, u 2 * v 0 - u 0 * v 2, u 0 * v 1 - u 1 * v 0]

/-- Rodrigues: the vector `v` turned by the angle `θ` about the unit vector `n`. -/
noncomputable def turn (n : Fin 3 → ℝ) (θ : ℝ) (v : Fin 3 → ℝ) : Fin 3 → ℝ :=
  Real.cos θ • v + Real.sin θ • vprod n v + ((1 - Real.cos θ) * inner n v) • n

end Verif.Spec.Lie
