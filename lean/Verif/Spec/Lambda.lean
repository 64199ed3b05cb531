import Mathlib.LinearAlgebra.Matrix.NonsingularInverse
import Mathlib.Data.Matrix.Mul
import Mathlib.Algebra.Order.Field.Basic
/-!
# Specification of integer least squares

Independent of the solver: matrices and vectors are Mathlib's.
-/
namespace Verif.LambdaSpec
open Matrix

variable {K : Type} [Field K] [LinearOrder K]

/-- The squared length of `v` in the metric of the covariance `Q`. -/
noncomputable def sqDist {n : Nat} (Q : Matrix (Fin n) (Fin n) K) (v : Fin n → K) : K := v ⬝ᵥ (Q⁻¹ *ᵥ v)

/-- Symmetric and positive definite. -/
def PosDef {n : Nat} (Q : Matrix (Fin n) (Fin n) K) : Prop :=
  Qᵀ = Q ∧ ∀ x : Fin n → K, x ≠ 0 → 0 < x ⬝ᵥ (Q *ᵥ x)

/-- Distance of the integer vector `z` from the float vector `a`. -/
noncomputable def distZ {n : Nat} (Q : Matrix (Fin n) (Fin n) K) (a : Fin n → K) (z : Fin n → Int) : K :=
  sqDist Q fun i => (z i : K) - a i

/-- `zs` lists different integer vectors in order of distance, and no other integer vector is closer than
any of them. -/
def Best {n : Nat} (Q : Matrix (Fin n) (Fin n) K) (a : Fin n → K) (zs : List (Fin n → Int)) : Prop :=
  zs.Nodup ∧ zs.Pairwise (fun z w => distZ Q a z ≤ distZ Q a w) ∧
  ∀ z, z ∉ zs → ∀ w ∈ zs, distZ Q a w ≤ distZ Q a z

end Verif.LambdaSpec
