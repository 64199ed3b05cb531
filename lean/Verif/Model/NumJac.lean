import Verif.Model.So3

/-!
Model of `common/numerical_jacobian.h`, with doubles read as real numbers: central differences on vectors
and on Lie groups.  The choice between the two by template specialisation (`is_lie_group`, `has_plus`) is
the choice of a `Space`; the loop over the columns is the matrix of its columns.  The resizing of
`Eigen::MatrixXd` in the older functions (141-144 and alike) only sets the sizes and is not modelled.
-/

namespace Verif.Model.NumJac

open Verif.Model.Lie

/-- What the templates use of a Lie group class: the product, `inverse`, `exp`, `log`, and the indices of
its tangent vectors (`DOF`). -/
structure Grp (Pt ι : Type) where
  mul : Pt → Pt → Pt
  inv : Pt → Pt
  exp : (ι → ℝ) → Pt
  log : Pt → ι → ℝ

/-- A type with `perturb` and `difference`. -/
structure Space (Pt ι : Type) where
  perturb : Side → Pt → (ι → ℝ) → Pt
  difference : Side → Pt → Pt → ι → ℝ

/-- `PerturbHelper` and `DiffHelper` for Lie groups (numerical_jacobian.h 33-64). -/
def Grp.space {Pt ι : Type} (G : Grp Pt ι) : Space Pt ι where
  perturb
    | .left, x, v => G.mul (G.exp v) x
    | .right, x, v => G.mul x (G.exp v)
  difference
    | .left, x2, x1 => G.log (G.mul x2 (G.inv x1))
    | .right, x2, x1 => G.log (G.mul (G.inv x1) x2)

/-- `PerturbHelper` and `DiffHelper` for vectors (numerical_jacobian.h 66-86). -/
def vec (ι : Type) : Space (ι → ℝ) ι where
  perturb _ x v := x + v
  difference _ x2 x1 := x2 - x1

/-- `Quat<double>` (quat.h). -/
noncomputable def quat : Grp Quat (Fin 3) where
  mul := Quat.otimes
  inv := Quat.inverse
  exp := Quat.exp
  log := Quat.log

/-- The `Vec6` with the given elements. -/
def to6 (v : Fin 3 ⊕ Fin 3 → ℝ) : V6 := ⟨fun i => v (.inl i), fun i => v (.inr i)⟩

/-- The elements of a `Vec6`. -/
def of6 (x : V6) : Fin 3 ⊕ Fin 3 → ℝ := Sum.elim x.w x.v

/-- `DQuat<double>` (dquat.h). -/
noncomputable def dquat : Grp DQuat (Fin 3 ⊕ Fin 3) where
  mul := DQuat.otimes
  inv := DQuat.inverse
  exp v := DQuat.exp (to6 v)
  log p := of6 p.log

/-- `Vec::Unit(i)`. -/
def unit {ι : Type} [DecidableEq ι] (i : ι) : ι → ℝ := Pi.single i 1

/-- `compute_jac` (numerical_jacobian.h 100-124). -/
noncomputable def computeJac {P Q ι κ : Type} (X : Space P ι) (Y : Space Q κ) [DecidableEq ι] (side : Side) (x : P) (f : P → Q) (eps : ℝ) : Matrix κ ι ℝ :=
  Matrix.of fun r i =>
    let dxp := eps • unit i
    let dxm := eps • -unit i
    let yp := f (X.perturb side x dxp)
    let ym := f (X.perturb side x dxm)
    Y.difference side yp ym r / (2 * eps)

/-- `left_jac` (numerical_jacobian.h 126-149); its further arguments are part of the function. -/
noncomputable def leftJac {P Q ι κ : Type} (G : Grp P ι) (H : Grp Q κ) [DecidableEq ι] (x : P) (f : P → Q) : Matrix κ ι ℝ :=
  Matrix.of fun r i =>
    H.log (H.mul (f (G.mul (G.exp ((1e-8 : ℝ) • unit i)) x)) (H.inv (f (G.mul (G.exp ((1e-8 : ℝ) • -unit i)) x)))) r / (2 * 1e-8)

/-- `right_jac` (numerical_jacobian.h 151-174). -/
noncomputable def rightJac {P Q ι κ : Type} (G : Grp P ι) (H : Grp Q κ) [DecidableEq ι] (x : P) (f : P → Q) : Matrix κ ι ℝ :=
  Matrix.of fun r i =>
    H.log (H.mul (H.inv (f (G.mul x (G.exp ((1e-8 : ℝ) • -unit i))))) (f (G.mul x (G.exp ((1e-8 : ℝ) • unit i))))) r / (2 * 1e-8)

/-- `left_jac2` (numerical_jacobian.h 176-199). -/
noncomputable def leftJac2 {P ι κ : Type} (G : Grp P ι) [DecidableEq ι] (x : P) (f : P → κ → ℝ) : Matrix κ ι ℝ :=
  Matrix.of fun r i => (f (G.mul (G.exp ((1e-8 : ℝ) • unit i)) x) r - f (G.mul (G.exp ((1e-8 : ℝ) • -unit i)) x) r) / (2 * 1e-8)

/-- `right_jac2` (numerical_jacobian.h 201-224). -/
noncomputable def rightJac2 {P ι κ : Type} (G : Grp P ι) [DecidableEq ι] (x : P) (f : P → κ → ℝ) : Matrix κ ι ℝ :=
  Matrix.of fun r i => (f (G.mul x (G.exp ((1e-8 : ℝ) • unit i))) r - f (G.mul x (G.exp ((1e-8 : ℝ) • -unit i))) r) / (2 * 1e-8)

/-- `left_jac3` (numerical_jacobian.h 226-248). -/
noncomputable def leftJac3 {Q ι κ : Type} (H : Grp Q κ) [DecidableEq ι] (x : ι → ℝ) (f : (ι → ℝ) → Q) : Matrix κ ι ℝ :=
  Matrix.of fun r i => H.log (H.mul (f (x + (1e-8 : ℝ) • unit i)) (H.inv (f (x - (1e-8 : ℝ) • unit i)))) r / (2 * 1e-8)

/-- `right_jac3` (numerical_jacobian.h 249-271). -/
noncomputable def rightJac3 {Q ι κ : Type} (H : Grp Q κ) [DecidableEq ι] (x : ι → ℝ) (f : (ι → ℝ) → Q) : Matrix κ ι ℝ :=
  Matrix.of fun r i => H.log (H.mul (H.inv (f (x - (1e-8 : ℝ) • unit i))) (f (x + (1e-8 : ℝ) • unit i))) r / (2 * 1e-8)

end Verif.Model.NumJac
