import Verif.Model.EkfGen
import Verif.Spec.Symb
import Mathlib.LinearAlgebra.Matrix.NonsingularInverse

/-!
What the generated covariance code should compute: the Kalman filter formulas for the whole matrices, written as matrices of
blocks (`Matrix (Fin m) (Fin n) (M N)`), with the meaning of the assignments.
-/

namespace Verif.Spec.EkfGen

open Verif.Model.Symb Verif.Model.EkfGen Verif.Spec.Symb

/-- A matrix of blocks. -/
abbrev BM (N m n : ℕ) := Matrix (Fin m) (Fin n) (M N)

/-- The transpose of a matrix of blocks. -/
def tb {N m n : ℕ} (X : BM N m n) : BM N n m := fun c r => (X r c).transpose

variable {N : ℕ}

/-- A matrix of one block. -/
def single (X : M N) : BM N 1 1 := fun _ _ => X

/-- The inverse of a block of size `d`. -/
noncomputable def blockInv (V : Val N) (d : Dim) (S : M N) : M N := (S + (1 - proj V d))⁻¹ * proj V d

/-- The value of a block of storage. -/
def put (V : Val N) (k : ℕ) (X : M N) : Val N := { V with mat := fun k' r c => if k' = k then X else V.mat k' r c }

/-- An assignment. Blocks without elements are not assigned to (`if (size_x > 0)`, ekf_gen_matrix_manip.py 195-198, 217-220,
257-268). -/
noncomputable def exec (V : Val N) : Stmt → Val N
  | .set k r c e => if V.size r = 0 ∨ V.size c = 0 then V else put V k (den V e)
  | .upd minus k r c e =>
    if V.size r = 0 ∨ V.size c = 0 then V
    else put V k (if minus then V.mat k r c - den V e else V.mat k r c + den V e)
  | .inv k d e => put V k (blockInv V d (den V e))

/-- The assignments in their order. -/
noncomputable def run (V : Val N) (p : List Stmt) : Val N := p.foldl exec V

/-! ### The values at the beginning -/

/-- The block named by a symbol. -/
def blockOf (V : Val N) (k : Kind) (r c : ℕ) (a b : Dim) : M N := proj V a * V.mat (sy k r c) a b * proj V b

/-- The number named by a symbol. -/
def numOf (V : Val N) (k : Kind) : ℝ := V.mat (sy k 0 0) (.num 1) (.num 1) 0 0

variable (C : Cfg) (V : Val N)

/-- The identity matrix. -/
def ident : BM N (C.n + 1) (C.n + 1) := Matrix.diagonal fun i => proj V (C.dim i)

/-- The Jacobians of the dynamics: the blocks that are not listed in the configuration are zero. -/
def jx : BM N (C.n + 1) (C.n + 1) := fun r c => if C.fx r c then blockOf V .dxdx r c (C.dim r) (C.dim c) else 0
def ju : BM N (C.n + 1) (C.m + 1) := fun r c => if C.fu r c then blockOf V .dxdu r c (C.dim r) (C.inp c) else 0

/-- A covariance. -/
def covOf (k : Kind) : BM N (C.n + 1) (C.n + 1) := fun r c => blockOf V k r c (C.dim r) (C.dim c)

/-- The noise of the inputs and of the process. -/
def noiseU : BM N (C.m + 1) (C.m + 1) := fun r c => if c = r then blockOf V .qu r c (C.inp r) (C.inp c) else 0
def noiseX : BM N (C.n + 1) (C.n + 1) := fun r c => if c = r then blockOf V .qx r c (C.dim r) (C.dim c) else 0

/-- The matrices of the discrete system: `exp(A dt)` to second order and the matching one of the input. -/
noncomputable def transition : BM N (C.n + 1) (C.n + 1) :=
  ident C V + numOf V .dt • jx C V + ((numOf V .dt) ^ 2 / 2) • (jx C V * jx C V)
noncomputable def inputGain : BM N (C.n + 1) (C.m + 1) :=
  numOf V .dt • ju C V + ((numOf V .dt) ^ 2 / 2) • (jx C V * ju C V)

/-- The predicted covariance. -/
noncomputable def predicted : BM N (C.n + 1) (C.n + 1) :=
  transition C V * covOf C V .cov * tb (transition C V) + inputGain C V * noiseU C V * tb (inputGain C V) + noiseX C V

variable {C} (D : MCfg C)

/-- The Jacobian of the measurement. -/
def jz : BM N 1 (C.n + 1) := fun r c => if D.used c then blockOf V .dzdx r c D.dim (C.dim c) else 0

/-- The innovation covariance `H P Hᵀ + R`. -/
def innovation : M N := (jz V D * covOf C V .cov * tb (jz V D)) 0 0 + blockOf V .noise 0 0 D.dim D.dim

/-- The Kalman gain `P Hᵀ S⁻¹`. -/
noncomputable def gain : BM N (C.n + 1) 1 :=
  covOf C V .cov * tb (jz V D) * single (blockInv V D.dim (innovation V D))

/-- The correction and the covariance after the update. -/
noncomputable def correction : BM N (C.n + 1) 1 := gain V D * single (blockOf V .res 0 0 D.dim (.num 1))
noncomputable def updated : BM N (C.n + 1) (C.n + 1) :=
  covOf C V .cov - gain V D * jz V D * covOf C V .cov

/-- The covariance is symmetric. A block below the diagonal is read as the transpose of the one above
(ekf_gen_matrix_manip.py 95-96), so this is a condition on the blocks of the diagonal. -/
def Symmetric : Prop := tb (covOf C V .cov) = covOf C V .cov

/-- The whole covariance as it is read: the blocks on and above the diagonal, and the transposes of those above. -/
def fullOf (C : Cfg) (V : Val N) (k : Kind) : BM N (C.n + 1) (C.n + 1) := fun r c =>
  if r ≤ c then blockOf V k r c (C.dim r) (C.dim c) else (blockOf V k c r (C.dim c) (C.dim r)).transpose

end Verif.Spec.EkfGen
