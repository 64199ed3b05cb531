import Verif.Spec.EkfGen
import Mathlib.LinearAlgebra.Matrix.PosDef

/-!
Covariances: symmetric matrices of blocks whose quadratic form is not negative, and the states that a generated filter can get
into.
-/

namespace Verif.Spec.EkfGen

open Verif.Model.Symb Verif.Model.EkfGen Verif.Spec.Symb

variable {N m n : ℕ}

/-- The matrix of numbers of a matrix of blocks. -/
def flat (X : BM N m n) : Matrix (Fin m × Fin (N + 1)) (Fin n × Fin (N + 1)) ℝ := fun i j => X i.1 j.1 i.2 j.2

/-- A covariance. -/
def Psd (X : BM N n n) : Prop := (flat X).PosSemidef

/-- The noise of a measurement is positive on the block it fills. -/
def NoisePos {C : Cfg} (V : Val N) (D : MCfg C) : Prop := (blockOf V .noise 0 0 D.dim D.dim + (1 - proj V D.dim)).PosDef

/-- The covariances that a filter can get to with the generated code: it starts with some covariance and makes predictions and
updates, in any order, with any Jacobians, time steps, sizes and residuals, and with noise that is a covariance. -/
inductive Reached (C : Cfg) (R : Rules) (f N : ℕ) : BM N (C.n + 1) (C.n + 1) → Prop
  | start {P} : Psd P → Reached C R f N P
  | predict {V : Val N} {p} : Reached C R f N (fullOf C V .cov) → propagate C R f = some p → numOf V .half = 1 / 2 →
      Symmetric (C := C) V → Psd (noiseU C V) → Psd (noiseX C V) → Reached C R f N (fullOf C (run V p) .covOut)
  | update {V : Val N} {D : MCfg C} {p} : Reached C R f N (fullOf C V .cov) → measUpdate R f D = some p → D.dim ≠ .num 1 →
      (∃ c, D.used c = true) → Symmetric (C := C) V → NoisePos V D → Reached C R f N (fullOf C (run V p) .cov)

end Verif.Spec.EkfGen
