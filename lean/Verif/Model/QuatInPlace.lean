import Verif.Model.QuatMem

/-!
# Model of the operations that change a quaternion in place

common/math/quat.h 440 (`normalize`), 491 (`invert`), on the memory of `Model/QuatMem.lean`.

Numbers are reals; the quaternion zero, for which `normalize` leaves NaN, is excluded by the theorems.
-/

namespace Verif.QuatInPlace

open Verif.Model.Lie Verif.QuatMem

/-- How the body of a function that should return a reference is left. -/
inductive Exit where
  | returned (o : Obj)
  | offTheEnd

/-- Calling such a function: to flow off the end is undefined behaviour, whether the result is used or not (C++17 [stmt.return] 2). -/
def call (r : Option (Mem × Exit)) : Option (Mem × Obj) :=
  r.bind fun
    | (m, .returned o) => some (m, o)
    | (_, .offTheEnd) => none

/-- One number multiplied in place. -/
def scale (m : Mem) (a : ℕ) (s : ℝ) : Option Mem := (m a).bind fun v => wr m a (v * s)

/-- The body of `Quat::invert` (quat.h 491): one assignment, no `return`. -/
def invertBody (m : Mem) (p : Obj) : Option (Mem × Exit) :=
  (scale m (p.map + 1) (-1)).bind fun m => (scale m (p.map + 2) (-1)).bind fun m => (scale m (p.map + 3) (-1)).map fun m => (m, .offTheEnd)

/-- `Quat::invert` (quat.h 491). -/
def invert (m : Mem) (p : Obj) : Option (Mem × Obj) := call (invertBody m p)

/-- One number divided in place. -/
noncomputable def divide (m : Mem) (a : ℕ) (s : ℝ) : Option Mem := (m a).bind fun v => wr m a (v / s)

/-- `Quat::normalize` (quat.h 440): the norm is computed before the division begins. -/
noncomputable def normalize (m : Mem) (p : Obj) : Option Mem :=
  (p.val m).bind fun s =>
  (divide m p.map s.norm).bind fun m => (divide m (p.map + 1) s.norm).bind fun m => (divide m (p.map + 2) s.norm).bind fun m =>
    divide m (p.map + 3) s.norm

end Verif.QuatInPlace
