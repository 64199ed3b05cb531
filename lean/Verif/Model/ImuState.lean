import Verif.Model.Imu

/-!
The parts of `models/imu_state.h` and `models/imu_state.cxx` that handle an `ImuState` as ten numbers: its
constructor and assignment from a vector and its index operator.  A failed `check` is `none`.
-/

namespace Verif.Model.Imu

open Verif.Model.Lie

/-- `ImuState(const MatrixBase&)` (imu_state.h 46-55) and `operator=(const MatrixBase&)` (68-78): `head<3>`,
`segment<3>(3)` and `tail<4>`, the latter in the order of `arr_`: `w`, `x`, `y`, `z`. -/
def IState.ofVec (v : Fin 10 → ℝ) : IState :=
  { alpha := ![v 0, v 1, v 2]
    beta := ![v 3, v 4, v 5]
    gamma := ⟨v 6, v 7, v 8, v 9⟩ }

/-- `arr_(i)` of a quaternion. -/
def arr (q : Quat) (i : Fin 4) : ℝ := ![q.w, q.x, q.y, q.z] i

/-- `ImuState::operator()(int)` (imu_state.h 57-62). -/
def IState.at (x : IState) (i : ℤ) : Option ℝ :=
  if 0 ≤ i then
    if i < 10 then
      if h : i < 3 then some (x.alpha ⟨i.toNat % 3, Nat.mod_lt _ (by decide)⟩)
      else if h : i < 6 then some (x.beta ⟨(i - 3).toNat % 3, Nat.mod_lt _ (by decide)⟩)
      else some (arr x.gamma ⟨(i - 6).toNat % 4, Nat.mod_lt _ (by decide)⟩)
    else none
  else none

end Verif.Model.Imu
