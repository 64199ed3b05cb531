import Verif.Model.Wgs84
import Verif.Model.Sim

/-!
# Model of the initial state of the post processor

tools/post_process.cxx 59-111: the parts of `getState` that are more than copies.
-/

namespace Verif.Post

open Verif.Model.Lie Verif.Model.Wgs84 Verif.Model.Sim

/-- post_process.cxx 96-101: `T_I2e` for the configured place and heading (both in radians).  `real()`
is a reference (dquat.h 106), so that the assignment replaces the real part and leaves the dual part.
`n` bounds the loop of `ecef2lla`. -/
noncomputable def initT (n : ℕ) (lla : V3) (hdg : ℝ) : Option DQuat :=
  (dqEcef2ned n (lla2ecef lla)).map fun d =>
    let T := d.inverse
    ⟨(Quat.fromEuler 0 0 hdg).otimes T.r, T.d⟩

/-- post_process.cxx 82: the acceleration of the input, from the first record of the truth. -/
noncomputable def initAccel (j : Jet) : V3 := j.d2x.v - ![0, 0, 9.80665]

end Verif.Post
