import Verif.Model.DQuat
import Mathlib.Analysis.SpecialFunctions.Trigonometric.Arctan
import Mathlib.Analysis.SpecialFunctions.Pow.Real

/-!
Model of `utils/wgs84.cxx`, `common/satellite/azel.cxx` and `common/satellite/atm_correction.cxx`, over the reals.

Simplifications: exact arithmetic; the loop of `ecef2lla` has a bound on the number of its iterations, `none` when it is
reached; at the centre of the earth the code computes `0/0`, the outcome is `none`. In the ionospheric delay the time
of the week is a parameter.
-/

namespace Verif.Model.Wgs84

open Verif.Model.Lie

/-- The constants (wgs84.h 14-20). -/
noncomputable def A : ℝ := 6378137
noncomputable def B : ℝ := 6356752.314245
noncomputable def F : ℝ := (A - B) / A
noncomputable def E2 : ℝ := F * (2 - F)

/-- The body of the loop of `WGS84::ecef2lla` (wgs84.cxx 33-36): `v` and the new `z`. -/
noncomputable def llaStep (r2 c z : ℝ) : ℝ × ℝ :=
  let sinp := z / Real.sqrt (r2 + z * z)
  let v := A / Real.sqrt (1 - E2 * sinp * sinp)
  (v, c + v * E2 * sinp)

/-- The loop (wgs84.cxx 31-37): `z` and `v` at its end. -/
noncomputable def llaLoop (r2 c : ℝ) : ℕ → ℝ → Option (ℝ × ℝ)
  | 0, _ => none
  | n + 1, zk =>
    let s := llaStep r2 c zk
    if |s.2 - zk| ≥ 1e-4 then llaLoop r2 c n s.2 else some (s.2, s.1)

/-- `WGS84::ecef2lla` (wgs84.cxx 23-55). -/
noncomputable def ecef2lla (n : ℕ) (p : V3) : Option V3 :=
  let r2 := p 0 * p 0 + p 1 * p 1
  open Classical in
  if p = 0 then none else
    (llaLoop r2 (p 2) n (p 2)).map fun s =>
      let h := Real.sqrt (r2 + s.1 * s.1) - s.2
      if r2 > 1e-12 then ![Real.arctan (s.1 / Real.sqrt r2), atan2 (p 1) (p 0), h]
      else if p 2 > 0 then ![Real.pi / 2, 0, h]
      else ![-Real.pi / 2, 0, h]

/-- `WGS84::lla2ecef` (wgs84.cxx 64-77). -/
noncomputable def lla2ecef (l : V3) : V3 :=
  let sinp := Real.sin (l 0)
  let cosp := Real.cos (l 0)
  let sinl := Real.sin (l 1)
  let cosl := Real.cos (l 1)
  let e2 := F * (2 - F)
  let v := A / Real.sqrt (1 - e2 * sinp * sinp)
  ![(v + l 2) * cosp * cosl, (v + l 2) * cosp * sinl, (v * (1 - e2) + l 2) * sinp]

/-- `WGS84::q_e2n` (wgs84.cxx 138-144); the axes are unit vectors, so that `from_axis_angle` has a value. -/
noncomputable def qE2n (l : V3) : Option Quat := do
  let q1 ← Quat.fromAxisAngle ![0, 0, 1] (l 1)
  let q2 ← Quat.fromAxisAngle ![0, 1, 0] (-Real.pi / 2 - l 0)
  some (q1.otimes q2)

/-- `WGS84::dq_ecef2ned` (wgs84.cxx 79-87). -/
noncomputable def dqEcef2ned (n : ℕ) (p : V3) : Option DQuat := do
  let l ← ecef2lla n p
  let q ← qE2n l
  some (DQuat.ofQT q p)

/-- `WGS84::lla2ned` and `ned2lla` (wgs84.cxx 109-136). -/
noncomputable def lla2ned (l0 l : V3) : Option V3 :=
  (qE2n l0).map fun q => (DQuat.ofQT q (lla2ecef l0)).transformp (lla2ecef l)
noncomputable def ned2lla (n : ℕ) (l0 p : V3) : Option V3 :=
  (qE2n l0).bind fun q => ecef2lla n ((DQuat.ofQT q (lla2ecef l0)).transforma p)

/-! ### Azimuth and elevation -/

/-- `los2AzEl` (azel.cxx 8-19) in the local frame `q`: azimuth and elevation. -/
noncomputable def azelIn (q : Quat) (los : V3) : ℝ × ℝ :=
  let n := q.rotp (normalized los)
  (atan2 (n 1) (n 0), atan2 (-n 2) (Real.sqrt (n 1 * n 1 + n 0 * n 0)))

/-- `getAzEl` (azel.cxx 28-32). -/
noncomputable def getAzEl (n : ℕ) (rec sat : V3) : Option (ℝ × ℝ) :=
  (dqEcef2ned n rec).map fun d => azelIn d.r (sat - rec)

/-! ### The atmosphere -/

/-- `computeTroposphericDelay` (atm_correction.cxx 22-54), for latitude, height and elevation. -/
noncomputable def tropo (lat height el : ℝ) : ℝ :=
  open Classical in
  if height < -100 ∨ 1E4 < height ∨ el ≤ 0 then 0 else
    let hgt := max height 0
    let pres := 1013.25 * (1 - 2.2557E-5 * hgt) ^ (5.2568 : ℝ)
    let temp := 15 - 6.5E-3 * hgt + 273.16
    let e := 6.108 * 0.7 * Real.exp ((17.15 * temp - 4684) / (temp - 38.45))
    let z := Real.pi / 2 - el
    let trph := 0.0022768 * pres / (1 - 0.00266 * Real.cos (2 * lat) - 0.00028 * hgt / 1E3) / Real.cos z
    let trpw := 0.002277 * (1255 / temp + 0.05) * e / Real.cos z
    trph + trpw

/-- `C_LIGHT` (common/defs.h). -/
noncomputable def cLight : ℝ := 299792458

/-- `sat` (common/defs.h 40-43). -/
noncomputable def clamp (x lo hi : ℝ) : ℝ := if x > hi then hi else if x < lo then lo else x

/-- The amplitude (atm_correction.cxx 85) and the period (88) for the geomagnetic latitude. -/
noncomputable def amp (m : ℝ) : ℝ :=
  max (0.1118E-07 + m * (-0.7451E-08 + m * (-0.5961E-07 + m * 0.1192E-06))) 0
noncomputable def period (m : ℝ) : ℝ :=
  max (0.1167E+06 + m * (-0.2294E+06 + m * (-0.1311E+06 + m * 0.1049E+07))) 72000

/-- The earth-centred angle (atm_correction.cxx 69), in semicircles. -/
noncomputable def earthAngle (el : ℝ) : ℝ := 0.0137 / (el / Real.pi + 0.11) - 0.022

/-- The latitude (72) and the longitude (75) of the pierce point, and its geomagnetic latitude (78). -/
noncomputable def pierceLat (lat az el : ℝ) : ℝ := clamp (lat / Real.pi + earthAngle el * Real.cos az) (-0.416) 0.416
noncomputable def pierceLon (lat lon az el : ℝ) : ℝ :=
  lon / Real.pi + earthAngle el * Real.sin az / Real.cos (pierceLat lat az el * Real.pi)
noncomputable def pierceMag (lat lon az el : ℝ) : ℝ :=
  pierceLat lat az el + 0.064 * Real.cos ((pierceLon lat lon az el - 1.617) * Real.pi)

/-- The local time at the pierce point (81-82). -/
noncomputable def localTime (tow lam : ℝ) : ℝ :=
  let t := 43200 * lam + tow + 18
  t - ⌊t / 86400⌋ * 86400

/-- The slant factor (94). -/
noncomputable def slant (el : ℝ) : ℝ := 1 + 16 * (0.53 - el / Real.pi) ^ 3

/-- `computeIonosphericDelay` (atm_correction.cxx 56-106) at the time of the week `tow`. -/
noncomputable def iono (tow lat lon az el : ℝ) : ℝ :=
  let phiM := pierceMag lat lon az el
  let x := 2 * Real.pi * (localTime tow (pierceLon lat lon az el) - 50400) / period phiM
  if |x| ≤ 1.57 then
    let x2 := x * x
    let x4 := x2 * x2
    cLight * slant el * (5e-9 + amp phiM * (1 - x2 / 2 + x4 / 24))
  else cLight * slant el * 5e-9

/-- `computeAtmCorrection` (atm_correction.cxx 10-20): the ionospheric and the tropospheric delay. -/
noncomputable def atm (n : ℕ) (tow : ℝ) (rec sat : V3) : Option (ℝ × ℝ) := do
  let azel ← getAzEl n rec sat
  let l ← ecef2lla n rec
  some (iono tow (l 0) (l 1) azel.1 azel.2, tropo (l 0) (l 2) azel.2)

end Verif.Model.Wgs84
