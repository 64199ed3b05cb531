import Verif.Model.Orbit
import Verif.Model.Sdr
/-!
# Loops with a floating point test, with rounding

Models of the loops of `common/satellite/satellite_state.cxx` (139-151) and `third_party/gps_sdr_sim/gps_sdr_sim.cxx`
(121-127, 360-361), in which every operation is followed by a rounding `r`.  The functions without rounding are in
`Model/Orbit.lean` and `Model/Sdr.lean`.

Simplifications: no products are fused with sums; a bound on the number of iterations, `none` when it is reached.
-/
namespace Verif.FloatLoops

section
variable {K : Type} [Field K] [LinearOrder K]

/-- The time steps of the integration of GLONASS orbits (satellite_state.cxx 139-151): `step` is `timestep`, `dt` the time
left, `tol` the literal `1e-9`.  The integration itself does not touch these variables. -/
def gloSteps (r : K → K) (tol : K) : ℕ → K → K → Option (List K)
  | 0, _, _ => none
  | n + 1, step, dt =>
    if |dt| > tol then
      let step := if |dt| < 60 then dt else step
      (gloSteps r tol n step (r (dt - step))).map (step :: ·)
    else some []

/-- gps_sdr_sim.cxx 360-361: the time of the day. -/
def down (r : K → K) : ℕ → K → Option K
  | 0, _ => none
  | n + 1, t => if t ≥ 86400 then down r n (r (t - 86400)) else some t
def upward (r : K → K) : ℕ → K → Option K
  | 0, _ => none
  | n + 1, t => if t < 0 then upward r n (r (t + 86400)) else some t
def dayTime (r : K → K) (fuel : ℕ) (t : K) : Option K := (down r fuel t).bind (upward r fuel)

end

/-- The divisor `OneMinusecosE` (gps_sdr_sim.cxx 125); `c` is the library's cosine. -/
noncomputable def om (r c : ℝ → ℝ) (e x : ℝ) : ℝ := r (1 - r (e * c x))

/-- The new `ek` (gps_sdr_sim.cxx 126); `s` is the library's sine. -/
noncomputable def newtonR (r s c : ℝ → ℝ) (e M x : ℝ) : ℝ :=
  r (x + r (r (r (M - x) + r (e * s x)) / om r c e x))

/-- The loop for the eccentric anomaly (gps_sdr_sim.cxx 121-127): `ek` and `OneMinusecosE` at its end; `tol` is the literal
`1.0E-14`. -/
noncomputable def anomaly (r s c : ℝ → ℝ) (tol e M : ℝ) : ℕ → ℝ → ℝ → ℝ → Option (ℝ × ℝ)
  | 0, _, _, _ => none
  | n + 1, p, x, o =>
    if |r (x - p)| > tol then anomaly r s c tol e M n x (newtonR r s c e M x) (om r c e x) else some (x, o)

end Verif.FloatLoops
