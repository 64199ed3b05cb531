import Verif.Model.Time
import Verif.Model.Imu
import Verif.Model.Utils

/-!
Model of the simulator: `sim/sensors/gnss.cxx`, `sim/sensors/imu.cxx`, `sim/dynamics/dynamics.cxx`,
`sim/dynamics/car.cxx` and the order of events in `sim/sim.cxx`.

Simplifications: real arithmetic; noise and biases are zero (the deterministic part of each measurement); a call to
`front()` on an empty vector is undefined behaviour and gives `none`; a time difference in `toSec()` is an exact number.
-/

namespace Verif.Model.Sim

open Verif.Model.Lie Verif.Model.Imu Verif.Utc

/-! ### Ephemeris replay -/

/-- `GnssSim::sampleGpsEph`, `sampleGloEph` and `sampleGalEph` (gnss.cxx 146-179): the ephemerides left and the one
handed out. -/
def sampleEph {E : Type} : List (Time × E) → Time → Option (List (Time × E) × Option E)
  | [], _ => none
  | (t0, e) :: q, t => if ge t0 t = true then some (q, some e) else some ((t0, e) :: q, none)

/-- Calls at a sequence of times: what is handed out at each. -/
def replay {E : Type} : List (Time × E) → List Time → Option (List (Option E))
  | _, [] => some []
  | q, t :: ts => do
    let r ← sampleEph q t
    let rest ← replay r.1 ts
    some (r.2 :: rest)

/-! ### Rate limiting -/

/-- The test of `ImuSim::sample` (imu.cxx 20-24) and `GnssSim::sample` (gnss.cxx 108-111): the new `prev_t_` and
whether a sample is produced. -/
noncomputable def rateStep (rate prev t : ℝ) : ℝ × Bool :=
  open Classical in if t - prev ≥ 1 / rate then (t, true) else (prev, false)

/-- The times of the samples produced by calls at a sequence of times. -/
noncomputable def samples (rate : ℝ) : ℝ → List ℝ → List ℝ
  | _, [] => []
  | prev, t :: ts =>
    let r := rateStep rate prev t
    if r.2 then t :: samples rate r.1 ts else samples rate r.1 ts

/-! ### Motion -/

/-- `TwoJet` (two_jet.h 9-17): pose, velocity and acceleration in the body frame. -/
structure Jet where
  x : DQuat
  dx : V6
  d2x : V6

/-- The accelerometer of `ImuSim::sample` (imu.cxx 29-30). -/
noncomputable def imuAccel (j : Jet) : V3 := j.d2x.v - j.x.r.rota GRAVITY

/-- The gyroscope (imu.cxx 31). -/
def imuGyro (j : Jet) : V3 := j.dx.w

/-- Position of the antenna (gnss.cxx 99-100). -/
def antPos (Te2n : DQuat) (p : V3) (x : DQuat) : V3 := Te2n.transforma (x.transforma p)

/-- Velocity of the antenna (gnss.cxx 101-104). -/
def antVel (Te2n : DQuat) (p : V3) (j : Jet) : V3 :=
  (j.x.r.inverse.otimes Te2n.r.inverse).rotp (cross j.dx.w p + j.dx.v)

/-- `plus` (dynamics.cxx 14-21). -/
noncomputable def plus (j : Jet) (d2x : V6) (dt : ℝ) : Jet where
  x := j.x.otimes (DQuat.exp ⟨dt • j.dx.w + (dt * dt * 0.5) • j.d2x.w, dt • j.dx.v + (dt * dt * 0.5) • j.d2x.v⟩)
  dx := ⟨j.dx.w + dt • d2x.w, j.dx.v + dt • d2x.v⟩
  d2x := d2x

/-! ### The car -/

/-- The options used of the car (car.h 17-26, dynamics.h 15-19). -/
structure Car where
  mass : ℝ
  inertia : V3
  wheelRadius : ℝ
  axleWidth : ℝ
  track : ℝ

/-- `SimCar::compute_wrench` (car.cxx 18-30) for the torques of the two wheels. -/
noncomputable def wrench (o : Car) (ul ur : ℝ) : V6 :=
  let Fl : V3 := ![ul / o.wheelRadius, 0, 0]
  let Fr : V3 := ![ur / o.wheelRadius, 0, 0]
  let rl : V3 := ![-o.track, o.axleWidth / 2, 0]
  let rr : V3 := ![-o.track, -o.axleWidth / 2, 0]
  { v := Fl + Fr, w := cross rl Fl + cross rr Fr }

/-- `Dynamics::f` (dynamics.cxx 23-31). -/
noncomputable def accel (o : Car) (ul ur : ℝ) : V6 :=
  let h := wrench o ul ur
  { v := ![h.v 0 / o.mass, h.v 1 / o.mass, h.v 2 / o.mass],
    w := ![h.w 0 / o.inertia 0, h.w 1 / o.inertia 1, h.w 2 / o.inertia 2] }

/-- `Dynamics::step` (dynamics.cxx 33-40) of the car. -/
noncomputable def carStep (o : Car) (j : Jet) (ul ur dt : ℝ) : Jet := plus j (accel o ul ur) dt

/-- The last part of `SimCar::controller` (car.cxx 41-46), for commanded forward and turning accelerations: the torques
of the wheels. -/
noncomputable def invert (o : Car) (acc alp : ℝ) : ℝ × ℝ :=
  let Fl := 0.5 * (acc - alp / o.axleWidth)
  let Fr := 0.5 * (alp / o.axleWidth + acc)
  (Fl * o.wheelRadius, Fr * o.wheelRadius)

/-- The time step that `Sim::step` passes to the controllers (sim.cxx 16-19, car.cxx 34): `controller(t(), …)` where
`t()` is `prev_t_`. -/
def controlDt (t : ℝ) : ℝ := t - t

/-- The command (car.cxx 67-86): speed and turning rate for the error direction `e` and the forward direction `f`. -/
noncomputable def command (maxSpeed maxOmega : ℝ) (e f : V3) : ℝ × ℝ :=
  let d := dot e f
  let xi := cross e f 2
  open Classical in
  if |xi| > Real.arcsin (15 * Real.pi / 180) then (1, -maxOmega * xi) else (maxSpeed * d ^ 8, -maxOmega * xi)

/-- `WaypointFollower::follow` (car.cxx 54-87) with waypoints `w`, from index `i`: new index and command. The member
`current_waypoint_` is not initialised (car.h 52): a follower that was not given an index has undefined behaviour. -/
noncomputable def follow (w : List V3) (close maxSpeed maxOmega : ℝ) (i : ℕ) (x : DQuat) : ℕ × (ℝ × ℝ) :=
  let target := w.getD (i % w.length) 0
  let error := target - x.translation
  let near := vnorm error < close
  open Classical in
  let i' := if near then i + 1 else i
  let error := if near then w.getD (i' % w.length) 0 - x.translation else error
  (i', command maxSpeed maxOmega ((vnorm error)⁻¹ • error) (x.r.rota ![1, 0, 0]))

end Verif.Model.Sim
