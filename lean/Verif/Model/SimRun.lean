import Verif.Model.Time
import Mathlib.Data.Real.Basic
/-!
# Model of a run of the simulation: sim/simulate.cxx, sim/sim.cxx, sim/sensors/*, common/random.h

What is logged, when, and with which noise; the motion and the noise-free measurements are in
`Model/Sim.lean`.

* `std::default_random_engine` without a seed and a `std::normal_distribution` that is used with it
  alone give always the same numbers, `z 0, z 1, …`.  Every instantiation of `randomNormal<T>` has its
  own pair of them (random.h 13-14: statics of a template), `randomNormal(int, int)` has another
  (random.h 45-46), and `GnssSim` has one (gnss.h 74-75): five pairs, each at its own place of the same
  sequence.
* Real arithmetic; durations in seconds are exact; `1.0 / 0.0` is larger than every duration.
* `stop` is never set, as `inthand` is registered nowhere.  Ephemerides are C59.
-/
namespace Verif.SimRun
open Verif.Utc

/-- The options: simulate.cxx 37-38, sim.h 21, gnss.h 28-35, imu.h 18-22. -/
structure Opt where
  dt : ℚ
  tmax : ℚ
  inputNoise : ℝ
  gnssRate : ℝ
  rangeStd : ℝ
  phaseStd : ℝ
  dopplerStd : ℝ
  clockWalk : ℝ
  clockInit : ℝ
  imuRate : ℝ
  accelNoise : ℝ
  accelWalk : ℝ
  gyroNoise : ℝ
  gyroWalk : ℝ

/-- What the program has: the time (dynamics.h 37), the times of the last samples, the places of
the generators of `MatrixXd`, `Vec1`, `Vec3` and of `GnssSim`, the clock and the biases. -/
structure St where
  t : Time
  prevG : Time
  prevI : Time
  dyn : Nat
  v1 : Nat
  v3 : Nat
  gn : Nat
  bias : ℝ
  rate : ℝ
  ba : Fin 3 → ℝ
  bg : Fin 3 → ℝ

/-- What it does: noise on the input, observations with their noises (carrier phase, pseudorange,
Doppler) for each satellite, an IMU sample with its biases and noises, a record of the truth with the clock. -/
inductive Rec
  | input (a b : ℝ)
  | gnss (t : Time) (noise : List (ℝ × ℝ × ℝ))
  | imu (t : Time) (ba bg na ng : Fin 3 → ℝ)
  | truth (t : Time) (bias rate : ℝ)

/-- `randomNormal<Vec3>()` with the generator at place `k` (random.h 11-24). -/
def vec3 (z : Nat → ℝ) (k : Nat) : Fin 3 → ℝ := fun i => z (k + i)

/-- `toSec()`. -/
noncomputable def secs (d : Time) : ℝ := (toSecNs d : ℝ) / 10 ^ 9

/-- gnss.cxx 111, imu.cxx 21. -/
def Due (rate : ℝ) (d : Time) : Prop := rate ≠ 0 ∧ 1 / rate ≤ secs d

/-- sim.cxx 6-13, gnss.cxx 17-38, imu.cxx 9-16: the constructors.  `ra` and `rg` are the two
`Vec3::Random()`; `Vec2` has a generator of its own, which is used here only. -/
def init (o : Opt) (z : Nat → ℝ) (ra rg : Fin 3 → ℝ) (t0 : Time) : St where
  t := t0
  prevG := t0
  prevI := t0
  dyn := 0
  v1 := 0
  v3 := 0
  gn := 0
  bias := o.clockInit * z 0
  rate := o.clockWalk * z 1
  ba := fun i => o.accelWalk * ra i
  bg := fun i => o.gyroWalk * rg i

open Classical in
/-- gnss.cxx 97-146, for `nSat` satellites. -/
noncomputable def gnssSample (o : Opt) (nSat : Nat) (z : Nat → ℝ) (s : St) : Option (St × List Rec) := do
  let d ← sub s.t s.prevG
  if Due o.gnssRate d then
    let rate' := s.rate + o.clockWalk * z s.v1 * secs d
    let bias' := s.bias + (s.rate + rate') / 2 * secs d
    some ({ s with prevG := s.t, v1 := s.v1 + 1, gn := s.gn + 3 * nSat, bias := bias', rate := rate' },
      [.gnss s.t ((List.range nSat).map fun i =>
        (z (s.gn + 3 * i) * o.phaseStd, z (s.gn + 3 * i + 1) * o.rangeStd,
          z (s.gn + 3 * i + 2) * o.dopplerStd))])
  else some (s, [])

open Classical in
/-- imu.cxx 18-35. -/
noncomputable def imuSample (o : Opt) (z : Nat → ℝ) (s : St) : Option (St × List Rec) := do
  let d ← sub s.t s.prevI
  if Due o.imuRate d then
    let ba := fun i => s.ba i + vec3 z s.v3 i * o.accelNoise * secs d
    let bg := fun i => s.bg i + vec3 z (s.v3 + 3) i * o.gyroNoise * secs d
    some ({ s with prevI := s.t, v3 := s.v3 + 12, ba := ba, bg := bg },
      [.imu s.t ba bg (fun i => vec3 z (s.v3 + 6) i * o.accelNoise)
        (fun i => vec3 z (s.v3 + 9) i * o.gyroNoise)])
  else some (s, [])

/-- sim.cxx 15-33 and simulate.cxx 110-111. -/
noncomputable def step (o : Opt) (nSat : Nat) (z : Nat → ℝ) (s : St) : Option (St × List Rec) := do
  let t ← addSec s.t o.dt
  let g ← gnssSample o nSat z { s with t := t, dyn := s.dyn + 2 }
  let i ← imuSample o z g.1
  some (i.1, [.input (z s.dyn * o.inputNoise) (z (s.dyn + 1) * o.inputNoise)] ++ g.2 ++ i.2 ++
    [.truth i.1.t i.1.bias i.1.rate])

/-- How a run ends. -/
inductive Res
  | abort
  | running
  | done (s : St) (rs : List Rec)

/-- simulate.cxx 108-114, with a number of steps it may make. -/
noncomputable def loop (o : Opt) (nSat : Nat) (z : Nat → ℝ) (tEnd : Time) : Nat → St → Res
  | 0, _ => .running
  | n + 1, s =>
    if lt s.t tEnd then
      match step o nSat z s with
      | none => .abort
      | some r =>
        match loop o nSat z tEnd n r.1 with
        | .done s' rs => .done s' (r.2 ++ rs)
        | .running => .running
        | .abort => .abort
    else .done s []

/-- simulate.cxx 77-116; the state at the end gives the time the log is closed with. -/
noncomputable def simMain (o : Opt) (nSat : Nat) (z : Nat → ℝ) (ra rg : Fin 3 → ℝ) (t0 : Time) (fuel : Nat) : Res :=
  match addSec t0 o.tmax with
  | none => .abort
  | some tEnd => loop o nSat z tEnd fuel (init o z ra rg t0)

end Verif.SimRun
