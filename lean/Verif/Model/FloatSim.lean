import Verif.Model.FloatTime
/-!
# Model of the times of a run of the simulation in `double`s

sim/simulate.cxx 77-116, sim/sim.cxx 15-33, sim/sensors/gnss.cxx 110-113, sim/sensors/imu.cxx 20-23.

`Model/SimRun.lean` has the whole run without rounding; here are only its times: the state is the
time and the times of the last samples, a record says when a step was made and which sensors were
sampled in it.  `stop` is never set.
-/
namespace Verif.FSim
open Verif.Utc Verif.FTime

/-- simulate.cxx 37-38, gnss.h 28, imu.h 18. -/
structure Opt where
  dt : ℚ
  tmax : ℚ
  gnssRate : ℚ
  imuRate : ℚ

/-- dynamics.h 37, `prev_t_` of gnss.h and of imu.h. -/
structure St where
  t : Time
  prevG : Time
  prevI : Time

/-- The time after a step; whether the GNSS and the IMU were sampled. -/
structure Rec where
  t : Time
  gnss : Bool
  imu : Bool

/-- sim.cxx 15-33. -/
def step (r : ℚ → ℚ) (fma : Bool) (o : Opt) (s : St) : Option (St × Rec) := do
  let t ← addSec r s.t o.dt
  let g ← due r fma o.gnssRate t s.prevG
  let i ← due r fma o.imuRate t s.prevI
  some (⟨t, if g then t else s.prevG, if i then t else s.prevI⟩, ⟨t, g, i⟩)

/-- How a run ends. -/
inductive Res
  | abort
  | running
  | done (t : Time) (rs : List Rec)

/-- simulate.cxx 108-114, with a number of steps it may make. -/
def loop (r : ℚ → ℚ) (fma : Bool) (o : Opt) (tEnd : Time) : Nat → St → Res
  | 0, _ => .running
  | n + 1, s =>
    if lt s.t tEnd then
      match step r fma o s with
      | none => .abort
      | some q =>
        match loop r fma o tEnd n q.1 with
        | .done t rs => .done t (q.2 :: rs)
        | .running => .running
        | .abort => .abort
    else .done s.t []

/-- simulate.cxx 77-116, with the constructors (gnss.cxx 17-38, imu.cxx 9-16): the last samples
are at the beginning. -/
def simMain (r : ℚ → ℚ) (fma : Bool) (o : Opt) (t0 : Time) (fuel : Nat) : Res :=
  match addSec r t0 o.tmax with
  | none => .abort
  | some tEnd => loop r fma o tEnd fuel ⟨t0, t0, t0⟩

end Verif.FSim
