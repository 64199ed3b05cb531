import Verif.Model.PostProcess
import Verif.Spec.Time
import Mathlib.Data.List.SplitBy
/-!
# What the replay of a log should do: C114
-/
namespace Verif.Spec.PostProcess

open Verif.Utc Verif.Post Verif.TimeSpec

variable {ι ω : Type}

/-- Stamps a program meets in practice: normalised, from 1970 on, with room for sums. -/
def Good (t : Time) : Prop := Norm t ∧ 0 ≤ t.sec ∧ t.sec < 2 ^ 61

/-- The IMU samples among the records, with their stamps. -/
def imuRecs (recs : List (Rec ι ω)) : List (Time × ι) :=
  recs.filterMap fun r => match r.data with | .imu z => some (r.t, z) | .obs _ _ => none

/-- The observations among the records: stamp, time of the observation, contents. -/
def obsRecs (recs : List (Rec ι ω)) : List (Time × Time × ω) :=
  recs.filterMap fun r => match r.data with | .imu _ => none | .obs s z => some (r.t, s, z)

/-- The IMU samples given to the filter. -/
def imuCalls (calls : List (Call ι ω)) : List (Time × ι) :=
  calls.filterMap fun c => match c with | .imu t z => some (t, z) | _ => none

/-- The bundles given to the filter. -/
def obsCalls (calls : List (Call ι ω)) : List (Time × List (Time × ω)) :=
  calls.filterMap fun c => match c with | .obs t b => some (t, b) | _ => none

/-- The times at which an estimate is logged. -/
def estCalls (calls : List (Call ι ω)) : List Time :=
  calls.filterMap fun c => match c with | .estimate t => some t | _ => none

/-- Two successive observation records belong together: at most 10 ms between their stamps. -/
def near (a b : Time × Time × ω) : Bool := decide (instant b.1 - instant a.1 ≤ 10 ^ 7)

/-- The observation records, cut where more than 10 ms pass. -/
def stretches (recs : List (Rec ι ω)) : List (List (Time × Time × ω)) := (obsRecs recs).splitBy near

end Verif.Spec.PostProcess
