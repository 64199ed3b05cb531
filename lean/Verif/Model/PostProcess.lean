import Verif.Model.Time
/-!
# Model of the replay of a log by the post processor

tools/post_process.cxx 59-111 (the time of the initial state), 208-257 (the callbacks), with the
loop of `LogReader::read` (common/logging/log_reader.cxx 197-244) that calls them.

The records of the two streams are given in the order in which `LogReader::read` calls their
callbacks (C26).  `ι` and `ω` are what an IMU sample and an observation hold besides the time of the
observation.  The result is the list of calls that reach the filter and the output log, in order;
`none` stands for a signed overflow in the arithmetic of time.  The double `0.01` is `1/100`.
-/
namespace Verif.Post

open Verif.Utc

variable {ι ω : Type}

/-- What the two callbacks read. -/
inductive Data (ι ω : Type) where
  | imu (z : ι)
  | obs (t : Time) (z : ω)

/-- A record: the stamp it was logged with and its contents. -/
structure Rec (ι ω : Type) where
  t : Time
  data : Data ι ω

/-- The calls made: an estimate is logged (223-225), `ekf.addMeasurement` with an IMU sample (237),
`ekf.addMeasurement` with a bundle of observations (251). -/
inductive Call (ι ω : Type) where
  | estimate (t : Time)
  | imu (t : Time) (z : ι)
  | obs (t : Time) (bundle : List (Time × ω))

/-- utctime.h 120: `MAX_TIME`. -/
def MAX_TIME : Time := ⟨2 ^ 63 - 1, 0⟩

/-- post_process.cxx 59-111: the member `t` of the state `getState` returns.  The time of the first
record of the truth (77) or of the log (`start`, 89) goes to a local variable that is not used
again; `x.t` keeps the value of the default constructor (utctime.cxx 18-22). -/
def getStateTime (_start : Time) : Time :=
  let _t := _start
  ⟨0, 0⟩

/-- `reader.nextStamp()` in the callback of the observations: the stamp of the next record of their
stream. -/
def nextStamp : List (Rec ι ω) → Time
  | [] => MAX_TIME
  | r :: rs => match r.data with
    | .obs _ _ => r.t
    | .imu _ => nextStamp rs

/-- post_process.cxx 244-247: the observation joins the bundle if it is the first or has the time of
the first. -/
def addObs (bundle : List (Time × ω)) (s : Time) (z : ω) : List (Time × ω) :=
  match bundle with
  | [] => [(s, z)]
  | f :: _ => if Utc.eq f.1 s then bundle ++ [(s, z)] else bundle

/-- log_reader.cxx 199-244 with the callbacks of post_process.cxx 218-255.  `x0t` is `x0.t`, `next`
the `next_call` of the maintenance callback, `bundle` is `obs_bundle`. -/
def run (x0t : Time) : Time → List (Time × ω) → List (Rec ι ω) → Option (List (Call ι ω))
  | _, _, [] => some []
  | next, bundle, r :: rs => do
    let due ← geq r.t (quantized next)
    let exit ← if due then (sub r.t x0t).map fun d => decide (toSecNs d > 45000000000) else some false
    let next' ← if due then addSec next (1 / 100) else some next
    if exit then some []
    else
      let est := if due then [Call.estimate r.t] else []
      match r.data with
      | .imu z => do
        let out ← run x0t next' bundle rs
        some (est ++ Call.imu r.t z :: out)
      | .obs s z => do
        let b := addObs bundle s z
        let gap ← sub (nextStamp rs) r.t
        if toSecNs gap > 10000000 then do
          let out ← run x0t next' [] rs
          some (est ++ Call.obs r.t b :: out)
        else do
          let out ← run x0t next' b rs
          some (est ++ out)

/-- post_process.cxx 191-257: the replay of a log that starts (by its manifest) at `start`. -/
def postProcess (start : Time) (recs : List (Rec ι ω)) : Option (List (Call ι ω)) :=
  run (getStateTime start) start [] recs

end Verif.Post
