import Verif.Model.Satellite
/-!
# Model of `mc::ekf::RtkEkfEstimator` (core/ekf/rtk_ekf_estimator.h, core/ekf/rtk_ekf_estimator.cxx)

Simplifications.
* A timestamp is its instant in nanoseconds (`Int`); the comparisons of `UTCTime` and
  `QuantizedTime` are the comparisons of instants they are proved to be for normalised times in
  C05 and C10 (`Props.Estimator.clock_bridge`).  `State::t` is a `QuantizedTime`, but the accessor
  `t()` hands it out as a `UTCTime`, so comparisons through `t()` are exact while comparisons that
  name `x.t` have a dead band of 50 us.
* The filter arithmetic is a parameter (`Filter`): `predict` and the three `update`s are arbitrary
  functions of their C++ arguments.  `predict` sets the time to `x.t + (t_new - x.t).toSec()`,
  which in exact arithmetic is `t_new`.  The finiteness checks inside them are not modelled, and
  the check `x.t != INVALID_TIME`, whose subtraction overflows (C11), is taken to pass.
* A `SatelliteCache` is recomputed from its arguments on every use (satellite_cache.cxx 27-60), so
  the observation update is a function of the state, the bundle and the satellite manager.
* `states_` is a `CircularBuffer<Snapshot>` with its default capacity: a queue of at most 99
  snapshots where `emplace_back` on a full queue evicts the front (C01, C02); `measurements_` is a
  list kept sorted by the insertion rule of `std::multiset` (after all equivalent elements).
* Logging is left out.
-/
namespace Verif.Est
open Verif.Sat

/-- Outcome of a call: a value, a failed `check` or uncaught exception, or undefined behaviour. -/
inductive Res (α : Type) where
  | ok (a : α)
  | abort
  | ub
deriving DecidableEq, Repr

def Res.bind {α β : Type} (r : Res α) (f : α → Res β) : Res β :=
  match r with
  | .ok a => f a
  | .abort => .abort
  | .ub => .ub

/-- quantized_time.h 20: half a quantum, 50 us. -/
def HALF : Int := 50000
/-- rtk_ekf_estimator.h 187: `MAX_DELAY_AGE_S`. -/
def MAX_DELAY : Int := 1000000000
/-- circular_buffer.h: `CircularBuffer<T>` has 100 slots, 99 usable. -/
def CAP : Nat := 99

/-- common/measurements/gnss_observation.h: time, satellite, rest. -/
structure Obs (ζ : Type) where
  t : Int
  gnss : Nat
  sat : Nat
  z : ζ
deriving DecidableEq, Repr

/-- rtk_ekf_estimator.h 71: the variant, alternatives in declaration order. -/
inductive Z (υ ζ : Type) where
  | imu (u : υ)
  | obs (l : List (Obs ζ))
  | pointPos (z : ζ)
  | fixHold (z : ζ)
deriving DecidableEq, Repr

/-- `std::variant::index`. -/
def Z.index {υ ζ : Type} : Z υ ζ → Nat
  | .imu _ => 0
  | .obs _ => 1
  | .pointPos _ => 2
  | .fixHold _ => 3

/-- rtk_ekf_estimator.h 68-71. -/
structure Meas (υ ζ : Type) where
  t : Int
  z : Z υ ζ
deriving DecidableEq, Repr

/-- rtk_ekf_estimator.h 73-83 on the two things it reads, the time and the variant index. -/
def keyLt (t : Int) (i : Nat) (t' : Int) (i' : Nat) : Bool :=
  if t = t' then decide (i < i') else decide (t < t')

/-- rtk_ekf_estimator.h 73-83, `Meas::operator<`. -/
def Meas.lt {υ ζ : Type} (a b : Meas υ ζ) : Bool := keyLt a.t a.z.index b.t b.z.index

/-- The generated `Snapshot`: time, state and covariance, last input. -/
structure Snap (σ υ : Type) where
  t : Int
  x : σ
  u : υ
deriving DecidableEq, Repr

/-- The numerical part: `predict` (state, time step in ns, input) and the `update`s. -/
structure Filter (σ υ ζ : Type) where
  predict : σ → Int → υ → σ
  updObs : Manager → σ → List (Obs ζ) → υ → σ
  updPointPos : σ → ζ → υ → σ
  updFixHold : σ → ζ → σ

/-- rtk_ekf_estimator.h 174-189, the members the algorithm uses. -/
structure Estimator (σ υ ζ : Type) where
  ms : List (Meas υ ζ)
  st : List (Snap σ υ)
  cache : List Nat
  mgr : Manager

variable {σ υ ζ : Type}

/-- rtk_ekf_estimator.h 37-40. -/
def cacheId (gnss sat : Nat) : Nat := (gnss <<< 8) ||| sat

/-- rtk_ekf_estimator.cxx 19-57. -/
def init (t0 : Int) (x0 : σ) (u0 : υ) : Estimator σ υ ζ :=
  ⟨[], [⟨t0, x0, u0⟩], [], Manager.init⟩

/-- `states_.emplace_back()` followed by filling the new element. -/
def emplaceBack (st : List (Snap σ υ)) (s : Snap σ υ) : List (Snap σ υ) :=
  (if st.length = CAP then st.drop 1 else st) ++ [s]

/-- rtk_ekf_estimator.cxx 94-103 with the checks of the generated `predict`
(ekf_gen_templates.py 614-661): `meas_time > t()` is exact, `t_new > x.t` is quantised. -/
def handleImu (F : Filter σ υ ζ) (st : List (Snap σ υ)) (t : Int) (z : υ) : Res (List (Snap σ υ)) :=
  match st.getLast? with
  | none => .ub
  | some b =>
    if t > b.t then
      if t - b.t > HALF then .ok (emplaceBack st ⟨t, F.predict b.x (t - b.t) z, z⟩) else .abort
    else .ok st

/-- rtk_ekf_estimator.cxx 107-110 (also 121-124, 148-151). -/
def catchUp (F : Filter σ υ ζ) (st : List (Snap σ υ)) (t : Int) : Res (List (Snap σ υ)) :=
  match st.getLast? with
  | none => .ub
  | some b => if t - b.t > HALF then handleImu F st t b.u else .ok st

/-- `update<...>(make_out(snap()), ...)`. -/
def modifyBack (st : List (Snap σ υ)) (f : Snap σ υ → σ) : Res (List (Snap σ υ)) :=
  match st.getLast? with
  | none => .ub
  | some b => .ok (st.dropLast ++ [{ b with x := f b }])

/-- rtk_ekf_estimator.cxx 154-158 and 76-87: the loop over the bundle; `true` if no check fails. -/
def bundleOk (cache : List Nat) (mgr : Manager) (t : Int) (l : List (Obs ζ)) : Bool :=
  l.all fun o => decide (o.t = t) && decide (cacheId o.gnss o.sat ∈ cache) &&
    (match getSat mgr o.gnss o.sat with | .found _ => true | _ => false)

/-- rtk_ekf_estimator.cxx 105-183: `handleMeas` and the four handlers. -/
def handleMeas (F : Filter σ υ ζ) (cache : List Nat) (mgr : Manager) (st : List (Snap σ υ)) (m : Meas υ ζ) :
    Res (List (Snap σ υ)) :=
  match m.z with
  | .imu u => handleImu F st m.t u
  | .pointPos z => (catchUp F st m.t).bind fun st => modifyBack st fun b => F.updPointPos b.x z b.u
  | .fixHold z => (catchUp F st m.t).bind fun st => modifyBack st fun b => F.updFixHold b.x z
  | .obs l => (catchUp F st m.t).bind fun st =>
      if bundleOk cache mgr m.t l then modifyBack st fun b => F.updObs mgr b.x l b.u else .abort

/-- rtk_ekf_estimator.cxx 185-196. -/
def rollFilter (F : Filter σ υ ζ) (cache : List Nat) (mgr : Manager) :
    List (Snap σ υ) → List (Meas υ ζ) → Res (List (Snap σ υ))
  | st, [] => .ok st
  | st, m :: rest => (handleMeas F cache mgr st m).bind fun st => rollFilter F cache mgr st rest

/-- rtk_ekf_estimator.h 127-130 on the reversed buffer: `while (t() > d) states_.pop_back()`; reading
`t()` of an empty buffer is undefined. -/
def popBackWhile (d : Int) : List (Snap σ υ) → Res (List (Snap σ υ))
  | [] => .ub
  | b :: rest => if b.t > d then popBackWhile d rest else .ok (b :: rest)

/-- rtk_ekf_estimator.cxx 65-68: `while (states_.front().x.t < t_start) states_.pop_front()`. -/
def popFrontWhile (tStart : Int) : List (Snap σ υ) → Res (List (Snap σ υ))
  | [] => .ub
  | s :: rest => if tStart - s.t > HALF then popFrontWhile tStart rest else .ok (s :: rest)

/-- rtk_ekf_estimator.cxx 59-69. -/
def dropOldMeasurements (e : Estimator σ υ ζ) : Res (Estimator σ υ ζ) :=
  match e.ms.getLast? with
  | none => .abort
  | some l =>
    let tStart := l.t - MAX_DELAY
    (popFrontWhile tStart e.st).bind fun st =>
      .ok { e with ms := e.ms.dropWhile (fun m => keyLt m.t m.z.index tStart 0), st := st }

/-- rtk_ekf_estimator.h 121-131: the rewind. -/
def rewind (ms : List (Meas υ ζ)) (st : List (Snap σ υ)) (t : Int) : Res (List (Snap σ υ)) :=
  match st.getLast? with
  | none => .ub
  | some b =>
    if t < b.t then
      match (ms.dropWhile (fun m => keyLt m.t m.z.index t 0)).head? with
      | none => .ub
      | some c => (popBackWhile c.t st.reverse).bind fun r => .ok r.reverse
    else .ok st

/-- rtk_ekf_estimator.h 107-117: every satellite of a bundle has a cache entry. -/
def knownSats (cache : List Nat) : Z υ ζ → Bool
  | .obs l => l.all fun o => decide (cacheId o.gnss o.sat ∈ cache)
  | _ => true

/-- What `addMeasurement` returns. -/
inductive Reply | none | stale | unknownSatellite
deriving DecidableEq, Repr

/-- rtk_ekf_estimator.h 119-137: everything after the two early returns. -/
def insertAndRoll (F : Filter σ υ ζ) (e : Estimator σ υ ζ) (m : Meas υ ζ) : Res (Estimator σ υ ζ) :=
  let before := e.ms.takeWhile (fun x => !m.lt x)
  let after := e.ms.dropWhile (fun x => !m.lt x)
  let ms := before ++ m :: after
  (rewind ms e.st m.t).bind fun st =>
    (rollFilter F e.cache e.mgr st (m :: after)).bind fun st =>
      dropOldMeasurements { e with ms := ms, st := st }

/-- rtk_ekf_estimator.h 97-138. -/
def addMeasurement (F : Filter σ υ ζ) (e : Estimator σ υ ζ) (m : Meas υ ζ) : Res (Reply × Estimator σ υ ζ) :=
  match e.st.head? with
  | none => .ub
  | some f =>
    if f.t - m.t > HALF then .ok (.stale, e)
    else if knownSats e.cache m.z = false then .ok (.unknownSatellite, e)
    else (insertAndRoll F e m).bind fun e' => .ok (.none, e')

/-- rtk_ekf_estimator.h 42-61: the constellation of an ephemeris type (common/defs.h). -/
def gnssOf : Const → Nat
  | .gps => 0
  | .glo => 6
  | .gal => 2

/-- rtk_ekf_estimator.h 193-202. -/
def ephCb (e : Estimator σ υ ζ) (c : Const) (eph : Eph) : Res (Estimator σ υ ζ) :=
  let id := cacheId (gnssOf c) eph.sat
  let cache := if id ∈ e.cache then e.cache else id :: e.cache
  match Sat.ephCb e.mgr c eph with
  | none => .abort
  | some mgr => .ok { e with cache := cache, mgr := mgr }

/-- What a user of the estimator can do after `init`. -/
inductive Op (υ ζ : Type) where
  | meas (m : Meas υ ζ)
  | eph (c : Const) (e : Eph)

/-- One call; the reply is dropped. -/
def step (F : Filter σ υ ζ) (e : Estimator σ υ ζ) : Op υ ζ → Res (Estimator σ υ ζ)
  | .meas m => (addMeasurement F e m).bind fun r => .ok r.2
  | .eph c x => ephCb e c x

/-- A history of calls. -/
def run (F : Filter σ υ ζ) : Estimator σ υ ζ → List (Op υ ζ) → Res (Estimator σ υ ζ)
  | e, [] => .ok e
  | e, o :: rest => (step F e o).bind fun e => run F e rest

/-- A history of measurements, together with the accepted ones in arrival order. -/
def deliver (F : Filter σ υ ζ) : Estimator σ υ ζ → List (Meas υ ζ) → Res (List (Meas υ ζ) × Estimator σ υ ζ)
  | e, [] => .ok ([], e)
  | e, m :: rest => (addMeasurement F e m).bind fun r =>
      (deliver F r.2 rest).bind fun p => .ok (if r.1 = .none then m :: p.1 else p.1, p.2)

end Verif.Est
