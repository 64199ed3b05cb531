import Verif.Model.Time
/-!
# Model of common/satellite/satellite.h (almanac) and core/sat_manager.cxx

An ephemeris is reduced to the fields the bookkeeping looks at; `data` stands for all the others.
`none` is the abort of a failed `check`, or a signed overflow in a time difference.
The `CircularBuffer<Satellite, 30>` is the bounded queue (capacity 29) it is proved to implement
(C01, C02) for the `emplace_back`/`pop_front` calls made here.
-/
namespace Verif.Sat
open Verif.Utc

/-- common/ephemeris/{gps,galileo,glonass}.h: `gnssID`, `sat`, `toe`, rest. -/
structure Eph where
  gnss : Nat
  sat : Nat
  toe : Time
  data : Nat
deriving DecidableEq, Repr

/-- satellite.h 30-31, 103. -/
structure Satellite where
  gnss : Nat
  sat : Nat
  almanac : List Eph
deriving DecidableEq, Repr

/-- satellite.h 44-66: the insertion loop and the final `push_back`. -/
def insertEph (eph : Eph) : List Eph → List Eph
  | [] => [eph]
  | it :: rest =>
    if eq it.toe eph.toe then eph :: rest
    else if gt it.toe eph.toe then eph :: it :: rest
    else it :: insertEph eph rest

/-- satellite.h 39-66, `addEph`. -/
def addEph (s : Satellite) (eph : Eph) : Option Satellite :=
  if eph.gnss ≠ s.gnss then none
  else if eph.sat ≠ s.sat then none
  else some { s with almanac := insertEph eph s.almanac }

/-- satellite.h 74-87: the loop of `findClosestEphemeris`, on the reversed almanac; `best` is
`(dt, min_it)`, `none` before the first iteration (`dt` = DBL_MAX). -/
def closestLoop (t : Time) : List Eph → Option (Int × Eph) → Option (Option (Int × Eph))
  | [], best => some best
  | it :: rest, best => do
    let d ← sub t it.toe
    let dt : Int := (toSecNs d).natAbs
    match best with
    | none => closestLoop t rest (some (dt, it))
    | some (bdt, b) => if dt < bdt then closestLoop t rest (some (dt, it)) else some (some (bdt, b))

/-- satellite.h 68-90. -/
def findClosestEphemeris (s : Satellite) (t : Time) : Option Eph :=
  if s.almanac = [] then none
  else do
    let r ← closestLoop t s.almanac.reverse none
    let p ← r
    some p.2

/-! ### Satellite manager -/

/-- sat_manager.h 29: `MAX_SAT - 1` usable slots. -/
def CAP : Nat := 29

/-- sat_manager.cxx 5-29: the first satellite with that number. -/
def find (sat : Nat) : List Satellite → Option Satellite
  | [] => none
  | s :: rest => if s.sat = sat then some s else find sat rest

/-- Applying `addEph` through the pointer returned by `find`. -/
def updateFirst (eph : Eph) : List Satellite → Option (List Satellite)
  | [] => none
  | s :: rest =>
    if s.sat = eph.sat then do let s' ← addEph s eph; some (s' :: rest)
    else do let r ← updateFirst eph rest; some (s :: r)

/-- sat_manager.cxx 31-52, the static `addEph`. -/
def addEphTo (eph : Eph) (l : List Satellite) : Option (List Satellite) :=
  match find eph.sat l with
  | some _ => updateFirst eph l
  | none =>
    let l := if l.length = CAP then l.drop 1 else l
    do let s ← addEph ⟨eph.gnss, eph.sat, []⟩ eph
       some (l ++ [s])

/-- Which overload of `ephCb` is called. -/
inductive Const | gps | glo | gal
deriving DecidableEq, Repr

/-- sat_manager.h 31-33. -/
structure Manager where
  gps : List Satellite
  glo : List Satellite
  gal : List Satellite

def Manager.init : Manager := ⟨[], [], []⟩

/-- sat_manager.cxx 54-67. -/
def ephCb (m : Manager) (c : Const) (eph : Eph) : Option Manager :=
  match c with
  | .gps => (addEphTo eph m.gps).map fun l => { m with gps := l }
  | .glo => (addEphTo eph m.glo).map fun l => { m with glo := l }
  | .gal => (addEphTo eph m.gal).map fun l => { m with gal := l }

/-- A history of callbacks. -/
def runCbs : Manager → List (Const × Eph) → Option Manager
  | m, [] => some m
  | m, (c, e) :: rest => do let m' ← ephCb m c e; runCbs m' rest

/-- Result of `getSat`. -/
inductive GetSat
  | unsupported
  | unknown
  | found (s : Satellite)
deriving DecidableEq

/-- sat_manager.cxx 69-93; common/defs.h: GPS = 0, Galileo = 2, Glonass = 6. -/
def getSat (m : Manager) (gnss sat : Nat) : GetSat :=
  let of : Option Satellite → GetSat := fun o => match o with
    | none => .unknown
    | some s => .found s
  match gnss with
  | 0 => of (find sat m.gps)
  | 6 => of (find sat m.glo)
  | 2 => of (find sat m.gal)
  | _ => .unsupported

end Verif.Sat
