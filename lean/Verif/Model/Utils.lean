import Mathlib.Algebra.Order.Field.Basic
/-!
# Model of small helpers

utils/strip_string.cxx, utils/split_string.cxx, utils/progress_bar.cxx (`ms_to_stamp`),
sim/controllers/pid.cxx, common/defs.h (`sign`, `sat`), common/matrix_defs.h (`isNan`,
`isFinite`, `argsort`).  `double` is an exact ordered field `K` except in `isFinite`, where NaN and
the infinities are explicit.
-/
namespace Verif.Utils

/-! ### Strings -/

/-- utils/strip_string.cxx 9-16: the inner loop over `remove_chars`; result is `add`. -/
def keep (c : Char) : List Char → Bool
  | [] => true
  | bad :: rest => if bad = c then false else keep c rest

/-- utils/strip_string.cxx 3-23: the loop over the characters; `out` is the string built so far. -/
def stripLoop (remove : List Char) : List Char → List Char → List Char
  | [], out => out
  | c :: rest, out => stripLoop remove rest (if keep c remove then out ++ [c] else out)

def stripString (s : List Char) (remove : List Char) : List Char := stripLoop remove s []

/-- `std::getline(ss, token, delim)` on the unread part of a stringstream: fails when nothing is
left; otherwise extracts up to and including the delimiter, which is dropped. -/
def getline (delim : Char) : List Char → Option (List Char × List Char)
  | [] => none
  | c :: rest =>
    if c = delim then some ([], rest)
    else match getline delim rest with
      | none => some ([c], [])
      | some (tok, r) => some (c :: tok, r)

/-- What is left is shorter (needed for the termination of the loop). -/
theorem getline_length {d : Char} : ∀ {s tok r : List Char}, getline d s = some (tok, r) → r.length < s.length := by
  intro s
  induction s with
  | nil => intro tok r h; simp [getline] at h
  | cons c rest ih =>
    intro tok r h
    rw [getline] at h
    split at h
    · simp at h; simp [← h.2]
    · cases hg : getline d rest with
      | none => rw [hg] at h; simp at h; simp [h.2]
      | some p =>
        obtain ⟨t, r'⟩ := p
        rw [hg] at h
        simp at h
        have := ih hg
        rw [← h.2]; simp; omega

/-- utils/split_string.cxx 10-20. -/
def splitString (s : List Char) (delim : Char) : List (List Char) :=
  match h : getline delim s with
  | none => []
  | some (tok, r) => tok :: splitString r delim
termination_by s.length
decreasing_by exact getline_length h

/-! ### Durations -/

/-- One printed field: value and minimal width (`%d` is width 0). -/
abbrev PField := Int × Nat

/-- utils/progress_bar.cxx 118-144, `ms_to_stamp`: the fields handed to `sprintf`, which joins
them with colons.  C's `%` and `/` truncate.  No intermediate value leaves the range of `int`. -/
def msToStamp (ms : Int) : List PField :=
  if ms ≤ 0 then []
  else
    let millis := ms.tmod 1000
    let sec := ((ms - millis).tmod (60 * 1000)).tdiv 1000
    let min := ((ms - (millis + sec * 1000)).tmod (60 * 60 * 1000)).tdiv (60 * 1000)
    let hour := ((ms - (millis + (sec + min * 60) * 1000)).tmod (24 * 60 * 60 * 1000)).tdiv (60 * 60 * 1000)
    let day := ((ms - (millis + (sec + (min + hour * 60) * 60) * 1000)).tdiv (24 * 60 * 60 * 1000)).tdiv
      (24 * 60 * 60 * 1000)
    if day > 0 then [(day, 0), (hour, 0), (min, 2), (sec, 2), (millis, 3)]
    else if hour > 0 then [(hour, 0), (min, 2), (sec, 2), (millis, 3)]
    else if min > 0 then [(min, 0), (sec, 2), (millis, 3)]
    else if sec > 0 then [(sec, 0), (millis, 3)]
    else [(millis, 0)]

/-! ### PID -/

section Pid
variable {K : Type} [Field K] [LinearOrder K]

/-- sim/controllers/pid.h 14-21. -/
structure PidOpt (K : Type) where
  kp : K
  ki : K
  kd : K
  max : K
  tau : K

/-- pid.h 28-31. -/
structure Pid (K : Type) where
  integrator : K
  differentiator : K
  prevX : K

/-- pid.cxx 9-12. -/
def pidInit : Pid K := ⟨0, 0, 0⟩

/-- pid.cxx 38-75, the five-argument `run`: new state and output. -/
def pidRun5 (o : PidOpt K) (s : Pid K) (dt x xc : K) (upd : Bool) (xdot : K) : Pid K × K :=
  let error := xc - x
  let p := error * o.kp
  let d := if o.kd > 0 then o.kd * xdot else 0
  let integ := if o.ki > 0 ∧ upd = true then s.integrator + error * dt else s.integrator
  let i := if o.ki > 0 ∧ upd = true then o.ki * integ else 0
  let u := p - d + i
  let usat := if u > o.max then o.max else if u < -1 * o.max then -1 * o.max else u
  let integ' := if u ≠ usat ∧ |i| > |u - p + d| ∧ o.ki > 0 then (usat - p + d) / o.ki else integ
  ({ s with integrator := integ' }, usat)

/-- pid.cxx 14-36, the four-argument `run`; `thr` is the literal 0.0001. -/
def pidRun (o : PidOpt K) (thr : K) (s : Pid K) (dt x xc : K) (upd : Bool) : Pid K × K :=
  let diff := if dt > thr then
      (2 * o.tau - dt) / (2 * o.tau + dt) * s.differentiator + 2 / (2 * o.tau + dt) * (x - s.prevX)
    else s.differentiator
  let xdot := if dt > thr then diff else 0
  pidRun5 o { s with differentiator := diff, prevX := x } dt x xc upd xdot

end Pid

/-! ### defs.h -/

section Sat
variable {T : Type} [LinearOrder T]

/-- common/defs.h 40-43. -/
def sat (x lo hi : T) : T := if x > hi then hi else if x < lo then lo else x

/-- common/defs.h 34-37: the difference of the two comparison results. -/
def sign [Zero T] [IntCast T] (x : T) : T :=
  (((if x ≥ 0 then 1 else 0) - (if x < 0 then 1 else 0) : Int) : T)
end Sat

/-! ### isFinite -/

/-- A `double` up to rounding: finite value, infinity or NaN. -/
inductive Dbl where
  | fin (x : Rat)
  | inf (neg : Bool)
  | nan

/-- IEEE `==`: NaN differs from everything. -/
def Dbl.eq : Dbl → Dbl → Bool
  | .fin x, .fin y => decide (x = y)
  | .inf a, .inf b => a == b
  | _, _ => false

/-- common/matrix_defs.h 141-145. -/
def isNan {r c : Nat} (m : Fin r → Fin c → Dbl) : Bool :=
  (List.finRange r).any fun i => (List.finRange c).any fun j => !(m i j).eq (m i j)

/-- common/matrix_defs.h 147-151 (153-157 is the same on a diagonal). -/
def isFinite {r c : Nat} (m : Fin r → Fin c → Dbl) : Bool :=
  (List.finRange r).all fun i => (List.finRange c).all fun j => (m i j).eq (m i j)

/-! ### argsort -/

/-- matrix_defs.h 174-179: pairs of index and value. -/
def argsortData {K : Type} (x : List K) : List (Nat × K) := x.zipIdx.map fun p => (p.2, p.1)

/-- What `std::sort` guarantees (matrix_defs.h 180): a permutation in which no element is smaller
than an earlier one; the order of equal keys is unspecified. -/
def SortedBy {K : Type} [LE K] (out data : List (Nat × K)) : Prop :=
  out.Perm data ∧ out.Pairwise fun a b => a.2 ≤ b.2

/-- matrix_defs.h 181-184: `indices(data[i].first) = i` for increasing `i`, from entry `i` on. -/
def argsortStore {K : Type} : List (Nat × K) → Nat → (Nat → Nat) → (Nat → Nat)
  | [], _, ind => ind
  | p :: rest, i, ind => argsortStore rest (i + 1) (fun j => if j = p.1 then i else ind j)

/-- matrix_defs.h 170-186, given the outcome of `std::sort`; the result vector starts
uninitialised (`junk`). -/
def argsort {K : Type} (sorted : List (Nat × K)) (junk : Nat → Nat) : Nat → Nat :=
  argsortStore sorted 0 junk

end Verif.Utils
