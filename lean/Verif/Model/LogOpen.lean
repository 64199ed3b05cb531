import Verif.Model.LogWriter
/-!
# Model of opening a log for reading: common/logging/log_reader.cxx 27-168

On the file system of `Model/LogWriter.lean`.  The recursion over the logs that are amended is given a
number of calls it may make, so that one that never ends is `running` for every number.
Not modelled: failures of the YAML reader other than a missing field, the version, the printed
summary, and the stream files themselves (C25, C26): a stream is the directory its file is in.
-/
namespace Verif.LogOpen
open Verif.Utc Verif.LogWriter

/-- log_reader.cxx 27-31: `\d{8}_\d{6}`. -/
def isLogId (s : List Char) : Bool :=
  s.length == 15 && (s.take 8).all Char.isDigit && (s.drop 8).take 1 == ['_'] &&
    (s.drop 9).all Char.isDigit

/-- log_reader.cxx 33-52, `getLatestLog` of a directory with entries of the given names (without
extensions), which is not a log itself: the last of the sorted names; `none` is the access to the
last of none.  The code sorts the paths, which all begin with that of the directory. -/
def latest (names : List (List Char)) : Option (List Char) :=
  ((names.filter isLogId).mergeSort fun a b => decide (a ≤ b)).getLast?

/-- utctime.h 88-89. -/
def maxTime : Time := ⟨2 ^ 63 - 1, 999999999⟩
def minTime : Time := ⟨-2 ^ 63, 0⟩

/-- `std::min`, `std::max`. -/
def minT (a b : Time) : Time := if lt b a then b else a
def maxT (a b : Time) : Time := if lt a b then b else a

/-- log_reader.h 118-125. -/
structure Opened where
  start : Time
  stop : Time
  streams : Int → Option Dir
  amends : List Dir

def Opened.init : Opened := ⟨maxTime, minTime, fun _ => none, []⟩

/-- How opening ends. -/
inductive Res
  | abort
  | running
  | done (r : Opened)

/-- log_reader.cxx 123-127: `emplace` keeps a stream that is already there. -/
def addKeys (d : Dir) : List Int → (Int → Option Dir) → Int → Option Dir
  | [], st => st
  | k :: ks, st =>
    addKeys d ks fun j => if j = k then (match st k with | some e => some e | none => some d) else st j

/-- log_reader.cxx 96-140, `openLog`, with at most `n` calls.  The manifest of a log that was never
closed is missing, and that of one without streams has no `keys`. -/
def readLog (fs : FS φ) : Nat → Dir → Opened → Res
  | 0, _, _ => .running
  | n + 1, d, r =>
    match fs.read d .manifest with
    | some (.manifest m) =>
      match m.stop with
      | none => .abort
      | some e =>
        if m.keys = [] then .abort
        else
          let r' : Opened := { r with start := minT r.start m.start, stop := maxT r.stop e
                                      streams := addKeys d m.keys r.streams }
          match m.amends with
          | none => .done r'
          | some d' => readLog fs n d' { r' with amends := r'.amends ++ [d'] }
    | _ => .abort

end Verif.LogOpen
