import Verif.Model.Logging
import Verif.Model.Time
/-!
# Model of common/logging/log_writer.{h,cxx}: the life of a log on disk

A file system has directories, names in them, and the contents (inodes) the names refer to; a stream
that was opened keeps its inode when the name is removed.  YAML files are the values they hold, log
files are bytes; `φ` stands for the column format of a stream (C110).  Names of streams are those of
`logKeyName`, and a name is kept apart from its extension.  `none` is the abort of a failed `check`,
or the overflow of a record counter.
Not modelled: buffering (bytes are in the file when they are written), failures of the disk, and the
order of the columns of a manifest.
-/
namespace Verif.LogWriter
open Verif.Utc Verif.Log

/-- A calendar date. -/
structure Date where
  year : Nat
  month : Nat
  day : Nat
deriving DecidableEq, Repr

def leap (y : Nat) : Bool := y % 4 = 0 && (y % 100 ≠ 0 || y % 400 = 0)

def monthDays (y m : Nat) : Nat :=
  if m = 2 then (if leap y then 29 else 28)
  else if m = 4 ∨ m = 6 ∨ m = 9 ∨ m = 11 then 30 else 31

/-- The day after. -/
def Date.next (d : Date) : Date :=
  if d.day < monthDays d.year d.month then ⟨d.year, d.month, d.day + 1⟩
  else if d.month < 12 then ⟨d.year, d.month + 1, 1⟩
  else ⟨d.year + 1, 1, 1⟩

/-- The date `n` days after 1 January 1970: what `gmtime` gives for `n` days (every day has 86400
seconds in `time_t`). -/
def dateOf : Nat → Date
  | 0 => ⟨1970, 1, 1⟩
  | n + 1 => (dateOf n).next

/-- `fmt`'s `{:0>w}`. -/
def pad (w n : Nat) : List Char := List.replicate (w - (digits n).length) '0' ++ digits n

/-- log_writer.cxx 69-78, `createLogId`, for times from 1970 on: `gmtime` of the seconds. -/
def createLogId (sec : Nat) : List Char :=
  let d := dateOf (sec / 86400)
  let s := sec % 86400
  pad 4 d.year ++ pad 2 d.month ++ pad 2 d.day ++ ['_'] ++
    pad 2 (s / 3600) ++ pad 2 (s / 60 % 60) ++ pad 2 (s % 60)

/-- A directory: the one given by the caller and the log in it. -/
abbrev Dir : Type := List Char × List Char

/-- A file of a log: log_writer.h 49; log_writer.cxx 10-11, 55. -/
inductive Name
  | log (n : List Char)
  | yml (n : List Char)
  | manifest
deriving DecidableEq

/-- The manifest: log_writer.cxx 37-53, 66, log_writer.h 91-92. -/
structure Manifest where
  id : List Char
  start : Time
  stop : Option Time
  keys : List Int
  names : List (List Char)
  amends : Option Dir
deriving DecidableEq

/-- What a file holds. -/
inductive Content (φ : Type)
  | bytes (b : List UInt8)
  | info (id : List Char) (key : Int) (fmt : φ) (num : Nat)
  | manifest (m : Manifest)

/-- A file system. -/
structure FS (φ : Type) where
  dirs : Dir → Bool
  paths : Dir → Name → Option Nat
  data : Nat → Content φ
  next : Nat

/-- What is read from a file. -/
def FS.read (fs : FS φ) (d : Dir) (n : Name) : Option (Content φ) := (fs.paths d n).map fs.data

/-- utils/file.h 18-26. -/
def FS.removeDir (fs : FS φ) (d : Dir) : FS φ :=
  { fs with dirs := fun d' => if d' = d then false else fs.dirs d'
            paths := fun d' => if d' = d then fun _ => none else fs.paths d' }

/-- utils/file.h 8-16. -/
def FS.makeDir (fs : FS φ) (d : Dir) : FS φ :=
  { fs with dirs := fun d' => if d' = d then true else fs.dirs d' }

/-- Storing contents at an inode; without one (the file could not be opened) nothing happens. -/
def FS.put (fs : FS φ) (i : Option Nat) (c : Content φ) : FS φ :=
  match i with
  | none => fs
  | some i => { fs with data := fun j => if j = i then c else fs.data j }

/-- The constructor and `open` of `std::ofstream`: an existing file is emptied, otherwise a new one
is made; without the directory it fails. -/
def FS.create (fs : FS φ) (d : Dir) (n : Name) : FS φ × Option Nat :=
  if fs.dirs d then
    match fs.paths d n with
    | some i => (fs.put (some i) (.bytes []), some i)
    | none =>
      ({ fs with paths := fun d' n' => if d' = d ∧ n' = n then some fs.next else fs.paths d' n'
                 data := fun j => if j = fs.next then .bytes [] else fs.data j
                 next := fs.next + 1 }, some fs.next)
  else (fs, none)

/-- Appending bytes to an open file. -/
def FS.append (fs : FS φ) (i : Option Nat) (b : List UInt8) : FS φ :=
  match i with
  | none => fs
  | some i => match fs.data i with
    | .bytes b0 => fs.put (some i) (.bytes (b0 ++ b))
    | _ => fs.put (some i) (.bytes b)

/-- log_writer.h 54-58. -/
structure Stream (φ : Type) where
  num : Nat
  dir : Dir
  key : Int
  file : Option Nat
  id : List Char
  fmt : φ

/-- log_writer.h 117-120: `streams_` as a map and the list of its keys. -/
structure Logger (φ : Type) where
  dir : Dir
  man : Manifest
  id : List Char
  keys : List Int
  streams : Int → Option (Stream φ)

/-- log_writer.cxx 37-47, `createManifest`. -/
def newManifest (id : List Char) (t : Time) : Manifest := ⟨id, t, none, [], [], none⟩

/-- log_writer.cxx 18-26, `open`. -/
def openLog (fs : FS φ) (L : Logger φ) (t : Time) (root : List Char) : FS φ × Logger φ :=
  let id := createLogId t.sec.toNat
  let dir := (root, id)
  ((fs.removeDir dir).makeDir dir, { L with dir, id, man := newManifest id t })

/-- A logger before its constructor (log_writer.h 66-67) calls `open`. -/
def blank : Logger φ := ⟨([], []), newManifest [] ⟨0, 0⟩, [], [], fun _ => none⟩

/-- log_writer.h 83-93, `initStream`, with 37-52. -/
def initStream (fs : FS φ) (L : Logger φ) (key : Int) (fmt : φ) : Option (FS φ × Logger φ) :=
  match L.streams key with
  | some _ => none
  | none =>
    let (fs', file) := fs.create L.dir (.log (logKeyName key))
    some (fs', { L with
      streams := fun k => if k = key then some ⟨0, L.dir, key, file, L.id, fmt⟩ else L.streams k
      keys := L.keys ++ [key]
      man := { L.man with keys := L.man.keys ++ [key], names := L.man.names ++ [logKeyName key] } })

/-- log_writer.h 102-114, `log`: `b` are the bytes of the record; `num_records_` is an `int`. -/
def log (fs : FS φ) (L : Logger φ) (key : Int) (b : List UInt8) : Option (FS φ × Logger φ) :=
  match L.streams key with
  | none => none
  | some s =>
    if s.num + 1 < 2 ^ 31 then
      some (fs.append s.file b,
        { L with streams := fun k => if k = key then some { s with num := s.num + 1 } else L.streams k })
    else none

/-- log_writer.cxx 61-67, `amends` of an existing log, whose canonical path is stored (here the
directory it names). -/
def amends (L : Logger φ) (p : Dir) : Logger φ := { L with man := { L.man with amends := some p } }

/-- log_writer.cxx 6-16, the destructor of a stream. -/
def endStream (fs : FS φ) (s : Stream φ) : FS φ :=
  let (fs', f) := fs.create s.dir (.yml (logKeyName s.key))
  fs'.put f (.info s.id s.key s.fmt s.num)

/-- log_writer.cxx 30-33: the loop of `close` over the keys in the order of the map. -/
def endAll (streams : Int → Option (Stream φ)) : List Int → FS φ → FS φ
  | [], fs => fs
  | k :: ks, fs => endAll streams ks (match streams k with | none => fs | some s => endStream fs s)

/-- log_writer.cxx 28-35, 49-59, `close`; `ord` is the order in which the map is emptied. -/
def close (ord : List Int → List Int) (fs : FS φ) (L : Logger φ) (t : Time) : FS φ × Logger φ :=
  let fs := endAll L.streams (ord L.keys) fs
  let man := { L.man with stop := some t }
  let (fs, f) := fs.create L.dir .manifest
  (fs.put f (.manifest man), { L with streams := fun _ => none, keys := [], man })

/-- The calls between `open` and `close`. -/
inductive Op (φ : Type)
  | init (key : Int) (fmt : φ)
  | log (key : Int) (b : List UInt8)
  | amends (p : Dir)

def step (s : FS φ × Logger φ) : Op φ → Option (FS φ × Logger φ)
  | .init key fmt => initStream s.1 s.2 key fmt
  | .log key b => log s.1 s.2 key b
  | .amends p => some (s.1, amends s.2 p)

/-- A sequence of calls. -/
def run (s : FS φ × Logger φ) (ops : List (Op φ)) : Option (FS φ × Logger φ) := ops.foldlM step s

end Verif.LogWriter
