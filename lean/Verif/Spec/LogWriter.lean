import Verif.Model.LogWriter
/-!
# What a log should be on disk
-/
namespace Verif.LogWriterSpec
open Verif.LogWriter Verif.Utc Verif.Log

/-- The streams made, in order. -/
def inits (ops : List (Op φ)) : List (Int × φ) :=
  ops.filterMap fun | .init k f => some (k, f) | _ => none

/-- The records logged to a stream, in order. -/
def recs (k : Int) (ops : List (Op φ)) : List (List UInt8) :=
  ops.filterMap fun | .log k' b => if k' = k then some b else none | _ => none

/-- The log amended, as said last. -/
def amended (ops : List (Op φ)) : Option Dir :=
  (ops.filterMap fun | .amends p => some p | _ => none).getLast?

/-- The calls a program may make: no stream twice, no record before its stream, and no more records
than an `int` counts. -/
def Legal (ops : List (Op φ)) : Prop :=
  ((inits ops).map Prod.fst).Nodup ∧
  (∀ pre post k b, ops = pre ++ Op.log k b :: post → k ∈ (inits pre).map Prod.fst) ∧
  ∀ k, (recs k ops).length < 2 ^ 31

/-- No two streams share a file name (C27). -/
def Distinct (ops : List (Op φ)) : Prop :=
  ∀ a ∈ inits ops, ∀ b ∈ inits ops, logKeyName a.1 = logKeyName b.1 → a.1 = b.1

/-- The files of a finished log. -/
def expected (id : List Char) (start stop : Time) (ops : List (Op φ)) : Name → Option (Content φ)
  | .manifest => some (.manifest ⟨id, start, some stop, (inits ops).map Prod.fst,
      (inits ops).map fun p => logKeyName p.1, amended ops⟩)
  | .log n => ((inits ops).find? fun p => logKeyName p.1 = n).map fun p =>
      .bytes (recs p.1 ops).flatten
  | .yml n => ((inits ops).find? fun p => logKeyName p.1 = n).map fun p =>
      .info id p.1 p.2 (recs p.1 ops).length

/-- Every name refers to a content that exists and to one of its own, in a directory that exists. -/
structure Sound (fs : FS φ) : Prop where
  old : ∀ d n i, fs.paths d n = some i → i < fs.next
  own : ∀ d n d' n' i, fs.paths d n = some i → fs.paths d' n' = some i → d = d' ∧ n = n'
  dir : ∀ d n i, fs.paths d n = some i → fs.dirs d = true

end Verif.LogWriterSpec
