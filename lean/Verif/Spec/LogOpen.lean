import Verif.Model.LogOpen
/-!
# What opening a log should give
-/
namespace Verif.LogOpenSpec
open Verif.LogOpen Verif.LogWriter Verif.Utc

/-- The manifest of a log that can be read: closed, with streams. -/
def Readable (fs : FS φ) (d : Dir) (m : Manifest) (e : Time) : Prop :=
  fs.read d .manifest = some (.manifest m) ∧ m.stop = some e ∧ m.keys ≠ []

/-- A log and those it amends, to one that amends none. -/
inductive Chain (fs : FS φ) : Dir → List (Dir × Manifest × Time) → Prop
  | last (d m e) : Readable fs d m e → m.amends = none → Chain fs d [(d, m, e)]
  | step (d m e d' l) : Readable fs d m e → m.amends = some d' → Chain fs d' l →
      Chain fs d ((d, m, e) :: l)

/-- The first log of a chain that has a stream. -/
def owner (k : Int) (l : List (Dir × Manifest × Time)) : Option Dir :=
  (l.find? fun x => k ∈ x.2.1.keys).map Prod.fst

/-- Lexicographic order of seconds and nanoseconds. -/
def Before (a b : Time) : Prop := a.sec < b.sec ∨ a.sec = b.sec ∧ a.nsec ≤ b.nsec

/-- The values of `int64_t` seconds and of nanoseconds below one second. -/
def InRange (t : Time) : Prop := -2 ^ 63 ≤ t.sec ∧ t.sec ≤ 2 ^ 63 - 1 ∧ 0 ≤ t.nsec ∧ t.nsec ≤ 999999999

end Verif.LogOpenSpec
