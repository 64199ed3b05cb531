import Verif.Model.Logging
/-!
# Specification of log replay, without reference to the reader
-/
namespace Verif.LogSpec
open Verif.Log

/-- `a` is not later than `b`: seconds first, then nanoseconds. -/
def NotLater (a b : Stamp) : Prop :=
  a.sec.toInt < b.sec.toInt ∨ (a.sec.toInt = b.sec.toInt ∧ a.nsec.toInt ≤ b.nsec.toInt)

/-- A stamp before the last second an `int64_t` can hold. -/
def InTime (a : Stamp) : Prop := a.sec.toInt < 2 ^ 63 - 1

/-- `out` (key, stamp, data) is an interleaving of the sources (key, records): every record of
every source exactly once, and the records of each source in their own order. -/
structure IsMerge {P : Type} (srcs : List (Int × List (Stamp × P)))
    (out : List (Int × Stamp × P)) : Prop where
  once : out.Perm (srcs.flatMap fun s => s.2.map fun r => (s.1, r))
  order : ∀ s ∈ srcs, (out.filter fun o => o.1 = s.1).map Prod.snd = s.2

/-- Number of bytes of a record: a 16-byte stamp and the data. -/
def recLen {δ : Type} [Codec δ] (r : Stamp × δ) : Nat := 16 + (Codec.enc r.2).length

/-- The records completely contained in the first `c` bytes of the file. -/
def complete {δ : Type} [Codec δ] : Nat → List (Stamp × δ) → List (Stamp × δ)
  | _, [] => []
  | c, r :: rs => if recLen r ≤ c then r :: complete (c - recLen r) rs else []

/-- The record the cut goes through, and the number of its bytes before the cut. -/
def torn {δ : Type} [Codec δ] : Nat → List (Stamp × δ) → Option ((Stamp × δ) × Nat)
  | _, [] => none
  | c, r :: rs => if recLen r ≤ c then torn (c - recLen r) rs else some (r, c)

end Verif.LogSpec
