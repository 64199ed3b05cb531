import Verif.Model.Time
/-! # Specification vocabulary for timestamps -/
namespace Verif.TimeSpec
open Verif.Utc

/-- The instant denoted by a timestamp: nanoseconds since the epoch. -/
def instant (t : Time) : Int := t.sec * 10 ^ 9 + t.nsec

/-- The canonical form every library function expects. -/
def Norm (t : Time) : Prop := 0 ≤ t.nsec ∧ t.nsec < 10 ^ 9

/-- Seconds small enough that sums and differences of two timestamps cannot overflow. -/
def Moderate (t : Time) : Prop := -2 ^ 62 < t.sec ∧ t.sec < 2 ^ 62

end Verif.TimeSpec
