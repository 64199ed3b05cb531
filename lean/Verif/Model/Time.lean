import Mathlib.Algebra.Order.Floor.Ring
import Mathlib.Data.Rat.Floor
/-!
# Model of `mc::UTCTime` and `mc::QuantizedTime`

common/utctime.h, common/utctime.cxx, common/quantized_time.cxx.

`int64_t`/`int` arithmetic is exact on `Int`, and `none` is returned where the C++ program
would overflow a signed type (undefined behaviour).  `double` arguments are rationals (every
finite `double` is one); the rounding of the product `sec_ * E9` is not modelled.  `toSec()`
is represented by the integer number of nanoseconds, i.e. comparisons of `toSec()` with the
constant `5e-5` s are done exactly, scaled by 1e9; rounding in `toSec` is not modelled here, but
in `Model/FloatTime.lean`.
-/
namespace Verif.Utc

/-- utctime.h 19-20. -/
structure Time where
  sec : Int
  nsec : Int
deriving DecidableEq, Repr

/-- utctime.h 22. -/
def E9 : Int := 1000000000
/-- utctime.h 25-27. -/
def SEC_IN_DAY : Int := 86400
def SEC_IN_WEEK : Int := 604800
/-- utctime.h 31, 45. -/
def GPS_UTC_OFFSET : Int := 315964800 + 18
/-- utctime.h 48. -/
def GLO_UTC_OFFSET : Int := -3 * 3600

/-- Result of a signed 64-bit operation. -/
def i64 (x : Int) : Option Int := if -2 ^ 63 ≤ x ∧ x < 2 ^ 63 then some x else none
/-- Result of a signed 32-bit operation. -/
def i32 (x : Int) : Option Int := if -2 ^ 31 ≤ x ∧ x < 2 ^ 31 then some x else none

/-- utctime.h 51-54: `UTCTime(int64_t, int64_t)`, truncating division. -/
def mk2 (s n : Int) : Option Time := do
  let s' ← i64 (s + n.tdiv E9)
  some ⟨s', n.tmod E9⟩

/-- utctime.cxx 24-28. -/
def gt (a b : Time) : Bool :=
  if a.sec > b.sec then true else if a.sec < b.sec then false
  else if a.nsec > b.nsec then true else false
/-- utctime.cxx 29-33. -/
def ge (a b : Time) : Bool :=
  if a.sec ≥ b.sec then true else if a.sec < b.sec then false
  else if a.nsec ≥ b.nsec then true else false
/-- utctime.cxx 34-38. -/
def lt (a b : Time) : Bool :=
  if a.sec < b.sec then true else if a.sec > b.sec then false
  else if a.nsec < b.nsec then true else false
/-- utctime.cxx 39-43. -/
def le (a b : Time) : Bool :=
  if a.sec ≤ b.sec then true else if a.sec > b.sec then false
  else if a.nsec ≤ b.nsec then true else false
/-- utctime.cxx 45-48. -/
def eq (a b : Time) : Bool := a.sec == b.sec && a.nsec == b.nsec
/-- utctime.cxx 50-53. -/
def ne (a b : Time) : Bool := a.sec != b.sec || a.nsec != b.nsec

/-- utctime.cxx 246-258. -/
def wrapNsec (t : Time) : Option Time :=
  if t.nsec < 0 then do
    let s ← i64 (t.sec - 1)
    some ⟨s, t.nsec + E9⟩
  else if t.nsec ≥ E9 then do
    let s ← i64 (t.sec + 1)
    some ⟨s, t.nsec - E9⟩
  else some t

/-- utctime.cxx 55-70, `operator-` and `operator-=`. -/
def sub (a b : Time) : Option Time := do
  let s ← i64 (a.sec - b.sec)
  let n ← i64 (a.nsec - b.nsec)
  wrapNsec ⟨s, n⟩

/-- utctime.cxx 72-87, `operator+` and `operator+=`. -/
def add (a b : Time) : Option Time := do
  let s ← i64 (a.sec + b.sec)
  let n ← i64 (a.nsec + b.nsec)
  wrapNsec ⟨s, n⟩

/-- C++ conversion of a floating value to an integer: truncation toward zero. -/
def trunc (q : ℚ) : Int := if 0 ≤ q then ⌊q⌋ else ⌈q⌉

/-- utctime.cxx 94-108, `operator+(double)` and `operator+=(double)`. -/
def addSec (t : Time) (s : ℚ) : Option Time := do
  let k ← i64 (trunc (s * 1000000000))
  let n ← i64 (t.nsec + k.tmod E9)
  let s' ← i64 (t.sec + trunc s)
  wrapNsec ⟨s', n⟩

/-- utctime.cxx 122-136, `operator-(double)` and `operator-=(double)`. -/
def subSec (t : Time) (s : ℚ) : Option Time := do
  let k ← i64 (trunc (s * 1000000000))
  let n ← i64 (t.nsec - k.tmod E9)
  let s' ← i64 (t.sec - trunc s)
  wrapNsec ⟨s', n⟩

/-- utctime.cxx 89-92, `toSec()`, in nanoseconds. -/
def toSecNs (t : Time) : Int := t.sec * 1000000000 + t.nsec

/-- utctime.cxx 163-167. `std::floor` acts on an already truncated integer quotient. -/
def gpsWeek (t : Time) : Option Int := do
  let g ← i64 (t.sec - GPS_UTC_OFFSET)
  some (g.tdiv SEC_IN_WEEK)

/-- utctime.cxx 175-179. -/
def glonassWeek (t : Time) : Option Int := do
  let g ← i64 (t.sec - GLO_UTC_OFFSET)
  some (g.tdiv SEC_IN_WEEK)

/-- utctime.cxx 181-187. -/
def glonassDayOfWeek (t : Time) : Option Int := do
  let g ← i64 (t.sec - GLO_UTC_OFFSET)
  some ((g.tmod SEC_IN_WEEK).tdiv SEC_IN_DAY)

/-- utctime.cxx 199-206 (also `fromGalileo`, 219-223): `week`, `tow_ms` are `int`; the product
and the first sum are evaluated in `int`, the offset is added in `int64_t`. -/
def fromGPS (week tow_ms : Int) : Option Time := do
  let a ← i32 (week * SEC_IN_WEEK)
  let b ← i32 (a + tow_ms.tdiv 1000)
  let s ← i64 (b + GPS_UTC_OFFSET)
  wrapNsec ⟨s, (tow_ms.tmod 1000) * E9⟩

/-- utctime.cxx 237-244: the product is evaluated in `int`, then widened. -/
def fromGlonass (week tow_ms : Int) : Option Time := do
  let a ← i32 (week * SEC_IN_WEEK)
  let s ← i64 (a + tow_ms.tdiv 1000 + GLO_UTC_OFFSET)
  wrapNsec ⟨s, (tow_ms.tmod 1000) * E9⟩

/-- Conversion of an `int` to `uint32_t`. -/
def u32 (x : Int) : Int := x % 2 ^ 32
/-- Conversion of a `uint32_t` to `int` (implementation-defined modulo, as gcc does). -/
def s32 (x : Int) : Int := if x % 2 ^ 32 < 2 ^ 31 then x % 2 ^ 32 else x % 2 ^ 32 - 2 ^ 32

/-- utctime.cxx 208-217: unsigned 32-bit arithmetic for the time of week. -/
def fromGlonassTimeOfDay (ref : Time) (tod_ms : Int) : Option Time := do
  let w ← glonassWeek ref
  let d ← glonassDayOfWeek ref
  let tow := s32 (u32 (u32 (u32 d * SEC_IN_DAY) * 1000) + u32 tod_ms)
  fromGlonass (s32 (u32 w)) tow

/-- utctime.cxx 286-289, in nanoseconds. -/
def gpsTowNs (t : Time) : Option Int := do
  let w ← gpsWeek t
  let z ← fromGPS w 0
  let d ← sub t z
  some (toSecNs d)

/-! ### QuantizedTime (quantized_time.cxx; `resolution_half` = 5e-5 s = 50000 ns) -/

/-- quantized_time.h 20, defs.h 12. -/
def HALF : Int := 50000

/-- quantized_time.cxx 11-14. -/
def qgt (q t : Time) : Option Bool := do let d ← sub q t; some (decide (toSecNs d > HALF))
/-- quantized_time.cxx 16-19. -/
def qge (q t : Time) : Option Bool := do let d ← sub t q; some (decide (toSecNs d ≤ HALF))
/-- quantized_time.cxx 21-24. -/
def qlt (q t : Time) : Option Bool := do let d ← sub t q; some (decide (toSecNs d > HALF))
/-- quantized_time.cxx 26-29. -/
def qle (q t : Time) : Option Bool := do let d ← sub q t; some (decide (toSecNs d ≤ HALF))
/-- quantized_time.cxx 31-34. -/
def qeq (q t : Time) : Option Bool := do let d ← sub q t; some (decide ((toSecNs d).natAbs ≤ HALF))
/-- quantized_time.cxx 36-39. -/
def qne (q t : Time) : Option Bool := do let d ← sub q t; some (decide ((toSecNs d).natAbs > HALF))
/-- quantized_time.cxx 41-44, `UTCTime > QuantizedTime`. -/
def gtq (t q : Time) : Option Bool := do let d ← sub t q; some (decide (toSecNs d > HALF))
/-- quantized_time.cxx 46-49. -/
def geq (t q : Time) : Option Bool := do let d ← sub q t; some (decide (toSecNs d ≤ HALF))
/-- quantized_time.cxx 51-54. -/
def ltq (t q : Time) : Option Bool := do let d ← sub q t; some (decide (toSecNs d > HALF))
/-- quantized_time.cxx 56-59. -/
def leq (t q : Time) : Option Bool := do let d ← sub t q; some (decide (toSecNs d ≤ HALF))
/-- quantized_time.cxx 61-64. -/
def eqq (t q : Time) : Option Bool := do let d ← sub t q; some (decide ((toSecNs d).natAbs ≤ HALF))
/-- quantized_time.cxx 66-69. -/
def neq (t q : Time) : Option Bool := do let d ← sub t q; some (decide ((toSecNs d).natAbs > HALF))

/-- utctime.h 118: `INVALID_TIME`. -/
def INVALID_TIME : Time := ⟨-2 ^ 63, 0⟩

/-- utctime.cxx 291-297. -/
def quantized (t : Time) : Time := ⟨t.sec, t.nsec⟩

end Verif.Utc
