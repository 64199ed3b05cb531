import Verif.Model.Time
import Mathlib.Data.Int.Log
import Mathlib.Data.Rat.Cast.Order
/-!
# Model of the arithmetic of `UTCTime` and `QuantizedTime` in `double`s

common/utctime.h 56, common/utctime.cxx 89-136, common/quantized_time.cxx, common/defs.h 12.

`Model/Time.lean` computes with exact rationals; here every operation on `double`s is followed by
a rounding `r`, which is a parameter, so that the theorems hold for every rounding to nearest.
`rnd` is the rounding of the hardware (nearest, ties to even).  Integers are as in
`Model/Time.lean`: a result outside of `int64_t` gives `none`, and so does a conversion of a
`double` outside of `int64_t` to that type.  Infinities and NaNs are not modelled.

The compiler may evaluate `a + b * c` in one operation with one rounding (gcc does where the
processor has such an operation): the parameter `fma` says whether it does.
-/
namespace Verif.FTime
open Verif.Utc

/-- The nearest whole number, the even one of two. -/
def rint (q : ℚ) : Int :=
  if q - ⌊q⌋ < 1 / 2 then ⌊q⌋
  else if 1 / 2 < q - ⌊q⌋ then ⌊q⌋ + 1
  else if ⌊q⌋ % 2 = 0 then ⌊q⌋ else ⌊q⌋ + 1

/-- The exponent of the last place of a `double` next to `q`. -/
def expo (q : ℚ) : Int := max (Int.log 2 |q| - 52) (-1074)

/-- Rounding to nearest, ties to even. -/
def rnd (q : ℚ) : ℚ := rint (q / 2 ^ expo q) * 2 ^ expo q

/-- utctime.cxx 89-92: `(double)sec + (double)nsec * 1e-9`. -/
def toSec (r : ℚ → ℚ) (fma : Bool) (t : Time) : ℚ :=
  if fma then r (r t.sec + r t.nsec * r (1 / 1000000000))
  else r (r t.sec + r (r t.nsec * r (1 / 1000000000)))

/-- utctime.h 56: `UTCTime(double)`. -/
def ofSec (r : ℚ → ℚ) (s : ℚ) : Option Time := do
  let s' ← i64 (trunc s)
  let k ← i64 (trunc (r (s * 1000000000)))
  some ⟨s', k.tmod E9⟩

/-- utctime.cxx 94-108, `operator+(double)` and `operator+=(double)`. -/
def addSec (r : ℚ → ℚ) (t : Time) (s : ℚ) : Option Time := do
  let k ← i64 (trunc (r (s * 1000000000)))
  let n ← i64 (t.nsec + k.tmod E9)
  let i ← i64 (trunc s)
  let s' ← i64 (t.sec + i)
  wrapNsec ⟨s', n⟩

/-- utctime.cxx 122-136, `operator-(double)` and `operator-=(double)`. -/
def subSec (r : ℚ → ℚ) (t : Time) (s : ℚ) : Option Time := do
  let k ← i64 (trunc (r (s * 1000000000)))
  let n ← i64 (t.nsec - k.tmod E9)
  let i ← i64 (trunc s)
  let s' ← i64 (t.sec - i)
  wrapNsec ⟨s', n⟩

/-- defs.h 12, quantized_time.h 20: `resolution_half`. -/
def half (r : ℚ → ℚ) : ℚ := r (r (1 / 10000) / 2)

/-- quantized_time.cxx 11-14. -/
def qgt (r : ℚ → ℚ) (fma : Bool) (q t : Time) : Option Bool := do
  let d ← sub q t; some (decide (toSec r fma d > half r))
/-- quantized_time.cxx 16-19. -/
def qge (r : ℚ → ℚ) (fma : Bool) (q t : Time) : Option Bool := do
  let d ← sub t q; some (decide (toSec r fma d ≤ half r))
/-- quantized_time.cxx 21-24. -/
def qlt (r : ℚ → ℚ) (fma : Bool) (q t : Time) : Option Bool := do
  let d ← sub t q; some (decide (toSec r fma d > half r))
/-- quantized_time.cxx 26-29. -/
def qle (r : ℚ → ℚ) (fma : Bool) (q t : Time) : Option Bool := do
  let d ← sub q t; some (decide (toSec r fma d ≤ half r))
/-- quantized_time.cxx 31-34. -/
def qeq (r : ℚ → ℚ) (fma : Bool) (q t : Time) : Option Bool := do
  let d ← sub q t; some (decide (|toSec r fma d| ≤ half r))
/-- quantized_time.cxx 36-39. -/
def qne (r : ℚ → ℚ) (fma : Bool) (q t : Time) : Option Bool := do
  let d ← sub q t; some (decide (|toSec r fma d| > half r))
/-- quantized_time.cxx 41-44, `UTCTime > QuantizedTime`. -/
def gtq (r : ℚ → ℚ) (fma : Bool) (t q : Time) : Option Bool := do
  let d ← sub t q; some (decide (toSec r fma d > half r))
/-- quantized_time.cxx 46-49. -/
def geq (r : ℚ → ℚ) (fma : Bool) (t q : Time) : Option Bool := do
  let d ← sub q t; some (decide (toSec r fma d ≤ half r))
/-- quantized_time.cxx 51-54. -/
def ltq (r : ℚ → ℚ) (fma : Bool) (t q : Time) : Option Bool := do
  let d ← sub q t; some (decide (toSec r fma d > half r))
/-- quantized_time.cxx 56-59. -/
def leq (r : ℚ → ℚ) (fma : Bool) (t q : Time) : Option Bool := do
  let d ← sub t q; some (decide (toSec r fma d ≤ half r))
/-- quantized_time.cxx 61-64. -/
def eqq (r : ℚ → ℚ) (fma : Bool) (t q : Time) : Option Bool := do
  let d ← sub t q; some (decide (|toSec r fma d| ≤ half r))
/-- quantized_time.cxx 66-69. -/
def neq (r : ℚ → ℚ) (fma : Bool) (t q : Time) : Option Bool := do
  let d ← sub t q; some (decide (|toSec r fma d| > half r))

/-- tools/post_process.cxx 121-122, 134-135, 147-148: an ephemeris is not used. -/
def stale (r : ℚ → ℚ) (fma : Bool) (t toe : Time) : Option Bool := do
  let d ← sub t toe; some (decide (|toSec r fma d| > 7200))

/-- tools/post_process.cxx 219: the run ends. -/
def ends (r : ℚ → ℚ) (fma : Bool) (t t0 : Time) : Option Bool := do
  let d ← sub t t0; some (decide (toSec r fma d > 45))

/-- tools/post_process.cxx 249: the observations gathered are given to the filter. -/
def gap (r : ℚ → ℚ) (fma : Bool) (next t : Time) : Option Bool := do
  let d ← sub next t; some (decide (toSec r fma d > r (1 / 100)))

/-- sim/sensors/imu.cxx 20-21, sim/sensors/gnss.cxx 110-111: a measurement is due. -/
def due (r : ℚ → ℚ) (fma : Bool) (rate : ℚ) (t prev : Time) : Option Bool := do
  let d ← sub t prev; some (decide (toSec r fma d ≥ r (1 / rate)))

/-- models/imu_model.cxx 86-87: the sample is accepted. -/
def imuAccepts (r : ℚ → ℚ) (fma : Bool) (t tf : Time) : Option Bool := do
  let d ← sub t tf; some (decide (toSec r fma d ≥ r (1 / 10000)))

/-- common/satellite/satellite_state.cxx 22-23: the ephemeris is accepted. -/
def fresh (r : ℚ → ℚ) (fma : Bool) (t toe : Time) : Option Bool := do
  let d ← sub t toe; some (decide (|toSec r fma d| ≤ 7200))

end Verif.FTime
