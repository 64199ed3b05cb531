import Verif.Model.Time
import Verif.Spec.Calendar

/-!
# Model of the conversions of `UTCTime` from and to calendar dates, seconds and texts

common/utctime.h 51-56, 85-86; common/utctime.cxx 109-120, 137-161, 260-316.

Doubles are rationals.  `timegm` and `gmtime` are the functions of the C library: `timegm` takes months, days, hours,
minutes and seconds outside of their ranges; `gmtime` gives a null pointer if the year less 1900 does not fit an `int`, and
its use is undefined behaviour, `none`.
-/
namespace Verif.Calendar
open Verif.Utc

/-- Leap days in the years 1 to `y`. -/
def leaps (y : Int) : Int := y / 4 - y / 100 + y / 400

/-- Number of the first day of a year. -/
def yearStart (y : Int) : Int := 365 * (y - 1970) + leaps (y - 1) - leaps 1969

/-- Days before month `m` (0 to 11) in a year. -/
def cum (leap : Bool) (m : Int) : Int :=
  (match m with
    | 0 => 0 | 1 => 31 | 2 => 59 | 3 => 90 | 4 => 120 | 5 => 151 | 6 => 181 | 7 => 212 | 8 => 243 | 9 => 273 | 10 => 304 | _ => 334) +
  if leap = true ∧ 2 ≤ m then 1 else 0

def isLeap (y : Int) : Bool := y % 4 == 0 && (y % 100 != 0 || y % 400 == 0)

/-- The broken-down time: years from 1900, months from 0, days from 1. -/
structure Tm where
  year : Int
  mon : Int
  mday : Int
  hour : Int
  min : Int
  sec : Int
deriving DecidableEq, Repr

/-- `timegm`; `none` if the result does not fit. -/
def timegm (t : Tm) : Option Int :=
  let y := t.year + 1900 + t.mon / 12
  let days := yearStart y + cum (isLeap y) (t.mon % 12) + (t.mday - 1)
  i64 (days * 86400 + t.hour * 3600 + t.min * 60 + t.sec)

/-- The year of a day. -/
def yearOf (n : Int) : Int :=
  let y := 1970 + n * 400 / 146097
  if n < yearStart y then y - 1 else if yearStart (y + 1) ≤ n then y + 1 else y

/-- The month of a day of the year: the last one that begins before it. -/
def monthOf (leap : Bool) (yday : Int) : Int :=
  ((List.range 12).reverse.map Int.ofNat).find? (fun m => decide (cum leap m ≤ yday)) |>.getD 0

/-- `gmtime`; `none` is a null pointer. -/
def gmtime (t : Int) : Option Tm :=
  let days := t / 86400
  let rem := t % 86400
  let y := yearOf days
  let yday := days - yearStart y
  let m := monthOf (isLeap y) yday
  (i32 (y - 1900)).map fun y' => ⟨y', m, yday - cum (isLeap y) m + 1, rem / 3600, rem % 3600 / 60, rem % 60⟩

/-- `std::round`: half away from zero. -/
def rnd (q : ℚ) : Int := if 0 ≤ q then ⌊q + 1 / 2⌋ else -⌊-q + 1 / 2⌋

/-- utctime.cxx 260-273, `fromCalendar`. -/
def fromCalendar (year month day hour minute : Int) (sec : ℚ) : Option Time := do
  let y ← i32 (year - 1900)
  let m ← i32 (month - 1)
  let s ← i32 ⌊sec⌋
  let e ← timegm ⟨y, m, day, hour, minute, s⟩
  mk2 e (rnd (1000000000 * (sec - ⌊sec⌋)))

/-- `os << i` for an integer. -/
def num (i : Int) : List Char :=
  let a := (if i = 0 then [0] else (Nat.digits 10 i.natAbs).reverse).map fun d => Char.ofNat (48 + d)
  if i < 0 then '-' :: a else a

/-- utctime.cxx 279-280, 308-310. -/
def dateText (d : Tm) (nsec : Int) : List Char :=
  num (1900 + d.year) ++ '/' :: num (1 + d.mon) ++ '/' :: num d.mday ++ ' ' :: num d.hour ++ ':' :: num d.min ++ ':' ::
    num d.sec ++ '.' :: num (nsec.tdiv 1000000)

/-- utctime.cxx 274-284, `str`. -/
def str (t : Time) : Option (List Char) := (gmtime t.sec).map fun d => dateText d t.nsec

/-- utctime.cxx 299-316, `operator<<`. -/
def print (t : Time) : Option (List Char) :=
  (gmtime t.sec).map fun d =>
    if d.year = 70 then num t.sec ++ '.' :: num (t.nsec.tdiv 1000000) else dateText d t.nsec

/-- utctime.h 56, `UTCTime(double)`. -/
def ofDouble (s : ℚ) : Option Time := do
  let a ← i64 (trunc s)
  let b ← i64 (trunc (s * 1000000000))
  some ⟨a, b.tmod E9⟩

/-- utctime.cxx 109-120, 137-148: `operator+(int)`, `+=(int)`, `-(int)`, `-=(int)`. -/
def addInt (t : Time) (s : Int) : Option Time := (i64 (t.sec + s)).map fun x => ⟨x, t.nsec⟩
def subInt (t : Time) (s : Int) : Option Time := (i64 (t.sec - s)).map fun x => ⟨x, t.nsec⟩

/-- utctime.cxx 150-156, `Random`: two values of `rand()`. -/
def random (a b : Int) : Time := ⟨a, b⟩

/-- utctime.cxx 158-161, `week`: the quotient is truncated before `std::floor`. -/
def week (t : Time) : Option Int := i32 (t.sec.tdiv SEC_IN_WEEK)

end Verif.Calendar
