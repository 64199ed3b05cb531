import Verif.Model.BitTools
import Verif.Model.Calendar
/-!
# Model of `decode_gal_inav` and the calendar of third_party/rtklib/rtklib.cxx

`none` is an access outside the buffer.  As in `Model/Galileo.lean` floating-point members are kept as the integer read
from the message (both programs multiply it with the same constants, except that the reference has 3.1415926535898 for
`M_PI`); times are whole seconds here, as every time that is computed is.
-/
namespace Verif.RtkGal
open Verif.Bits

/-- `getbitu` (rtklib.cxx 177-183): the loop. -/
def getbituLoop (mem : Mem) : Nat → Nat → Nat → Option Nat
  | 0, _, bits => some bits
  | n + 1, i, bits => do
    let b ← mem (i / 8)
    getbituLoop mem n (i + 1) (((bits * 2) % 2 ^ 32 + b.toNat / 2 ^ (7 - i % 8) % 2) % 2 ^ 32)

/-- `getbitu`. -/
def getbitu (mem : Mem) (pos len : Nat) : Option Nat := getbituLoop mem len pos 0

/-- `getbits` (rtklib.cxx 184-189). -/
def getbits (mem : Mem) (pos len : Nat) : Option Int := do
  let bits ← getbitu mem pos len
  if len = 0 ∨ 32 ≤ len ∨ bits &&& (2 ^ (len - 1)) = 0 then some (asSigned 32 bits)
  else some (asSigned 32 (bits ||| ((2 ^ 32 - 1) <<< len) % 2 ^ 32))

/-- `doy` (rtklib.cxx 197). -/
def doy : List Int := [1, 32, 60, 91, 121, 152, 182, 213, 244, 274, 305, 335]

/-- The days of `epoch2time` (rtklib.cxx 201-204); `none` if the date is refused. -/
def epochDays (year mon day : Int) : Option Int :=
  if year < 1970 ∨ 2099 < year ∨ mon < 1 ∨ 12 < mon then none
  else some ((year - 1970) * 365 + (year - 1969).tdiv 4 + doy.getD (mon - 1).toNat 0 + day - 2
    + (if year.tmod 4 = 0 ∧ mon ≥ 3 then 1 else 0))

/-- `epoch2time` (rtklib.cxx 195-209) for whole seconds; a refused date is time 0. -/
def epoch2time (year mon day h m s : Int) : Int :=
  match epochDays year mon day with
  | none => 0
  | some d => d * 86400 + h * 3600 + m * 60 + s

/-- `gst2time` (rtklib.cxx 211-219) for whole seconds, `gst0` (174). -/
def gst2time (week sec : Int) : Int :=
  let sec := if sec < -1000000000 ∨ 1000000000 < sec then 0 else sec
  epoch2time 1999 8 22 0 0 0 + 86400 * 7 * week + sec

/-- `mday` (rtklib.cxx 223-226). -/
def mday : List Int :=
  [31, 28, 31, 30, 31, 30, 31, 31, 30, 31, 30, 31, 31, 28, 31, 30, 31, 30, 31, 31, 30, 31, 30, 31,
   31, 29, 31, 30, 31, 30, 31, 31, 30, 31, 30, 31, 31, 28, 31, 30, 31, 30, 31, 31, 30, 31, 30, 31]

/-- The loop of `time2epoch` (rtklib.cxx 232-234): the month of the four years and the day of the month. -/
def monthLoop : List Int → Int → Int → Int × Int
  | [], mon, day => (mon, day)
  | l :: ls, mon, day => if day ≥ l then monthLoop ls (mon + 1) (day - l) else (mon, day)

/-- `time2epoch` (rtklib.cxx 221-237): year, month, day, hour, minute, second. -/
def time2epoch (t : Int) : Int × Int × Int × Int × Int × Int :=
  let days := t.tdiv 86400
  let sec := t - days * 86400
  let p := monthLoop mday 0 (days.tmod 1461)
  (1970 + days.tdiv 1461 * 4 + p.1.tdiv 12, p.1.tmod 12 + 1, p.2 + 1, sec.tdiv 3600, (sec.tmod 3600).tdiv 60, sec.tmod 60)

/-- The members of `eph_t` that `decode_gal_inav` assigns. -/
structure Nav where
  toes : Nat
  M0 : Int
  e : Nat
  sqrtA : Nat
  OMG0 : Int
  i0 : Int
  omg : Int
  idot : Int
  OMGd : Int
  deln : Int
  cuc : Int
  cus : Int
  crc : Int
  crs : Int
  sva : Nat
  cic : Int
  cis : Int
  f0 : Int
  f1 : Int
  f2 : Int
  tgd0 : Int
  tgd1 : Int
  iode : Nat
  iodc : Nat
  svh : Nat
  ttr : Int
  toe : Int
  toc : Int
  week : Int
deriving DecidableEq

/-- rtklib.cxx 406-409: the week after the adjustment. -/
def adjust (week tt : Int) : Int := if tt > 302400 then week - 1 else if tt < -302400 then week + 1 else week

/-- `decode_gal_inav` (rtklib.cxx 328-421); `some none` is the result 0. -/
def decode (mem : Mem) : Option (Option Nav) := do
  let type0 ← getbitu mem 0 6
  let time_f ← getbitu mem 6 2
  let week ← getbitu mem 96 12
  let tow ← getbitu mem 108 20
  let type1 ← getbitu mem 128 6
  let iod0 ← getbitu mem 134 10
  let toes ← getbitu mem 144 14
  let M0 ← getbits mem 158 32
  let e ← getbitu mem 190 32
  let sqrtA ← getbitu mem 222 32
  let type2 ← getbitu mem 256 6
  let iod1 ← getbitu mem 262 10
  let OMG0 ← getbits mem 272 32
  let i0 ← getbits mem 304 32
  let omg ← getbits mem 336 32
  let idot ← getbits mem 368 14
  let type3 ← getbitu mem 384 6
  let iod2 ← getbitu mem 390 10
  let OMGd ← getbits mem 400 24
  let deln ← getbits mem 424 16
  let cuc ← getbits mem 440 16
  let cus ← getbits mem 456 16
  let crc ← getbits mem 472 16
  let crs ← getbits mem 488 16
  let sva ← getbitu mem 504 8
  let type4 ← getbitu mem 512 6
  let iod3 ← getbitu mem 518 10
  let cic ← getbits mem 534 16
  let cis ← getbits mem 550 16
  let toc ← getbitu mem 566 14
  let f0 ← getbits mem 580 31
  let f1 ← getbits mem 611 21
  let f2 ← getbits mem 632 6
  let type5 ← getbitu mem 640 6
  let tgd0 ← getbits mem 687 10
  let tgd1 ← getbits mem 697 10
  let e5b_hs ← getbitu mem 707 2
  let e1b_hs ← getbitu mem 709 2
  let e5b_dvs ← getbitu mem 711 1
  let e1b_dvs ← getbitu mem 712 1
  if type0 ≠ 0 ∨ type1 ≠ 1 ∨ type2 ≠ 2 ∨ type3 ≠ 3 ∨ type4 ≠ 4 ∨ type5 ≠ 5 then some none
  else if time_f ≠ 2 then some none
  else if iod0 ≠ iod1 ∨ iod0 ≠ iod2 ∨ iod0 ≠ iod3 then some none
  else
    let ttr := gst2time week tow
    let w := adjust week (gst2time week (toes * 60 : Nat) - ttr)
    some (some ⟨toes * 60, M0, e, sqrtA, OMG0, i0, omg, idot, OMGd, deln, cuc, cus, crc, crs, sva, cic, cis, f0, f1, f2,
      tgd0, tgd1, iod0, iod0, e5b_hs <<< 7 ||| e5b_dvs <<< 6 ||| e1b_hs <<< 1 ||| e1b_dvs, ttr,
      gst2time w (toes * 60 : Nat), gst2time w (toc * 60 : Nat), w + 1024⟩)

end Verif.RtkGal
