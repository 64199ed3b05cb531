import Verif.Model.BitTools
import Verif.Model.Crc
import Verif.Model.Time
/-!
# Model of common/ephemeris/glonass.cxx, glonass.h

`none` is undefined behaviour (access outside a buffer, signed overflow).  Floating-point members
are kept as the integer read from the message (scale factors in the comments); the rounding of the
products is not modelled.
-/
namespace Verif.Glonass
open Verif.Bits

/-- Members assigned by `frame1` (glonass.cxx 120-132); velocity in 2^-20 km/s, acceleration in
2^-30 km/s², position in 2^-11 km. -/
structure Str1 where
  tk_h : Nat
  tk_m : Nat
  tk_s : Nat
  vel0 : Int
  acc0 : Int
  pos0 : Int
deriving DecidableEq

/-- Members assigned by `frame2` (glonass.cxx 134-147); `iode` equals `tb`. -/
structure Str2 where
  svh : Nat
  tb : Nat
  iode : Nat
  vel1 : Int
  acc1 : Int
  pos1 : Int
deriving DecidableEq

/-- Members assigned by `frame3` (glonass.cxx 149-161); `gamn` in 2^-40. -/
structure Str3 where
  gamn : Int
  vel2 : Int
  acc2 : Int
  pos2 : Int
deriving DecidableEq

/-- Members assigned by `frame4` (glonass.cxx 163-176); `taun`, `dtaun` in 2^-30 s. -/
structure Str4 where
  taun : Int
  dtaun : Int
  age : Nat
  sva : Nat
  NT : Nat
  slot : Nat
deriving DecidableEq

/-- Members assigned by `frame5` (glonass.cxx 178-190). -/
structure Str5 where
  NA : Nat
  N4 : Nat
deriving DecidableEq

/-- glonass.h 20-83. -/
structure Eph where
  s1 : Str1
  s2 : Str2
  s3 : Str3
  s4 : Str4
  s5 : Str5
  tof : Utc.Time
  toe : Utc.Time
  flags : Nat
  mark : Nat
deriving DecidableEq

/-- glonass.cxx 53-63: the 16 bytes with the byte order of each 32-bit word reversed.  (The array
has 64 bytes, the rest of which is never written; here it cannot be read.) -/
def swapped (msg : List UInt8) : List UInt8 :=
  (List.range 16).map fun i => msg.getD (4 * (i / 4) + (3 - i % 4)) 0

/-- glonass.cxx 124-129. -/
def decode1 (buf : Mem) : Option Str1 := do
  let tk_h ← getBit buf 9 5
  let tk_m ← getBit buf 14 6
  let tk_s ← getBit buf 20 1
  let vel0 ← getBitGlo buf 21 24
  let acc0 ← getBitGlo buf 45 5
  let pos0 ← getBitGlo buf 50 27
  some ⟨tk_h, tk_m, tk_s * 30, vel0, acc0, pos0⟩

/-- glonass.cxx 137-143. -/
def decode2 (buf : Mem) : Option Str2 := do
  let svh ← getBit buf 5 3
  let tb ← getBit buf 9 7
  let vel1 ← getBitGlo buf 21 24
  let acc1 ← getBitGlo buf 45 5
  let pos1 ← getBitGlo buf 50 27
  some ⟨svh, tb, tb, vel1, acc1, pos1⟩

/-- glonass.cxx 153-158. -/
def decode3 (buf : Mem) : Option Str3 := do
  let gamn ← getBitGlo buf 6 11
  let vel2 ← getBitGlo buf 21 24
  let acc2 ← getBitGlo buf 45 5
  let pos2 ← getBitGlo buf 50 27
  some ⟨gamn, vel2, acc2, pos2⟩

/-- glonass.cxx 166-173. -/
def decode4 (buf : Mem) : Option Str4 := do
  let taun ← getBitGlo buf 5 22
  let dtaun ← getBitGlo buf 27 5
  let age ← getBit buf 32 5
  let sva ← getBit buf 52 4
  let NT ← getBit buf 59 11
  let slot ← getBit buf 70 5
  some ⟨taun, dtaun, age, sva, NT, slot⟩

/-- glonass.cxx 181-183. -/
def decode5 (buf : Mem) : Option Str5 := do
  let NA ← getBit buf 5 11
  let N4 ← getBit buf 49 5
  some ⟨NA, N4⟩

/-- glonass.h 56: `got`, for the bit of string `k`. -/
def got (e : Eph) (k : Nat) : Bool := e.flags.testBit (k - 1)

/-- utctime.cxx 110-120, 138-148: `UTCTime ± int`. -/
def addInt (t : Utc.Time) (k : Int) : Option Utc.Time := do
  let s ← Utc.i64 (t.sec + k)
  some ⟨s, t.nsec⟩

/-- glonass.cxx 198: `fromCalendar(1996, 1, 1, 0, 0, 0)`. -/
def Jan1_1996 : Utc.Time := ⟨820454400, 0⟩

/-- glonass.cxx 204-207, 210-213. -/
def stamp (b : Bool) (day : Utc.Time) (k : Int) (old : Utc.Time) : Option Utc.Time :=
  if b then addInt day k else some old

/-- glonass.cxx 193-219; the products are evaluated in `int`. -/
def convertTime (e : Eph) : Option Eph := do
  if ¬ got e 4 ∨ ¬ got e 5 then some e
  else
    let a ← Utc.i32 (((e.s5.N4 : Int) - 1) * (3 * 31536000 + 31622400))
    let y0 ← addInt Jan1_1996 a
    let start_of_year ← addInt y0 (-(3 * 3600))
    let d ← Utc.i32 (((e.s5.NA : Int) - 1) * 86400)
    let start_of_day ← addInt start_of_year d
    let tof ← stamp (got e 1) start_of_day (e.s1.tk_h * 3600 + e.s1.tk_m * 60 + e.s1.tk_s) e.tof
    let toe ← stamp (got e 2) start_of_day (e.s2.tb * 60 * 15) e.toe
    some { e with tof, toe }

/-- glonass.cxx 86-105, 120-190: `frame1` .. `frame5`. -/
def frame (num : Nat) (buf : Mem) (e : Eph) : Option Eph :=
  if num = 1 then do
    let s ← decode1 buf
    convertTime { e with s1 := s, flags := e.flags ||| 1 }
  else if num = 2 then do
    let s ← decode2 buf
    convertTime { e with s2 := s, flags := e.flags ||| 2 }
  else if num = 3 then do
    let s ← decode3 buf
    some { e with s3 := s, flags := e.flags ||| 4 }
  else if num = 4 then do
    let s ← decode4 buf
    some { e with s4 := s, flags := e.flags ||| 8 }
  else do
    let s ← decode5 buf
    convertTime { e with s5 := s, flags := e.flags ||| 16 }

/-- glonass.cxx 107-117. -/
def finish (num : Nat) (e : Eph) : Bool × Eph :=
  if e.flags ≠ 31 then (false, e)
  else if num ≠ 5 then (false, e)
  else (true, e)

/-- glonass.cxx 44-118. -/
def parse (msg : List UInt8) (e : Eph) : Option (Bool × Eph) := do
  if msg.length < 16 then some (false, e)
  else
    let l := swapped msg
    let buf := ofList l
    if ¬ Crc.gloTest (fun i => l.getD i 0) then some (false, e)
    else
      let num ← getBit buf 1 4
      if num < 1 ∨ 5 < num then some (false, e)
      else
        let b12 ← buf 12
        let b13 ← buf 13
        let mark := (b12.toNat * 2 ^ 8) % 2 ^ 16 ||| b13.toNat
        let e ← frame num buf { e with flags := if mark ≠ e.mark then 0 else e.flags, mark := mark }
        some (finish num e)

end Verif.Glonass
