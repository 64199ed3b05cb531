import Verif.Model.BitTools
import Verif.Model.Time
/-!
# Model of common/ephemeris/gps.cxx, gps.h

`none` is undefined behaviour (access outside a buffer, signed overflow).  Floating-point members
are kept as the integer read from the message; the scale factor (a constant) is given in the
comment of the member, and the rounding of the product is not modelled.
-/
namespace Verif.Gps
open Verif.Bits

/-- Members assigned by `frame1` only (gps.cxx 111-129). -/
structure Sub1 where
  code_on_L2 : Nat
  ura : Nat
  health : Nat
  L2_P_data_flag : Nat
  alert_flag : Nat
  /-- in 2^-31 s; the reserved value -128 is stored as 0 -/
  tgd : Int
  /-- in s -/
  tocs : Nat
  /-- in 2^-55, 2^-43, 2^-31 -/
  af2 : Int
  af1 : Int
  af0 : Int
  iodc : Nat
  week : Nat
deriving DecidableEq

/-- Members assigned by `frame2` only (gps.cxx 147-155). -/
structure Sub2 where
  /-- in 2^-5 m -/
  crs : Int
  /-- in 2^-43 half-turns/s -/
  delta_n : Int
  /-- in 2^-31 half-turns -/
  m0 : Int
  /-- in 2^-29 rad -/
  cuc : Int
  /-- in 2^-33 -/
  ecc : Nat
  /-- in 2^-29 rad -/
  cus : Int
  /-- in 2^-19 -/
  sqrta : Nat
  /-- in s -/
  toes : Nat
  fit_interval_flag : Nat
deriving DecidableEq

/-- Members assigned by `frame3` only (gps.cxx 171-179). -/
structure Sub3 where
  /-- in 2^-29 rad -/
  cic : Int
  /-- in 2^-31 half-turns -/
  omega0 : Int
  /-- in 2^-29 rad -/
  cis : Int
  /-- in 2^-31 half-turns -/
  i0 : Int
  /-- in 2^-5 m -/
  crc : Int
  /-- in 2^-31 half-turns -/
  w : Int
  /-- in 2^-43 half-turns/s -/
  omegadot : Int
  /-- in 2^-43 half-turns/s -/
  idot : Int
deriving DecidableEq

/-- gps.h 8-61 with eph.h 81-112. -/
structure Eph where
  s1 : Sub1
  s2 : Sub2
  s3 : Sub3
  toe : Utc.Time
  toc : Utc.Time
  iode : Nat
  iode1 : Nat
  iode2 : Nat
  iode3 : Nat
  collected : Nat
deriving DecidableEq

/-- `FRAME1 | FRAME2 | FRAME3` and its parts (gps.h 50-55). -/
def FRAME1 : Nat := 1
def FRAME2 : Nat := 2
def FRAME3 : Nat := 4

/-- gps.cxx 50-55: word `i` of the message is the little-endian 32-bit number at `4 i`; its 24 data
bits go to bits `24 i .. 24 i + 23` of the subframe. -/
def stripLoop : List Nat → Nat → Mem → Option Mem
  | [], _, mem => some mem
  | w :: ws, i, mem => (setBit mem (i * 24) 24 (w / 2 ^ 6)).bind (stripLoop ws (i + 1))

/-- gps.cxx 48-55: the subframe without parity, in an array of 30 bytes (uninitialised, here
zero: every bit is written). -/
def strip (words : List Nat) : Option Mem := stripLoop words 0 (ofList (List.replicate 30 0))

/-- gps.cxx 103-135: `frame1` after the preamble test. -/
def decode1 (buf : Mem) : Option (Sub1 × Nat) := do
  let week_mod ← getBit buf 48 10
  let code_on_L2 ← getBit buf 58 2
  let ura ← getBit buf 60 4
  let health ← getBit buf 64 6
  let iodc0 ← getBit buf 70 2
  let L2_P_data_flag ← getBit buf 72 1
  let tgd ← getBitSigned buf 160 8
  let iode ← getBit buf 168 8
  let tocs ← getBit buf 176 16
  let af2 ← getBitSigned buf 192 8
  let af1 ← getBitSigned buf 200 16
  let af0 ← getBitSigned buf 216 22
  some ({ code_on_L2, ura, health, L2_P_data_flag, alert_flag := 0,
          tgd := if tgd = -128 then 0 else tgd, tocs := tocs * 16, af2, af1, af0,
          iodc := iodc0 * 2 ^ 8 + iode, week := week_mod + 2048 }, iode)

/-- gps.cxx 137-161: `frame2` after the preamble test. -/
def decode2 (buf : Mem) : Option (Sub2 × Nat) := do
  let iode ← getBit buf 48 8
  let crs ← getBitSigned buf 56 16
  let delta_n ← getBitSigned buf 72 16
  let m0 ← getBitSigned buf 88 32
  let cuc ← getBitSigned buf 120 16
  let ecc ← getBit buf 136 32
  let cus ← getBitSigned buf 168 16
  let sqrta ← getBit buf 184 32
  let toes ← getBit buf 216 16
  let fit ← getBit buf 232 1
  some ({ crs, delta_n, m0, cuc, ecc, cus, sqrta, toes := toes * 16,
          fit_interval_flag := if fit ≠ 0 then 0 else 4 }, iode)

/-- gps.cxx 163-185: `frame3` after the preamble test, with the issue of data it carries. -/
def decode3 (buf : Mem) : Option (Sub3 × Nat) := do
  let cic ← getBitSigned buf 48 16
  let omega0 ← getBitSigned buf 64 32
  let cis ← getBitSigned buf 96 16
  let i0 ← getBitSigned buf 112 32
  let crc ← getBitSigned buf 144 16
  let w ← getBitSigned buf 160 32
  let omegadot ← getBitSigned buf 192 24
  let iode3 ← getBit buf 216 8
  let idot ← getBitSigned buf 224 14
  some ({ cic, omega0, cis, i0, crc, w, omegadot, idot }, iode3)

/-- gps.cxx 103-135. -/
def frame1 (buf : Mem) (e : Eph) : Option Eph := do
  let b0 ← buf 0
  if b0 ≠ 0x8B then some e
  else
    let d ← decode1 buf
    some { e with s1 := d.1, iode := d.2, iode1 := d.2, collected := e.collected ||| FRAME1 }

/-- gps.cxx 137-161. -/
def frame2 (buf : Mem) (e : Eph) : Option Eph := do
  let b0 ← buf 0
  if b0 ≠ 0x8B then some e
  else
    let d ← decode2 buf
    some { e with s2 := d.1, iode := d.2, iode2 := d.2, collected := e.collected ||| FRAME2 }

/-- gps.cxx 163-185: the issue of data read from the subframe (line 178) is overwritten by that of
the object (line 181). -/
def frame3 (buf : Mem) (e : Eph) : Option Eph := do
  let b0 ← buf 0
  if b0 ≠ 0x8B then some e
  else
    let d ← decode3 buf
    some { e with s3 := d.1, iode3 := e.iode, collected := e.collected ||| FRAME3 }

/-- gps.cxx 80-100: the end of `parse`, once the subframe has been taken in. -/
def finish (e : Eph) : Option (Bool × Eph) := do
  if e.collected ≠ FRAME1 ||| FRAME2 ||| FRAME3 then some (false, e)
  else if e.iode1 ≠ e.iode2 ∨ e.iode1 ≠ e.iode3 ∨ e.iode ≠ e.s1.iodc &&& 0xFF then some (false, e)
  else
    let toe ← Utc.fromGPS e.s1.week (e.s2.toes * 1000)
    let toc ← Utc.fromGPS e.s1.week (e.s1.tocs * 1000)
    some (true, { e with toe, toc, iode1 := 0, iode2 := 0, iode3 := 0 })

/-- gps.cxx 39-101: `parse(buf, size)` on a message of `words` 32-bit words (`size` is four times
their number). -/
def parse (words : List Nat) (e : Eph) : Option (Bool × Eph) := do
  if words.length < 10 then some (false, e)
  else
    let sub ← strip (words.take 10)
    let id ← getBit sub 43 3
    if id = 1 then finish (← frame1 sub e)
    else if id = 2 then finish (← frame2 sub e)
    else if id = 3 then finish (← frame3 sub e)
    else some (false, e)

end Verif.Gps
