import Verif.Model.BitTools
import Verif.Model.Crc
import Verif.Model.Time
/-!
# Model of common/ephemeris/galileo.cxx, galileo.h

`none` is undefined behaviour (access outside a buffer, signed overflow).  Floating-point members
are kept as the integer read from the message (scale factors in the comments); the rounding of the
products is not modelled.  `toSec()` is exact, in nanoseconds.
-/
namespace Verif.Galileo
open Verif.Bits

/-- Members assigned by `frame0` except `week` (galileo.cxx 179-184). -/
structure W0 where
  time_f : Nat
  tow : Nat
deriving DecidableEq

/-- Members assigned by `frame1` (galileo.cxx 196-201): `toes` in s, `m0` in 2^-31 half-turns, `ecc`
in 2^-33, `sqrta` in 2^-19. -/
structure W1 where
  iod : Nat
  toes : Nat
  m0 : Int
  ecc : Nat
  sqrta : Nat
deriving DecidableEq

/-- Members assigned by `frame2` (galileo.cxx 213-218): angles in 2^-31 half-turns, `idot` in 2^-43
half-turns/s. -/
structure W2 where
  iod : Nat
  omega0 : Int
  i0 : Int
  w : Int
  idot : Int
deriving DecidableEq

/-- Members assigned by `frame3` (galileo.cxx 230-237). -/
structure W3 where
  iod : Nat
  omegadot : Int
  delta_n : Int
  cuc : Int
  cus : Int
  crc : Int
  crs : Int
deriving DecidableEq

/-- Members assigned by `frame4` (galileo.cxx 249-257): `tocs` in s, `af0` in 2^-34, `af1` in 2^-46,
`af2` in 2^-59. -/
structure W4 where
  iod : Nat
  cic : Int
  cis : Int
  tocs : Nat
  af0 : Int
  af1 : Int
  af2 : Int
deriving DecidableEq

/-- Members assigned by `frame5` (galileo.cxx 276-281): group delays in 2^-32 s. -/
structure W5 where
  bgd_e1_e5a : Int
  bgd_e1_e5b : Int
  e5b_hs : Nat
  e1b_hs : Nat
  e5b_dvs : Nat
  e1b_dvs : Nat
deriving DecidableEq

/-- galileo.h 36-75 with eph.h 73-110. -/
structure Eph where
  sat : Nat
  w0 : W0
  w1 : W1
  w2 : W2
  w3 : W3
  w4 : W4
  w5 : W5
  week : Nat
  iode : Nat
  iodc : Nat
  toe : Utc.Time
  toc : Utc.Time
  collected : Nat
deriving DecidableEq

/-- galileo.cxx 51-62: the 32 bytes with the byte order of each 32-bit word reversed.  (The array has
64 bytes, the rest of which is never written; here it cannot be read.) -/
def swapped (msg : List UInt8) : List UInt8 :=
  (List.range 32).map fun i => msg.getD (4 * (i / 4) + (3 - i % 4)) 0

/-- `buf + n`. -/
def offset (n : Nat) (buf : Mem) : Mem := fun i => buf (n + i)

/-- galileo.cxx 85-90, 92-96: `for (i = i0; n times; ++i) { setBit<8>(crc_buff, j, buf[i]); j += 8; }`. -/
def fill (buf : Mem) : Nat → Nat → Nat → Mem → Option Mem
  | 0, _, _, out => some out
  | n + 1, i, j, out => do
    let b ← buf i
    let out ← setBit out j 8 b.toNat
    fill buf n (i + 1) (j + 8) out

/-- galileo.cxx 84-96: `crc_buff`. -/
def crcBuff (buf : Mem) : Option Mem := do
  let a ← fill buf 15 0 4 (ofList (List.replicate 26 0))
  fill buf 11 16 118 a

/-- The first `n` bytes at `p`. -/
def bytes (mem : Mem) : Nat → Nat → Option (List UInt8)
  | 0, _ => some []
  | n + 1, p => do
    let b ← mem p
    let bs ← bytes mem n (p + 1)
    some (b :: bs)

/-- `buf[i] = v`. -/
def write (mem : Mem) (i : Nat) (v : UInt8) : Mem := fun q => if q = i then some v else mem q

/-- galileo.cxx 118-123, 125-129: `for (i = i0; n times; ++i) buf[i] = getBit<8>(buf, i*8+off)`. -/
def gatherLoop (off : Nat) : Nat → Nat → Mem → Option Mem
  | 0, _, buf => some buf
  | n + 1, i, buf => do
    let v ← getBit buf (i * 8 + off) 8
    gatherLoop off n (i + 1) (write buf i (UInt8.ofNat v))

/-- galileo.cxx 118-129. -/
def gather (buf : Mem) : Option Mem := do
  let a ← gatherLoop 2 14 0 buf
  gatherLoop 122 2 14 a

/-- galileo.cxx 181-183. -/
def decode0 (buf : Mem) : Option (W0 × Nat) := do
  let time_f ← getBit buf 6 2
  let week ← getBit buf 96 12
  let tow ← getBit buf 108 20
  some (⟨time_f, tow⟩, week)

/-- galileo.cxx 197-201. -/
def decode1 (buf : Mem) : Option W1 := do
  let iod ← getBit buf 6 10
  let toes ← getBit buf 16 14
  let m0 ← getBitSigned buf 30 32
  let ecc ← getBit buf 62 32
  let sqrta ← getBit buf 94 32
  some ⟨iod, toes * 60, m0, ecc, sqrta⟩

/-- galileo.cxx 214-218. -/
def decode2 (buf : Mem) : Option W2 := do
  let iod ← getBit buf 6 10
  let omega0 ← getBitSigned buf 16 32
  let i0 ← getBitSigned buf 48 32
  let w ← getBitSigned buf 80 32
  let idot ← getBitSigned buf 112 14
  some ⟨iod, omega0, i0, w, idot⟩

/-- galileo.cxx 231-237. -/
def decode3 (buf : Mem) : Option W3 := do
  let iod ← getBit buf 6 10
  let omegadot ← getBitSigned buf 16 24
  let delta_n ← getBitSigned buf 40 16
  let cuc ← getBitSigned buf 56 16
  let cus ← getBitSigned buf 72 16
  let crc ← getBitSigned buf 88 16
  let crs ← getBitSigned buf 104 16
  some ⟨iod, omegadot, delta_n, cuc, cus, crc, crs⟩

/-- galileo.cxx 250-257; the second component is `svid`. -/
def decode4 (buf : Mem) : Option (W4 × Nat) := do
  let iod ← getBit buf 6 10
  let svid ← getBit buf 16 6
  let cic ← getBitSigned buf 22 16
  let cis ← getBitSigned buf 38 16
  let tocs ← getBit buf 54 14
  let af0 ← getBitSigned buf 68 31
  let af1 ← getBitSigned buf 99 21
  let af2 ← getBitSigned buf 120 6
  some (⟨iod, cic, cis, tocs * 60, af0, af1, af2⟩, svid)

/-- galileo.cxx 276-281. -/
def decode5 (buf : Mem) : Option W5 := do
  let bgd_e1_e5a ← getBitSigned buf 47 10
  let bgd_e1_e5b ← getBitSigned buf 57 10
  let e5b_hs ← getBit buf 67 2
  let e1b_hs ← getBit buf 69 2
  let e5b_dvs ← getBit buf 70 1
  let e1b_dvs ← getBit buf 71 1
  some ⟨bgd_e1_e5a, bgd_e1_e5b, e5b_hs, e1b_hs, e5b_dvs, e1b_dvs⟩

/-- galileo.cxx 131-155, 179-296: `frame0` .. `frame5`.  The members are assigned first; the flag is
set if the type read again from the data word (and for type 4 the satellite number) is right. -/
def frame (type : Nat) (buf : Mem) (e : Eph) : Option Eph := do
  let t ← getBit buf 0 6
  let flag := fun (k : Nat) (c : Prop) [Decidable c] =>
    if c then e.collected ||| 2 ^ k else e.collected
  if type = 0 then
    let d ← decode0 buf
    some { e with w0 := d.1, week := d.2, collected := flag 0 (t = 0) }
  else if type = 1 then
    let d ← decode1 buf
    some { e with w1 := d, collected := flag 1 (t = 1) }
  else if type = 2 then
    let d ← decode2 buf
    some { e with w2 := d, collected := flag 2 (t = 2) }
  else if type = 3 then
    let d ← decode3 buf
    some { e with w3 := d, collected := flag 3 (t = 3) }
  else if type = 4 then
    let d ← decode4 buf
    some { e with w4 := d.1, collected := flag 4 (t = 4 ∧ d.2 = e.sat) }
  else
    let d ← decode5 buf
    some { e with w5 := d, collected := flag 5 (t = 5) }

/-- galileo.cxx 168-172: the week after the adjustment; `dt` in nanoseconds, `week` is `uint16_t`. -/
def adjust (week : Nat) (dt : Int) : Nat :=
  ((if dt > 302400 * 1000000000 then week + 65535
    else if dt < -(302400 * 1000000000) then week + 1 else week) % 65536 + 1024) % 65536

/-- galileo.cxx 157-176. -/
def finish (e : Eph) : Option (Bool × Eph) := do
  if e.collected ≠ 63 then some (false, e)
  else if e.w1.iod ≠ e.w2.iod ∨ e.w1.iod ≠ e.w3.iod ∨ e.w1.iod ≠ e.w4.iod then some (false, e)
  else
    let ttr ← Utc.fromGPS e.week (e.w0.tow * 1000)
    let t ← Utc.fromGPS e.week (e.w1.toes * 1000)
    let d ← Utc.sub t ttr
    let week := adjust e.week (Utc.toSecNs d)
    let toe ← Utc.fromGPS week (e.w1.toes * 1000)
    let toc ← Utc.fromGPS week (e.w4.tocs * 1000)
    some (true, { e with iode := e.w1.iod % 256, iodc := e.w1.iod, week, toe, toc })

/-- galileo.cxx 48-177: `parse(msg, size)`; `size` is not used. -/
def parse (msg : List UInt8) (e : Eph) : Option (Bool × Eph) := do
  if msg.length < 32 then none
  else
    let buf := ofList (swapped msg)
    let part1 ← getBit buf 0 1
    let page1 ← getBit buf 1 1
    let part2 ← getBit (offset 16 buf) 0 1
    let page2 ← getBit (offset 16 buf) 1 1
    if page1 = 1 ∨ page2 = 1 then some (false, e)
    else if part1 ≠ 0 ∨ part2 ≠ 1 then some (false, e)
    else
      let cb ← crcBuff buf
      let bs ← bytes cb 25 0
      let c ← Crc.crc24 bs
      let c' ← getBit (offset 16 buf) 82 24
      if c ≠ c' then some (false, e)
      else
        let type ← getBit buf 2 6
        if type > 6 then some (false, e)
        else
          let data ← gather buf
          if type = 6 then some (false, e)
          else
            let e ← frame type data { e with collected := if type = 2 then 0 else e.collected }
            finish e

end Verif.Galileo
