import Verif.Spec.Bits
import Verif.Model.Glonass
/-!
# Specification of the GLONASS strings 1-5 (GLONASS ICD L1/L2, edition 5.1, 4.3-4.5) and of
ephemeris assembly

A message consists of four little-endian 32-bit words; the 85 bits of the string are sent most
significant bit of the first word first.  The ICD numbers them from 85 (first) to 1.
-/
namespace Verif.GlonassSpec
open Verif.BitSpec

/-- Bit `n` of the string in the numbering of the ICD. -/
def strBit (m : List UInt8) (n : Nat) : Nat := msgBit m (85 - n)

/-- Unsigned field in bits `hi` down to `lo`. -/
def U (m : List UInt8) (hi lo : Nat) : Nat :=
  number ((List.range (hi + 1 - lo)).map fun i => strBit m (hi - i))

/-- Sign (bit `hi`) and magnitude (bits `hi - 1` down to `lo`). -/
def S (m : List UInt8) (hi lo : Nat) : Int :=
  if strBit m hi = 1 then -(U m (hi - 1) lo : Int) else (U m (hi - 1) lo : Int)

/-- The string number. -/
def num (m : List UInt8) : Nat := U m 84 81

/-- The superframe and frame number that the receiver appends (upper half of the fourth word). -/
def mark (m : List UInt8) : Nat := word m 3 / 2 ^ 16

/-- A complete message passing the check of C16, with a number from 1 to 5. -/
def Valid (m : List UInt8) : Prop :=
  16 ≤ m.length ∧ Crc.gloTest (fun i => if i < 16 then byteAt m i else 0) = true ∧
    1 ≤ num m ∧ num m ≤ 5

instance (m : List UInt8) : Decidable (Valid m) := by unfold Valid; infer_instance

/-- ICD table 4.5, string 1. -/
def str1 (m : List UInt8) : Glonass.Str1 where
  tk_h := U m 76 72
  tk_m := U m 71 66
  tk_s := 30 * U m 65 65
  vel0 := S m 64 41
  acc0 := S m 40 36
  pos0 := S m 35 9

/-- String 2. -/
def str2 (m : List UInt8) : Glonass.Str2 where
  svh := U m 80 78
  tb := U m 76 70
  iode := U m 76 70
  vel1 := S m 64 41
  acc1 := S m 40 36
  pos1 := S m 35 9

/-- String 3. -/
def str3 (m : List UInt8) : Glonass.Str3 where
  gamn := S m 79 69
  vel2 := S m 64 41
  acc2 := S m 40 36
  pos2 := S m 35 9

/-- String 4. -/
def str4 (m : List UInt8) : Glonass.Str4 where
  taun := S m 80 59
  dtaun := S m 58 54
  age := U m 53 49
  sva := U m 33 30
  NT := U m 26 16
  slot := U m 15 11

/-- String 5. -/
def str5 (m : List UInt8) : Glonass.Str5 where
  NA := U m 80 70
  N4 := U m 36 32

/-- The valid strings received since the mark last changed (initially the mark is 0), with the
current mark. -/
def era (h : List (List UInt8)) : Nat × List (List UInt8) :=
  h.foldl (fun s m =>
    if Valid m then (mark m, if mark m = s.1 then s.2 ++ [m] else [m]) else s) (0, [])

/-- The most recent string `k` of a list. -/
def lastStr (k : Nat) (l : List (List UInt8)) : Option (List UInt8) :=
  l.reverse.find? fun m => decide (num m = k)

/-- The start of a day given by the four-year interval and the day in it (Moscow time, three hours
ahead of UTC). -/
def dayStart (n4 day : Nat) : Int :=
  820454400 + ((n4 : Int) - 1) * (1461 * 86400) - 10800 + ((day : Int) - 1) * 86400

/-- A fresh object (glonass.h 60-61; the other members are arbitrary). -/
def Fresh (e : Glonass.Eph) : Prop := e.flags = 0 ∧ e.mark = 0

/-- Feeding a history to the parser. -/
def observe (e0 : Glonass.Eph) (h : List (List UInt8)) : Option Glonass.Eph :=
  h.foldlM (fun e m => (Glonass.parse m e).map Prod.snd) e0

end Verif.GlonassSpec
