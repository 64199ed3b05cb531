import Verif.Spec.Bits
import Verif.Model.Galileo
/-!
# Specification of the Galileo I/NAV words 0-5 (OS SIS ICD, 4.3) and of ephemeris assembly

A message consists of eight little-endian 32-bit words: four for the even page part, four for the odd
page part.
-/
namespace Verif.GalileoSpec
open Verif.BitSpec

/-- Bit `j` of the even and odd page part. -/
def evenBit (m : List UInt8) (j : Nat) : Nat := msgBit m j
def oddBit (m : List UInt8) (j : Nat) : Nat := msgBit m (128 + j)

/-- The 128 bits of the data word (ICD 4.3.2.3): 112 after the two header bits of the even part, 16
after those of the odd part. -/
def dataBit (m : List UInt8) (i : Nat) : Nat :=
  if i < 112 then evenBit m (2 + i) else oddBit m (2 + (i - 112))

/-- What the code takes for them: the last 16 come from after the checksum. -/
def codeBit (m : List UInt8) (i : Nat) : Nat :=
  if i < 112 then evenBit m (2 + i) else oddBit m (106 + (i - 112))

/-- Unsigned field of `len` bits from `pos`. -/
def U (b : Nat → Nat) (pos len : Nat) : Nat := number ((List.range len).map fun i => b (pos + i))

/-- Two's complement. -/
def S (b : Nat → Nat) (pos len : Nat) : Int := twos len (U b pos len)

/-- The bits covered by the checksum: 114 of the even part and 82 of the odd part, preceded by four
zeros to complete a byte. -/
def crcBit (m : List UInt8) (p : Nat) : Nat :=
  if p < 4 then 0 else if p < 118 then evenBit m (p - 4) else oddBit m (p - 118)

/-- The same as bytes. -/
def crcInput (m : List UInt8) : List UInt8 :=
  (List.range 25).map fun i => UInt8.ofNat (number ((List.range 8).map fun j => crcBit m (8 * i + j)))

/-- The word type. -/
def type (m : List UInt8) : Nat := U (dataBit m) 0 6

/-- A nominal even/odd pair with correct checksum and type 0..5. -/
def Valid (m : List UInt8) : Prop :=
  evenBit m 0 = 0 ∧ evenBit m 1 = 0 ∧ oddBit m 0 = 1 ∧ oddBit m 1 = 0 ∧
    Crc.crc24 (crcInput m) = some (U (oddBit m) 82 24) ∧ type m ≤ 5

instance (m : List UInt8) : Decidable (Valid m) := by unfold Valid; infer_instance

/-! Contents of the words (ICD tables 40-44, 46), for a given reading of the 128 bits. -/

def word0 (b : Nat → Nat) : Galileo.W0 := ⟨U b 6 2, U b 108 20⟩
def week0 (b : Nat → Nat) : Nat := U b 96 12
def word1 (b : Nat → Nat) : Galileo.W1 :=
  ⟨U b 6 10, 60 * U b 16 14, S b 30 32, U b 62 32, U b 94 32⟩
def word2 (b : Nat → Nat) : Galileo.W2 := ⟨U b 6 10, S b 16 32, S b 48 32, S b 80 32, S b 112 14⟩
def word3 (b : Nat → Nat) : Galileo.W3 :=
  ⟨U b 6 10, S b 16 24, S b 40 16, S b 56 16, S b 72 16, S b 88 16, S b 104 16⟩
def word4 (b : Nat → Nat) : Galileo.W4 :=
  ⟨U b 6 10, S b 22 16, S b 38 16, 60 * U b 54 14, S b 68 31, S b 99 21, S b 120 6⟩
def svid4 (b : Nat → Nat) : Nat := U b 16 6
def word5 (b : Nat → Nat) : Galileo.W5 :=
  ⟨S b 47 10, S b 57 10, U b 67 2, U b 69 2, U b 71 1, U b 72 1⟩

/-- As `word5`, with the validity flags where the code reads them. -/
def word5code (b : Nat → Nat) : Galileo.W5 :=
  ⟨S b 47 10, S b 57 10, U b 67 2, U b 69 2, U b 70 1, U b 71 1⟩

/-- The valid words received since the last word 2 (inclusive), or from the beginning. -/
def era (h : List (List UInt8)) : List (List UInt8) :=
  h.foldl (fun l m => if Valid m then if type m = 2 then [m] else l ++ [m] else l) []

/-- The valid words of a history. -/
def valids (h : List (List UInt8)) : List (List UInt8) := h.filter fun m => decide (Valid m)

/-- The most recent word of type `k`. -/
def lastWord (k : Nat) (l : List (List UInt8)) : Option (List UInt8) :=
  l.reverse.find? fun m => decide (type m = k)

/-- The most recent word of type 4 that names satellite `sat`. -/
def ownWord (sat : Nat) (l : List (List UInt8)) : Option (List UInt8) :=
  l.reverse.find? fun m => decide (type m = 4 ∧ svid4 (dataBit m) = sat)

/-- A fresh object. -/
def Fresh (e : Galileo.Eph) : Prop := e.collected = 0

/-- Feeding a history to the parser: the object afterwards and the messages since the last report. -/
def observe (e0 : Galileo.Eph) (h : List (List UInt8)) :
    Option (Galileo.Eph × List (List UInt8)) :=
  h.foldlM (fun s m => do
    let r ← Galileo.parse m s.1
    some (r.2, if r.1 then [] else s.2 ++ [m])) (e0, [])

/-- UTC second of a GPS week and second of week, by the convention of the code (see C65). -/
def gpsSecond (week : Int) (sow : Nat) : Int := week * 604800 + sow + 315964818

/-- The GPS week of a Galileo week, moved to the week whose reference time is within half a week of
the time of transmission. -/
def gpsWeek (week : Nat) (toes tow : Nat) : Int :=
  (week : Int) + 1024 +
    (if (toes : Int) - tow > 302400 then -1 else if (toes : Int) - tow < -302400 then 1 else 0)

end Verif.GalileoSpec
