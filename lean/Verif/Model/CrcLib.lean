import Mathlib.Data.Nat.Bitwise

/-!
# The library of cyclic redundancy checks

`third_party/crcpp/crc.h`: checks of any width with any polynomial, bit by bit or with a table.

Simplifications: `CRCType` is an unsigned type of `bits` bits, its values are natural numbers, a
`static_cast` to it is the remainder by `2 ^ bits`.  Operators on smaller types work on `int`, where
no value here overflows.  `CRCPP_BRANCHLESS` is off; `branchlessR`, `branchlessL` are the other forms
of the inner step.  The bytes are a list; its length is `size`.
-/

namespace Verif.Model.CrcLib

/-- `CRC::Parameters<CRCType, CRCWidth>` (`third_party/crcpp/crc.h` 153-165): the width, the bits of
the type, polynomial, initial value, final value, the reflections. -/
structure Params where
  width : Nat
  bits : Nat
  poly : Nat
  init : Nat
  xorOut : Nat
  refIn : Bool
  refOut : Bool

/-- A cast to `CRCType`. -/
def trunc (bits x : Nat) : Nat := x % 2 ^ bits

/-- The loop of `CRC::Reflect` (`crc.h` 562-566): the reversed value so far and what is left. -/
def reflectLoop (bits : Nat) : Nat → Nat → Nat → Nat
  | 0, rev, _ => rev
  | n + 1, rev, v => reflectLoop bits n (trunc bits ((rev <<< 1) ||| (v &&& 1))) (v >>> 1)

/-- `CRC::Reflect` (`crc.h` 557-569). -/
def mirror (bits v n : Nat) : Nat := reflectLoop bits n 0 v

/-- `BIT_MASK` (`crc.h` 414-415, 585-587, 620-622). -/
def bitMask (w : Nat) : Nat := (1 <<< (w - 1)) ||| ((1 <<< (w - 1)) - 1)

/-- `CRC::Finalize` (`crc.h` 581-595). -/
def finalize (p : Params) (rem : Nat) (refl : Bool) : Nat :=
  ((if refl then mirror p.bits rem p.width else rem) ^^^ p.xorOut) &&& bitMask p.width

/-- `CRC::UndoFinalize` (`crc.h` 616-632). -/
def undoFinalize (p : Params) (crc : Nat) (refl : Bool) : Nat :=
  let c := (crc &&& bitMask p.width) ^^^ p.xorOut
  if refl then mirror p.bits c p.width else c

/-- The inner step for reflected input (`crc.h` 689-690). -/
def stepR (bits poly r : Nat) : Nat :=
  trunc bits (if r &&& 1 ≠ 0 then (r >>> 1) ^^^ poly else r >>> 1)

/-- The inner step with the highest bit `1 << top` (`crc.h` 723-725, 759-761). -/
def stepL (bits top poly r : Nat) : Nat :=
  trunc bits (if r &&& (1 <<< top) ≠ 0 then (r <<< 1) ^^^ poly else r <<< 1)

/-- The inner step for reflected input without a branch (`crc.h` 687). -/
def branchlessR (bits poly r : Nat) : Nat := trunc bits ((r >>> 1) ^^^ ((r &&& 1) * poly))

/-- The inner step without a branch (`crc.h` 719-721, 756-757). -/
def branchlessL (bits top poly r : Nat) : Nat :=
  trunc bits ((r <<< 1) ^^^ (((r >>> top) &&& 1) * poly))

/-- The body of the loop over the bytes for reflected input (`crc.h` 674-692); `poly` is the
reflected polynomial. -/
def byteR (bits poly r : Nat) (b : UInt8) : Nat := (stepR bits poly)^[8] (trunc bits (r ^^^ b.toNat))

/-- The body of the loop for a width of at least 8 (`crc.h` 705-727). -/
def byteL (p : Params) (r : Nat) (b : UInt8) : Nat :=
  (stepL p.bits (p.width - 1) p.poly)^[8]
    (trunc p.bits (r ^^^ (trunc p.bits b.toNat <<< (p.width - 8))))

/-- The body of the loop for a width below 8 (`crc.h` 743-764); `poly` is the shifted polynomial. -/
def byteS (bits poly r : Nat) (b : UInt8) : Nat :=
  (stepL bits 7 poly)^[8] (trunc bits (r ^^^ b.toNat))

/-- `CRC::CalculateRemainder` bit by bit (`crc.h` 646-770). -/
def remainder (p : Params) (data : List UInt8) (r : Nat) : Nat :=
  if p.refIn then data.foldl (byteR p.bits (mirror p.bits p.poly p.width)) r
  else if 8 ≤ p.width then data.foldl (byteL p) r
  else
    trunc p.bits (data.foldl (byteS p.bits (trunc p.bits (p.poly <<< (8 - p.width))))
      (trunc p.bits (r <<< (8 - p.width))) >>> (8 - p.width))

/-- `Table::InitTable` (`crc.h` 410-446): the entry for a byte. -/
def entry (p : Params) (b : UInt8) : Nat :=
  let crc := remainder p [b] 0 &&& bitMask p.width
  if !p.refIn ∧ p.width < 8 then trunc p.bits (crc <<< (8 - p.width)) else crc

/-- A cast to `unsigned char`. -/
def uchar (x : Nat) : UInt8 := UInt8.ofNat x

/-- The bodies of the loops over the bytes with a table (`crc.h` 802-804, 818-820, 834). -/
def tableR (p : Params) (r : Nat) (b : UInt8) : Nat :=
  trunc p.bits ((r >>> 8) ^^^ entry p (uchar (r ^^^ b.toNat)))

def tableL (p : Params) (r : Nat) (b : UInt8) : Nat :=
  trunc p.bits ((r <<< 8) ^^^ entry p (uchar ((r >>> (p.width - 8)) ^^^ b.toNat)))

def tableS (p : Params) (r : Nat) (b : UInt8) : Nat := entry p (uchar (r ^^^ b.toNat))

/-- `CRC::CalculateRemainder` with a table (`crc.h` 784-842). -/
def remainderT (p : Params) (data : List UInt8) (r : Nat) : Nat :=
  if p.refIn then data.foldl (tableR p) r
  else if 8 ≤ p.width then data.foldl (tableL p) r
  else
    trunc p.bits (data.foldl (tableS p) (trunc p.bits (r <<< (8 - p.width))) >>> (8 - p.width))

/-- `CRC::Calculate(data, size, parameters)` (`crc.h` 457-468). -/
def calculate (p : Params) (data : List UInt8) : Nat :=
  finalize p (remainder p data p.init) (p.refIn != p.refOut)

/-- `CRC::Calculate(data, size, parameters, crc)` (`crc.h` 480-495). -/
def calculateMore (p : Params) (data : List UInt8) (crc : Nat) : Nat :=
  finalize p (remainder p data (undoFinalize p crc (p.refIn != p.refOut))) (p.refIn != p.refOut)

/-- `CRC::Calculate(data, size, lookupTable)` (`crc.h` 506-519). -/
def calculateT (p : Params) (data : List UInt8) : Nat :=
  finalize p (remainderT p data p.init) (p.refIn != p.refOut)

/-- `CRC::Calculate(data, size, lookupTable, crc)` (`crc.h` 532-549). -/
def calculateMoreT (p : Params) (data : List UInt8) (crc : Nat) : Nat :=
  finalize p (remainderT p data (undoFinalize p crc (p.refIn != p.refOut))) (p.refIn != p.refOut)

/-- The parameters the library offers (`crc.h` 843-1798), in their order, each with the check value
its comment states for the text `123456789`. -/
def catalogue : List (Params × Nat) := [
  (⟨4, 8, 0x3, 0x0, 0x0, true, true⟩, 0x7),
  (⟨5, 8, 0x9, 0x9, 0x0, false, false⟩, 0x0),
  (⟨5, 8, 0x15, 0x0, 0x0, true, true⟩, 0x7),
  (⟨5, 8, 0x5, 0x1F, 0x1F, true, true⟩, 0x19),
  (⟨6, 8, 0x27, 0x3F, 0x0, false, false⟩, 0xD),
  (⟨6, 8, 0x7, 0x3F, 0x0, false, false⟩, 0x3B),
  (⟨6, 8, 0x3, 0x0, 0x0, true, true⟩, 0x6),
  (⟨7, 8, 0x9, 0x0, 0x0, false, false⟩, 0x75),
  (⟨8, 8, 0x7, 0x0, 0x0, false, false⟩, 0xF4),
  (⟨8, 8, 0x1D, 0xFF, 0x0, true, true⟩, 0x97),
  (⟨8, 8, 0x31, 0x0, 0x0, true, true⟩, 0xA1),
  (⟨8, 8, 0x9B, 0x0, 0x0, true, true⟩, 0x25),
  (⟨10, 16, 0x233, 0x0, 0x0, false, false⟩, 0x199),
  (⟨10, 16, 0x3D9, 0x3FF, 0x0, false, false⟩, 0x233),
  (⟨11, 16, 0x385, 0x1A, 0x0, false, false⟩, 0x5A3),
  (⟨12, 16, 0xF13, 0xFFF, 0x0, false, false⟩, 0xD4D),
  (⟨12, 16, 0x80F, 0x0, 0x0, false, false⟩, 0xF5B),
  (⟨12, 16, 0x80F, 0x0, 0x0, false, true⟩, 0xDAF),
  (⟨13, 16, 0x1CF5, 0x0, 0x0, false, false⟩, 0x4FA),
  (⟨15, 16, 0x4599, 0x0, 0x0, false, false⟩, 0x59E),
  (⟨15, 16, 0x6815, 0x0, 0x1, false, false⟩, 0x2566),
  (⟨16, 16, 0x8005, 0x0, 0x0, true, true⟩, 0xBB3D),
  (⟨16, 16, 0x8005, 0x0, 0x0, false, false⟩, 0xFEE8),
  (⟨16, 16, 0x1021, 0xFFFF, 0x0, false, false⟩, 0x29B1),
  (⟨16, 16, 0xC867, 0xFFFF, 0x0, false, false⟩, 0x4C06),
  (⟨16, 16, 0x8005, 0xFFFF, 0x0, false, false⟩, 0xAEE7),
  (⟨16, 16, 0x589, 0x0, 0x1, false, false⟩, 0x7E),
  (⟨16, 16, 0x589, 0x0, 0x0, false, false⟩, 0x7F),
  (⟨16, 16, 0x3D65, 0x0, 0xFFFF, true, true⟩, 0xEA82),
  (⟨16, 16, 0x1021, 0xFFFF, 0xFFFF, false, false⟩, 0xD64E),
  (⟨16, 16, 0x1021, 0x0, 0x0, true, true⟩, 0x2189),
  (⟨16, 16, 0x8005, 0x0, 0xFFFF, true, true⟩, 0x44C2),
  (⟨16, 16, 0x8005, 0xFFFF, 0x0, true, true⟩, 0x4B37),
  (⟨16, 16, 0x8BB7, 0x0, 0x0, false, false⟩, 0xD0DB),
  (⟨16, 16, 0x8005, 0xFFFF, 0xFFFF, true, true⟩, 0xB4C8),
  (⟨16, 16, 0x1021, 0xFFFF, 0xFFFF, true, true⟩, 0x906E),
  (⟨16, 16, 0x1021, 0x0, 0x0, false, false⟩, 0x31C3),
  (⟨17, 32, 0x1685B, 0x0, 0x0, false, false⟩, 0x4F03),
  (⟨21, 32, 0x102899, 0x0, 0x0, false, false⟩, 0xED841),
  (⟨24, 32, 0x864CFB, 0xB704CE, 0x0, false, false⟩, 0x21CF02),
  (⟨24, 32, 0x5D6DCB, 0xFEDCBA, 0x0, false, false⟩, 0x7979BD),
  (⟨24, 32, 0x5D6DCB, 0xABCDEF, 0x0, false, false⟩, 0x1F23B8),
  (⟨30, 32, 0x2030B9C7, 0x3FFFFFFF, 0x0, false, false⟩, 0x3B3CB540),
  (⟨32, 32, 0x4C11DB7, 0xFFFFFFFF, 0xFFFFFFFF, true, true⟩, 0xCBF43926),
  (⟨32, 32, 0x4C11DB7, 0xFFFFFFFF, 0xFFFFFFFF, false, false⟩, 0xFC891918),
  (⟨32, 32, 0x1EDC6F41, 0xFFFFFFFF, 0xFFFFFFFF, true, true⟩, 0xE3069283),
  (⟨32, 32, 0x4C11DB7, 0xFFFFFFFF, 0x0, false, false⟩, 0x376E6E7),
  (⟨32, 32, 0x4C11DB7, 0x0, 0xFFFFFFFF, false, false⟩, 0x765E7680),
  (⟨32, 32, 0x814141AB, 0x0, 0x0, false, false⟩, 0x3010BF7F),
  (⟨40, 64, 0x4820009, 0x0, 0xFFFFFFFFFF, false, false⟩, 0xD4164FC646),
  (⟨64, 64, 0x42F0E1EBA9EA3693, 0x0, 0x0, false, false⟩, 0x6C40DF5F0B497347)]

end Verif.Model.CrcLib
