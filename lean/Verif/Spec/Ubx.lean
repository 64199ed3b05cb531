/-!
# UBX framing, from the protocol description
-/
namespace Verif.UbxSpec

/-- First Fletcher sum: the sum of the bytes modulo 256. -/
def sumA (l : List UInt8) : UInt8 := UInt8.ofNat ((l.map UInt8.toNat).sum)

/-- Second Fletcher sum: byte `i` of `n` counts `n - i` times. -/
def sumB : List UInt8 → UInt8
  | [] => 0
  | b :: l => UInt8.ofNat ((l.length + 1) * b.toNat + (sumB l).toNat)

/-- The bytes covered by the checksum: class, id, little-endian length, payload. -/
def body (cls typ : UInt8) (payload : List UInt8) : List UInt8 :=
  [cls, typ, UInt8.ofNat (payload.length % 256), UInt8.ofNat (payload.length / 256)] ++ payload

/-- A complete frame. -/
def frame (cls typ : UInt8) (payload : List UInt8) : List UInt8 :=
  [0xB5, 0x62] ++ body cls typ payload ++ [sumA (body cls typ payload), sumB (body cls typ payload)]

/-- No sync pair `B5 62` occurs in the byte sequence `l` preceded by `p`. -/
def NoSync : UInt8 → List UInt8 → Prop
  | _, [] => True
  | p, b :: l => ¬ (p = 0xB5 ∧ b = 0x62) ∧ NoSync b l

end Verif.UbxSpec
