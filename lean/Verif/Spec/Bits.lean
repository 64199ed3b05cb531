/-!
# Bit fields, independently of the code

Bit 0 of a buffer is the most significant bit of byte 0.
-/
namespace Verif.BitSpec

/-- Bit number `i` of the buffer. -/
def bit (b : Nat → UInt8) (i : Nat) : Nat := (b (i / 8)).toNat / 2 ^ (7 - i % 8) % 2

/-- The number whose binary digits, most significant first, are bits `pos .. pos+len-1`. -/
def field (b : Nat → UInt8) (pos : Nat) : Nat → Nat
  | 0 => 0
  | len + 1 => 2 * field b pos len + bit b (pos + len)

/-- Two's-complement reading of a `len`-bit number. -/
def twos (len v : Nat) : Int := if v < 2 ^ (len - 1) then (v : Int) else (v : Int) - 2 ^ len

/-- The number with the given binary digits, most significant first. -/
def number (l : List Nat) : Nat := l.foldl (fun v b => 2 * v + b) 0

/-! Messages made of little-endian 32-bit words, sent most significant bit first. -/

/-- 32-bit word `k` of the message. -/
def word (m : List UInt8) (k : Nat) : Nat :=
  (m.getD (4 * k) 0).toNat + 2 ^ 8 * (m.getD (4 * k + 1) 0).toNat
    + 2 ^ 16 * (m.getD (4 * k + 2) 0).toNat + 2 ^ 24 * (m.getD (4 * k + 3) 0).toNat

/-- The `p`-th bit of the message, from 0. -/
def msgBit (m : List UInt8) (p : Nat) : Nat := word m (p / 32) / 2 ^ (31 - p % 32) % 2

/-- The bytes in the order of transmission. -/
def byteAt (m : List UInt8) (i : Nat) : UInt8 := m.getD (4 * (i / 4) + (3 - i % 4)) 0

end Verif.BitSpec
