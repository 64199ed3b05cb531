import Mathlib.Algebra.Polynomial.Div
import Mathlib.Algebra.Field.ZMod
import Verif.Spec.Bits
/-!
# CRC-24Q and the GLONASS Hamming code, independently of the code
-/
namespace Verif.CrcSpec
open Polynomial Verif.BitSpec

/-- The CRC-24Q generator polynomial over the two-element field. -/
noncomputable def P : (ZMod 2)[X] :=
  X ^ 24 + X ^ 23 + X ^ 18 + X ^ 17 + X ^ 14 + X ^ 11 + X ^ 10 + X ^ 7 + X ^ 6 + X ^ 5 + X ^ 4
    + X ^ 3 + X + 1

/-- The polynomial whose coefficients are the binary digits of `n` (for `n < 2^64`). -/
noncomputable def numPoly (n : Nat) : (ZMod 2)[X] :=
  ∑ i ∈ Finset.range 64, C ((n.testBit i).toNat : ZMod 2) * X ^ i

/-- Contents of a byte list as a buffer. -/
def bytes (l : List UInt8) : Nat → UInt8 := fun i => l.getD i 0

/-- The message polynomial: the first transmitted bit is the leading coefficient. -/
noncomputable def msgPoly (l : List UInt8) : (ZMod 2)[X] :=
  ∑ i ∈ Finset.range (8 * l.length), C (bit (bytes l) i : ZMod 2) * X ^ (8 * l.length - 1 - i)

/-! ### GLONASS strings

A string has 85 bits, transmitted as `β85 .. β1` (GLONASS ICD 4.7): `β85..β9` are data, `β8` is
the overall parity bit and `β7..β1` are check bits.  The code is the extended Hamming code in
which the data bits `β9, β10, ...` carry the labels 3, 5, 6, 7, 9, ... (the numbers that are not
powers of two) and check bit `βr` the label `2^(r-1)`. -/

/-- `β_j` of a received string. -/
def beta (buf : Nat → UInt8) (j : Nat) : Nat := bit buf (85 - j)

/-- The numbers 3, 5, 6, 7, 9, ... that are not powers of two. -/
def nonPowers : List Nat := (List.range 128).filter fun n => ¬ n = 0 ∧ ¬ n = 2 ^ n.log2

/-- Hamming label of `β_j`. -/
def label (j : Nat) : Nat :=
  if j ≤ 7 then 2 ^ (j - 1) else if j = 8 then 0 else nonPowers.getD (j - 9) 0

/-- Check sum `C_r` (`r = 0..6`): parity of all bits whose label has bit `r` set. -/
def checksum (buf : Nat → UInt8) (r : Nat) : Nat :=
  (((List.range' 1 85).filter fun j => (label j).testBit r).map (beta buf)).sum % 2

/-- The overall check sum: parity of all 85 bits. -/
def overall (buf : Nat → UInt8) : Nat := (((List.range' 1 85)).map (beta buf)).sum % 2

/-- A string transmitted without error. -/
def Valid (buf : Nat → UInt8) : Prop := (∀ r, r < 7 → checksum buf r = 0) ∧ overall buf = 0

end Verif.CrcSpec
