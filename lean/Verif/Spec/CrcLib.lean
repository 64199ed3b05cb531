import Mathlib.Algebra.Polynomial.Div
import Mathlib.Algebra.Field.ZMod

/-!
# Cyclic redundancy checks, independently of the code

The usual parametrised definition: the message is a polynomial over the two-element field, the check
is its remainder by the generator.
-/

namespace Verif.Spec.CrcLib
open Polynomial

/-- A bit in the two-element field. -/
def b2 (b : Bool) : ZMod 2 := if b then 1 else 0

/-- The lowest `n` bits of a number as coefficients, the bit `i` at `X ^ i`. -/
noncomputable def poly (n r : Nat) : (ZMod 2)[X] :=
  ∑ i ∈ Finset.range n, C (b2 (r.testBit i)) * X ^ i

/-- The lowest `n` bits of a number as coefficients, in reverse order. -/
noncomputable def rpoly (n r : Nat) : (ZMod 2)[X] :=
  ∑ i ∈ Finset.range n, C (b2 (r.testBit (n - 1 - i))) * X ^ i

/-- The bits of a number, reflected or not. -/
noncomputable def bitsOf (refl : Bool) (n r : Nat) : (ZMod 2)[X] :=
  if refl then rpoly n r else poly n r

/-- The generator of width `w`. -/
noncomputable def gen (w p : Nat) : (ZMod 2)[X] := X ^ w + poly w p

/-- The message: the bytes one after the other, each reflected or not. -/
noncomputable def message (refl : Bool) (l : List UInt8) : (ZMod 2)[X] :=
  l.foldl (fun m b => m * X ^ 8 + bitsOf refl 8 b.toNat) 0

/-- `c` is the check of `l` if the register, which begins with the polynomial `start`, ends with the
bits of `c` (after the final value is taken off). -/
def Check (w p xorOut : Nat) (refIn refOut : Bool) (start : (ZMod 2)[X]) (l : List UInt8)
    (c : Nat) : Prop :=
  c < 2 ^ w ∧ bitsOf refOut w (c ^^^ xorOut) =
    (start * X ^ (8 * l.length) + message refIn l * X ^ w) %ₘ gen w p

end Verif.Spec.CrcLib
