/-!
# Model of common/ephemeris/bit_tools.h

Memory is a partial map from addresses to bytes: reading or writing an address that is not
mapped gives `none` (out-of-bounds access).  Addresses are offsets from `buf`, and `pos` is a
natural number (the code takes `int`; negative positions are not modelled).  Only the
`SwitchByteOrder` variant is modelled; `KeepByteOrder` is never used in the repository.
Unsigned C++ arithmetic is `Nat` arithmetic reduced modulo the width of the type.
-/
namespace Verif.Bits

/-- Addressable bytes. -/
abbrev Mem := Nat → Option UInt8

/-- bit_tools.h 17-31: width of the type chosen by `TypeHelper<_, n>`, for `n ≤ 64`. -/
def width (n : Nat) : Nat := if n ≤ 8 then 8 else if n ≤ 16 then 16 else if n ≤ 32 then 32 else 64

/-- bit_tools.h 39, 83, 127, 157: `mask`. -/
def maskOf (W len : Nat) : Nat := (if len = 64 then 0xFFFFFFFF else 2 ^ len - 1) % 2 ^ W

/-- bit_tools.h 49-53, 93-97: the loop collecting the following bytes. -/
def getLoop (W : Nat) (mem : Mem) (len : Nat) (i tmp p : Nat) : Option Nat :=
  if i < len then
    match mem (p + 1) with
    | none => none
    | some b => getLoop W mem len (i + 8) ((tmp * 2 ^ 8) % 2 ^ W ||| b.toNat) (p + 1)
  else some tmp
termination_by len - i

/-- bit_tools.h 43-54, 87-98 with temporary of width `W` and result type of width `R`. -/
def getRaw (W R : Nat) (mem : Mem) (pos len : Nat) : Option Nat :=
  let last_bit := pos + len - 1
  match mem (pos / 8) with
  | none => none
  | some b =>
    (getLoop W mem len (8 - pos % 8) b.toNat (pos / 8)).map fun tmp =>
      ((tmp >>> (7 - last_bit % 8)) &&& maskOf W len) % 2 ^ R

/-- bit_tools.h 33-75, `getBit<len, Unsigned>(buf, pos)`. -/
def getBit (mem : Mem) (pos len : Nat) : Option Nat :=
  getRaw (width (len + 8)) (width len) mem pos len

/-- Interpretation of an `R`-bit pattern as a signed number. -/
def asSigned (R x : Nat) : Int := if x < 2 ^ (R - 1) then (x : Int) else (x : Int) - 2 ^ R

/-- bit_tools.h 66-74, 110-118: sign extension.  The shift happens after integer promotion, so
at width at least 32. -/
def signExtend (W R len ret : Nat) : Int :=
  if ret &&& ((1 <<< (len - 1)) % 2 ^ W) ≠ 0 then
    asSigned R ((ret ||| (((2 ^ W - 1) <<< len) % 2 ^ (max W 32))) % 2 ^ R)
  else (ret : Int)

/-- bit_tools.h 33-75, `getBit<len, Signed>(buf, pos)`. -/
def getBitSigned (mem : Mem) (pos len : Nat) : Option Int :=
  (getBit mem pos len).map (signExtend (width (len + 8)) (width len) len)

/-- bit_tools.h 77-119, the run-time length variant (temporary 64 bits, result 32 bits). -/
def getBitRt (mem : Mem) (pos len : Nat) : Option Nat := getRaw 64 32 mem pos len

/-- bit_tools.h 77-119, run-time length, signed. -/
def getBitRtSigned (mem : Mem) (pos len : Nat) : Option Int :=
  (getBitRt mem pos len).map (signExtend 64 32 len)

/-- `*p = f(*p)`. -/
def modify (mem : Mem) (p : Nat) (f : UInt8 → UInt8) : Option Mem :=
  match mem p with
  | none => none
  | some b => some fun q => if q = p then some (f b) else mem q

/-- `(*p &= wmask) |= m` on a byte, with implicit truncation to 8 bits. -/
def blend (wmask m : Nat) (b : UInt8) : UInt8 :=
  UInt8.ofNat ((b.toNat &&& wmask) % 256 ||| m)

/-- bit_tools.h 140-146, 166-172: the `while (i < len)` loop. -/
def setLoop (mem : Mem) (len : Nat) (i m wmask p : Nat) : Option Mem :=
  if i < len then
    match p with
    | 0 => none
    | p + 1 =>
      match modify mem p (blend (wmask / 2 ^ 8) (m / 2 ^ 8)) with
      | none => none
      | some mem' => setLoop mem' len (i + 8) (m / 2 ^ 8) (wmask / 2 ^ 8) p
  else some mem
termination_by len - i

/-- bit_tools.h 128-146, 157-172 with a temporary of width `W`; `data` is a 32-bit `unsigned`. -/
def setRaw (W : Nat) (mem : Mem) (pos len data : Nat) : Option Mem :=
  let mask := maskOf W len
  let last_bit := pos + len - 1
  let s := 7 - last_bit % 8
  let m := data % 2 ^ 32 &&& mask
  let wmask := 2 ^ W - 1 - (mask <<< s) % 2 ^ W
  let m := (m <<< s) % 2 ^ W
  match modify mem (last_bit / 8) (blend wmask m) with
  | none => none
  | some mem' => setLoop mem' len (last_bit % 8 + 1) m wmask (last_bit / 8)

/-- bit_tools.h 121-149, `setBit<len>(buf, pos, data)`. -/
def setBit (mem : Mem) (pos len data : Nat) : Option Mem :=
  setRaw (width (len + 8)) mem pos len data

/-- bit_tools.h 151-173, run-time length. -/
def setBitRt (mem : Mem) (pos len data : Nat) : Option Mem := setRaw 64 mem pos len data

/-- bit_tools.h 175-180: sign and magnitude. -/
def getBitGlo (mem : Mem) (pos len : Nat) : Option Int := do
  let val ← getBit mem (pos + 1) (len - 1)
  let sgn ← getBit mem pos 1
  some (if sgn ≠ 0 then -(val : Int) else (val : Int))

/-- A byte array mapped at address 0. -/
def ofList (l : List UInt8) : Mem := fun i => l[i]?

end Verif.Bits
