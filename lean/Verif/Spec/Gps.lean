import Verif.Spec.Bits
import Verif.Model.Gps
/-!
# Specification of the GPS LNAV subframes 1-3 (IS-GPS-200, 20.3.3) and of ephemeris assembly

A message is the list of the ten 30-bit words of a subframe.  Bits are numbered as in IS-GPS-200:
word 1..10, bit 1..30 from the most significant, bits 25..30 being parity.
-/
namespace Verif.GpsSpec
open Verif.BitSpec

/-- Bit `j` of word `k`. -/
def wordBit (m : List Nat) (k j : Nat) : Nat := m.getD (k - 1) 0 / 2 ^ (30 - j) % 2

/-- A run of bits `first..last` of one word. -/
structure Seg where
  word : Nat
  first : Nat
  last : Nat

/-- The bits of a field given by its segments, most significant first. -/
def bits (m : List Nat) (segs : List Seg) : List Nat :=
  segs.flatMap fun s => (List.range' s.first (s.last + 1 - s.first)).map (wordBit m s.word)

/-- Unsigned field. -/
def U (m : List Nat) (segs : List Seg) : Nat := number (bits m segs)

/-- Two's-complement field. -/
def S (m : List Nat) (segs : List Seg) : Int := twos (bits m segs).length (U m segs)

/-- Subframe `n` with correct preamble (IS-GPS-200 20.3.3.1, 20.3.3.2). -/
def IsSub (n : Nat) (m : List Nat) : Prop :=
  10 ≤ m.length ∧ U m [⟨1, 1, 8⟩] = 0b10001011 ∧ U m [⟨2, 20, 22⟩] = n

instance (n : Nat) (m : List Nat) : Decidable (IsSub n m) := by unfold IsSub; infer_instance

/-- Issue of data of a subframe 1 (the 8 low bits of IODC), 2, 3. -/
def iod1 (m : List Nat) : Nat := U m [⟨8, 1, 8⟩]
def iod2 (m : List Nat) : Nat := U m [⟨3, 1, 8⟩]
def iod3 (m : List Nat) : Nat := U m [⟨10, 1, 8⟩]

/-- IS-GPS-200 20.3.3.3 (figure 20-1, sheet 1); week in the third era (weeks 2048-3071). -/
def sub1 (m : List Nat) : Gps.Sub1 where
  week := U m [⟨3, 1, 10⟩] + 2048
  code_on_L2 := U m [⟨3, 11, 12⟩]
  ura := U m [⟨3, 13, 16⟩]
  health := U m [⟨3, 17, 22⟩]
  iodc := U m [⟨3, 23, 24⟩, ⟨8, 1, 8⟩]
  L2_P_data_flag := U m [⟨4, 1, 1⟩]
  alert_flag := 0
  tgd := if S m [⟨7, 17, 24⟩] = -128 then 0 else S m [⟨7, 17, 24⟩]
  tocs := 16 * U m [⟨8, 9, 24⟩]
  af2 := S m [⟨9, 1, 8⟩]
  af1 := S m [⟨9, 9, 24⟩]
  af0 := S m [⟨10, 1, 22⟩]

/-- IS-GPS-200 20.3.3.4 (figure 20-1, sheet 2). -/
def sub2 (m : List Nat) : Gps.Sub2 where
  crs := S m [⟨3, 9, 24⟩]
  delta_n := S m [⟨4, 1, 16⟩]
  m0 := S m [⟨4, 17, 24⟩, ⟨5, 1, 24⟩]
  cuc := S m [⟨6, 1, 16⟩]
  ecc := U m [⟨6, 17, 24⟩, ⟨7, 1, 24⟩]
  cus := S m [⟨8, 1, 16⟩]
  sqrta := U m [⟨8, 17, 24⟩, ⟨9, 1, 24⟩]
  toes := 16 * U m [⟨10, 1, 16⟩]
  fit_interval_flag := if U m [⟨10, 17, 17⟩] = 0 then 4 else 0

/-- IS-GPS-200 20.3.3.4 (figure 20-1, sheet 3). -/
def sub3 (m : List Nat) : Gps.Sub3 where
  cic := S m [⟨3, 1, 16⟩]
  omega0 := S m [⟨3, 17, 24⟩, ⟨4, 1, 24⟩]
  cis := S m [⟨5, 1, 16⟩]
  i0 := S m [⟨5, 17, 24⟩, ⟨6, 1, 24⟩]
  crc := S m [⟨7, 1, 16⟩]
  w := S m [⟨7, 17, 24⟩, ⟨8, 1, 24⟩]
  omegadot := S m [⟨9, 1, 24⟩]
  idot := S m [⟨10, 9, 22⟩]

/-- The most recent correct subframe `n` of a history. -/
def lastSub (n : Nat) (h : List (List Nat)) : Option (List Nat) :=
  h.reverse.find? fun m => decide (IsSub n m)

/-- Every word fits in 32 bits (they come from `uint32_t`). -/
def Words32 (m : List Nat) : Prop := ∀ w ∈ m, w < 2 ^ 32

/-- The second `UTCTime` assigns to a GPS week and second of week (the sign of the 18 leap seconds
is the subject of C65). -/
def gpsSecond (week sow : Nat) : Int := 604800 * (week : Int) + sow + (315964800 + 18)

/-- A fresh object (gps.h 47-56; the other members are uninitialised, hence arbitrary). -/
def Fresh (e : Gps.Eph) : Prop :=
  e.iode1 = 0 ∧ e.iode2 = 0 ∧ e.iode3 = 0 ∧ e.collected = 0

/-- Feeding a history to the parser: the object afterwards, and the messages received since the last
report. -/
def observe (e0 : Gps.Eph) (h : List (List Nat)) : Option (Gps.Eph × List (List Nat)) :=
  h.foldlM (fun s m => do
    let r ← Gps.parse m s.1
    some (r.2, if r.1 then [] else s.2 ++ [m])) (e0, [])

end Verif.GpsSpec
