import Verif.Model.Scale
import Mathlib.Analysis.Real.Pi.Bounds
/-!
# Specification of the units of broadcast ephemerides

Scale factors of the interface specifications: IS-GPS-200 (tables 20-I, 20-III), Galileo OS SIS ICD (tables 57-62)
and ICD GLONASS (table 4.5), in SI units and radians; a half-turn is `π`.
-/
namespace Verif.Spec.Scale
open Verif.Scale

/-- `2 ^ -k`. -/
noncomputable def p2 (k : ℕ) : ℝ := 1 / 2 ^ k

/-- IS-GPS-200. -/
noncomputable def gpsUnit : GpsField → ℝ
  | .af2 => p2 55
  | .af1 => p2 43
  | .af0 => p2 31
  | .tgd => p2 31
  | .crs => p2 5
  | .crc => p2 5
  | .cuc => p2 29
  | .cus => p2 29
  | .cic => p2 29
  | .cis => p2 29
  | .ecc => p2 33
  | .sqrta => p2 19
  | .m0 => p2 31 * Real.pi
  | .omega0 => p2 31 * Real.pi
  | .i0 => p2 31 * Real.pi
  | .w => p2 31 * Real.pi
  | .deltaN => p2 43 * Real.pi
  | .omegadot => p2 43 * Real.pi
  | .idot => p2 43 * Real.pi

/-- Galileo OS SIS ICD. -/
noncomputable def galUnit : GalField → ℝ
  | .af2 => p2 59
  | .af1 => p2 46
  | .af0 => p2 34
  | .bgdA => p2 32
  | .bgdB => p2 32
  | .crs => p2 5
  | .crc => p2 5
  | .cuc => p2 29
  | .cus => p2 29
  | .cic => p2 29
  | .cis => p2 29
  | .ecc => p2 33
  | .sqrta => p2 19
  | .m0 => p2 31 * Real.pi
  | .omega0 => p2 31 * Real.pi
  | .i0 => p2 31 * Real.pi
  | .w => p2 31 * Real.pi
  | .deltaN => p2 43 * Real.pi
  | .omegadot => p2 43 * Real.pi
  | .idot => p2 43 * Real.pi

/-- ICD GLONASS: kilometres. -/
noncomputable def gloUnit : GloField → ℝ
  | .pos _ => p2 11 * 1000
  | .vel _ => p2 20 * 1000
  | .acc _ => p2 30 * 1000
  | .gamn => p2 40
  | .taun => p2 30
  | .dtaun => p2 30

/-- Fields whose value in SI units is a `double` whatever the message says: the units are powers of two, or a thousand
times a power of two. -/
def gpsDyadic : List GpsField :=
  [.af2, .af1, .af0, .tgd, .crs, .crc, .cuc, .cus, .cic, .cis, .ecc, .sqrta]
def galDyadic : List GalField :=
  [.af2, .af1, .af0, .bgdA, .bgdB, .crs, .crc, .cuc, .cus, .cic, .cis, .ecc, .sqrta]

/-- Those the code keeps exactly. -/
def gpsExact : List GpsField := [.af0, .tgd, .crs, .crc, .cuc, .cus, .cic, .cis, .sqrta]
def galExact : List GalField := [.crs, .crc, .cuc, .cus, .cic, .cis, .sqrta]

end Verif.Spec.Scale
