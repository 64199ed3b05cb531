import Verif.Model.Gps
import Verif.Model.Galileo
import Verif.Model.Glonass
import Mathlib.Data.Rat.Defs
import Mathlib.Algebra.Order.Ring.Rat
import Mathlib.Tactic.NormNum
/-!
Model of the scaling of the fields of broadcast ephemerides: how the integers cut out of the messages by
`common/ephemeris/gps.cxx`, `galileo.cxx` and `glonass.cxx` (`Model/Gps`, `Model/Galileo`, `Model/Glonass`) become
`double`s.  `r` is the rounding of the hardware to the nearest `double`: the constants are decimal literals, which the
compiler rounds; each product is rounded.

Simplifications: a `double` is a rational number (`Spec/Binary64`), so that `-0.0` (a GLONASS field with only the sign
bit set) is `0`.
-/
namespace Verif.Scale

/-! ### The literals of common/ephemeris/eph.h 14-29 -/

def PI : ℚ := 3.1415926535897932
def P2_5 : ℚ := 0.03125
def P2_11 : ℚ := 4.882812500000000E-04
def P2_19 : ℚ := 1.907348632812500E-06
def P2_20 : ℚ := 9.536743164062500E-07
def P2_29 : ℚ := 1.862645149230957E-09
def P2_30 : ℚ := 9.313225746154785E-10
def P2_31 : ℚ := 4.656612873077393E-10
def P2_32 : ℚ := 2.328306436538696E-10
def P2_33 : ℚ := 1.164153218269348E-10
def P2_34 : ℚ := 5.820766091346740E-11
def P2_40 : ℚ := 9.094947017729280E-13
def P2_43 : ℚ := 1.136868377216160E-13
def P2_46 : ℚ := 1.421085471520200E-14
def P2_55 : ℚ := 2.775557561562891E-17
def P2_59 : ℚ := 1.734723475976810E-18

/-- `M_PI` (math.h). -/
def M_PI : ℚ := 3.14159265358979323846

/-- `m * P2_k`: the integer is converted to a `double` and multiplied. -/
def scale (r : ℚ → ℚ) (c : ℚ) (m : Int) : ℚ := r (r m * r c)

/-- `m * P2_k * q`. -/
def scale2 (r : ℚ → ℚ) (c q : ℚ) (m : Int) : ℚ := r (scale r c m * r q)

/-! ### GPS -/

/-- The scaled members assigned in gps.cxx 121-127, 147-153, 171-179. -/
inductive GpsField
  | af2 | af1 | af0 | tgd
  | crs | deltaN | m0 | cuc | ecc | cus | sqrta
  | cic | omega0 | cis | i0 | crc | w | omegadot | idot
deriving DecidableEq

/-- The integers cut out of the subframes. -/
def gpsRaw (s1 : Gps.Sub1) (s2 : Gps.Sub2) (s3 : Gps.Sub3) : GpsField → Int
  | .af2 => s1.af2
  | .af1 => s1.af1
  | .af0 => s1.af0
  | .tgd => s1.tgd
  | .crs => s2.crs
  | .deltaN => s2.delta_n
  | .m0 => s2.m0
  | .cuc => s2.cuc
  | .ecc => s2.ecc
  | .cus => s2.cus
  | .sqrta => s2.sqrta
  | .cic => s3.cic
  | .omega0 => s3.omega0
  | .cis => s3.cis
  | .i0 => s3.i0
  | .crc => s3.crc
  | .w => s3.w
  | .omegadot => s3.omegadot
  | .idot => s3.idot

/-- gps.cxx 121-123, 127, 147-153, 171-177, 179. -/
def gpsScale (r : ℚ → ℚ) : GpsField → Int → ℚ
  | .af2 => scale r P2_55
  | .af1 => scale r P2_43
  | .af0 => scale r P2_31
  | .tgd => scale r P2_31
  | .crs => scale r P2_5
  | .deltaN => scale2 r P2_43 PI
  | .m0 => scale2 r P2_31 PI
  | .cuc => scale r P2_29
  | .ecc => scale r P2_33
  | .cus => scale r P2_29
  | .sqrta => scale r P2_19
  | .cic => scale r P2_29
  | .omega0 => scale2 r P2_31 PI
  | .cis => scale r P2_29
  | .i0 => scale2 r P2_31 PI
  | .crc => scale r P2_5
  | .w => scale2 r P2_31 PI
  | .omegadot => scale2 r P2_43 PI
  | .idot => scale2 r P2_43 PI

/-! ### Galileo -/

/-- The scaled members assigned in galileo.cxx 199-201, 215-218, 232-237, 252-257, 276-277. -/
inductive GalField
  | m0 | ecc | sqrta
  | omega0 | i0 | w | idot
  | omegadot | deltaN | cuc | cus | crc | crs
  | cic | cis | af0 | af1 | af2
  | bgdA | bgdB
deriving DecidableEq

/-- The integers cut out of the words. -/
def galRaw (w1 : Galileo.W1) (w2 : Galileo.W2) (w3 : Galileo.W3) (w4 : Galileo.W4) (w5 : Galileo.W5) :
    GalField → Int
  | .m0 => w1.m0
  | .ecc => w1.ecc
  | .sqrta => w1.sqrta
  | .omega0 => w2.omega0
  | .i0 => w2.i0
  | .w => w2.w
  | .idot => w2.idot
  | .omegadot => w3.omegadot
  | .deltaN => w3.delta_n
  | .cuc => w3.cuc
  | .cus => w3.cus
  | .crc => w3.crc
  | .crs => w3.crs
  | .cic => w4.cic
  | .cis => w4.cis
  | .af0 => w4.af0
  | .af1 => w4.af1
  | .af2 => w4.af2
  | .bgdA => w5.bgd_e1_e5a
  | .bgdB => w5.bgd_e1_e5b

/-- galileo.cxx 199-201, 215-218, 232-237, 252-253, 255-257, 276-277. -/
def galScale (r : ℚ → ℚ) : GalField → Int → ℚ
  | .m0 => scale2 r P2_31 M_PI
  | .ecc => scale r P2_33
  | .sqrta => scale r P2_19
  | .omega0 => scale2 r P2_31 M_PI
  | .i0 => scale2 r P2_31 M_PI
  | .w => scale2 r P2_31 M_PI
  | .idot => scale2 r P2_43 M_PI
  | .omegadot => scale2 r P2_43 M_PI
  | .deltaN => scale2 r P2_43 M_PI
  | .cuc => scale r P2_29
  | .cus => scale r P2_29
  | .crc => scale r P2_5
  | .crs => scale r P2_5
  | .cic => scale r P2_29
  | .cis => scale r P2_29
  | .af0 => scale r P2_34
  | .af1 => scale r P2_46
  | .af2 => scale r P2_59
  | .bgdA => scale r P2_32
  | .bgdB => scale r P2_32

/-! ### GLONASS -/

/-- The scaled members assigned in glonass.cxx 131-133, 145-147, 157-162, 170-171. -/
inductive GloField
  | vel (i : Fin 3) | acc (i : Fin 3) | pos (i : Fin 3) | gamn | taun | dtaun
deriving DecidableEq

/-- The numbers cut out of the strings. -/
def gloRaw (s1 : Glonass.Str1) (s2 : Glonass.Str2) (s3 : Glonass.Str3) (s4 : Glonass.Str4) : GloField → Int
  | .vel 0 => s1.vel0
  | .vel 1 => s2.vel1
  | .vel 2 => s3.vel2
  | .acc 0 => s1.acc0
  | .acc 1 => s2.acc1
  | .acc 2 => s3.acc2
  | .pos 0 => s1.pos0
  | .pos 1 => s2.pos1
  | .pos 2 => s3.pos2
  | .gamn => s3.gamn
  | .taun => s4.taun
  | .dtaun => s4.dtaun

/-- glonass.cxx 131-133, 145-147, 157, 160-162, 170-171. -/
def gloScale (r : ℚ → ℚ) : GloField → Int → ℚ
  | .vel _ => scale2 r P2_20 1000
  | .acc _ => scale2 r P2_30 1000
  | .pos _ => scale2 r P2_11 1000
  | .gamn => scale r P2_40
  | .taun => scale r P2_30
  | .dtaun => scale r P2_30

end Verif.Scale
