import Verif.Model.Orbit
import Verif.Model.Time
import Mathlib.Analysis.SpecialFunctions.Pow.Real

/-!
Model of `third_party/rtklib/rtklib.cxx` and `rtklib_adapter.cxx`, the reference implementation of satellite positions,
satellite clocks and delays that is kept in the repository, over the reals.

Simplifications: exact arithmetic, `M_PI` is π; `time_t` and `int` are unbounded integers; the tracing macros are empty
(rtklib.cxx 170-171) and left out. The members of `eph_t` that the adapter does not set are parameters.
-/

namespace Verif.Model.Rtklib

open Verif.Model.Lie Verif.Model.Ekf Verif.Model.Orbit

/-! ### Times -/

/-- `gtime_t` (rtklib.h 8-20). -/
structure GTime where
  time : ℤ
  sec : ℝ

/-- `timediff` (rtklib.cxx 190-193). -/
noncomputable def timediff (t1 t2 : GTime) : ℝ := ((t1.time - t2.time : ℤ) : ℝ) + t1.sec - t2.sec

/-- `toRtklib` of a time (rtklib_adapter.cxx 37-43). -/
noncomputable def toTime (t : Utc.Time) : GTime := ⟨t.sec, (t.nsec : ℝ) * 1e-9⟩

/-- `doy` (rtklib.cxx 197). -/
def doy : List ℤ := [1, 32, 60, 91, 121, 152, 182, 213, 244, 274, 305, 335]

/-- `epoch2time` (rtklib.cxx 195-209) for a date and a time of day in whole hours and minutes; `s` are the seconds. -/
noncomputable def epoch2time (year mon day h m : ℤ) (s : ℝ) : GTime :=
  if year < 1970 ∨ 2099 < year ∨ mon < 1 ∨ 12 < mon then ⟨0, 0⟩
  else
    let days := (year - 1970) * 365 + (year - 1969).tdiv 4 + doy.getD (mon - 1).toNat 0 + day - 2
      + (if year.tmod 4 = 0 ∧ mon ≥ 3 then 1 else 0)
    let sec := ⌊s⌋
    ⟨days * 86400 + h * 3600 + m * 60 + sec, s - sec⟩

/-- `gpst0` (rtklib.cxx 173). -/
noncomputable def gpst0 : GTime := epoch2time 1980 1 6 0 0 0

/-- `time2gpst` (rtklib.cxx 597-605): the time of the week. -/
noncomputable def time2gpst (t : GTime) : ℝ :=
  let sec := t.time - gpst0.time
  let w := sec.tdiv (86400 * 7)
  ((sec : ℝ) - (w : ℝ) * 86400 * 7) + t.sec

/-! ### Satellite numbers -/

/-- The systems (rtklib.cxx 47-55). -/
inductive Sys | none | gps | sbs | glo | gal | qzs | cmp | irn | leo
deriving DecidableEq, Repr

/-- The first numbers and the counts of the systems (rtklib.cxx 60-141). None of `ENAGLO`, `ENAGAL`, `ENAQZS`,
`ENACMP`, `ENAIRN`, `ENALEO` is defined anywhere, so that all but the first and the last are 0. -/
def MINPRNGPS : ℤ := 1
def MAXPRNGPS : ℤ := 32
def NSATGPS : ℤ := MAXPRNGPS - MINPRNGPS + 1
def MINPRNGLO : ℤ := 0
def MAXPRNGLO : ℤ := 0
def NSATGLO : ℤ := 0
def MINPRNGAL : ℤ := 0
def MAXPRNGAL : ℤ := 0
def NSATGAL : ℤ := 0
def MINPRNQZS : ℤ := 0
def MAXPRNQZS : ℤ := 0
def NSATQZS : ℤ := 0
def MINPRNCMP : ℤ := 0
def MAXPRNCMP : ℤ := 0
def NSATCMP : ℤ := 0
def MINPRNIRN : ℤ := 0
def MAXPRNIRN : ℤ := 0
def NSATIRN : ℤ := 0
def MINPRNLEO : ℤ := 0
def MAXPRNLEO : ℤ := 0
def NSATLEO : ℤ := 0
def MINPRNSBS : ℤ := 120
def MAXPRNSBS : ℤ := 142
def NSATSBS : ℤ := MAXPRNSBS - MINPRNSBS + 1
def MAXSAT : ℤ := NSATGPS + NSATGLO + NSATGAL + NSATQZS + NSATCMP + NSATIRN + NSATSBS + NSATLEO

/-- `satsys` (rtklib.cxx 257-288): the system and the number in the system. -/
def satsys (sat : ℤ) : Sys × ℤ :=
  if sat ≤ 0 ∨ MAXSAT < sat then (.none, 0)
  else if sat ≤ NSATGPS then (.gps, sat + (MINPRNGPS - 1))
  else
    let sat := sat - NSATGPS
    if sat ≤ NSATGLO then (.glo, sat + (MINPRNGLO - 1))
    else
      let sat := sat - NSATGLO
      if sat ≤ NSATGAL then (.gal, sat + (MINPRNGAL - 1))
      else
        let sat := sat - NSATGAL
        if sat ≤ NSATQZS then (.qzs, sat + (MINPRNQZS - 1))
        else
          let sat := sat - NSATQZS
          if sat ≤ NSATCMP then (.cmp, sat + (MINPRNCMP - 1))
          else
            let sat := sat - NSATCMP
            if sat ≤ NSATIRN then (.irn, sat + (MINPRNIRN - 1))
            else
              let sat := sat - NSATIRN
              if sat ≤ NSATLEO then (.leo, sat + (MINPRNLEO - 1))
              else
                let sat := sat - NSATLEO
                if sat ≤ NSATSBS then (.sbs, sat + (MINPRNSBS - 1)) else (.none, 0)

/-- `satno` (rtklib.cxx 291-325). -/
def satno (sys : Sys) (prn : ℤ) : ℤ :=
  if prn ≤ 0 then 0
  else match sys with
    | .gps => if prn < MINPRNGPS ∨ MAXPRNGPS < prn then 0 else prn - MINPRNGPS + 1
    | .glo => if prn < MINPRNGLO ∨ MAXPRNGLO < prn then 0 else NSATGPS + prn - MINPRNGLO + 1
    | .gal => if prn < MINPRNGAL ∨ MAXPRNGAL < prn then 0 else NSATGPS + NSATGLO + prn - MINPRNGAL + 1
    | .qzs => if prn < MINPRNQZS ∨ MAXPRNQZS < prn then 0 else NSATGPS + NSATGLO + NSATGAL + prn - MINPRNQZS + 1
    | .cmp => if prn < MINPRNCMP ∨ MAXPRNCMP < prn then 0
        else NSATGPS + NSATGLO + NSATGAL + NSATQZS + prn - MINPRNCMP + 1
    | .irn => if prn < MINPRNIRN ∨ MAXPRNIRN < prn then 0
        else NSATGPS + NSATGLO + NSATGAL + NSATQZS + NSATCMP + prn - MINPRNIRN + 1
    | .leo => if prn < MINPRNLEO ∨ MAXPRNLEO < prn then 0
        else NSATGPS + NSATGLO + NSATGAL + NSATQZS + NSATCMP + NSATIRN + prn - MINPRNLEO + 1
    | .sbs => if prn < MINPRNSBS ∨ MAXPRNSBS < prn then 0
        else NSATGPS + NSATGLO + NSATGAL + NSATQZS + NSATCMP + NSATIRN + NSATLEO + prn - MINPRNSBS + 1
    | .none => 0

/-! ### Keplerian orbits -/

/-- The members of `eph_t` that are used (rtklib.h 22-46). -/
structure Eph where
  sat : ℤ
  sva : ℤ
  flag : ℤ
  toe : GTime
  toc : GTime
  A : ℝ
  e : ℝ
  i0 : ℝ
  OMG0 : ℝ
  omg : ℝ
  M0 : ℝ
  deln : ℝ
  OMGd : ℝ
  idot : ℝ
  crc : ℝ
  crs : ℝ
  cuc : ℝ
  cus : ℝ
  cic : ℝ
  cis : ℝ
  toes : ℝ
  f0 : ℝ
  f1 : ℝ
  f2 : ℝ

/-- `toRtklib` of an ephemeris (rtklib_adapter.cxx 7-35); `sva` and `flag` are not set. -/
noncomputable def toEph (sat sva flag : ℤ) (toe toc : Utc.Time) (k : Kepler) : Eph where
  sat := sat
  sva := sva
  flag := flag
  toe := toTime toe
  toc := toTime toc
  A := k.sqrta * k.sqrta
  e := k.ecc
  i0 := k.i0
  OMG0 := k.omega0
  omg := k.w
  M0 := k.m0
  deln := k.deltaN
  OMGd := k.omegadot
  idot := k.idot
  crc := k.crc
  crs := k.crs
  cuc := k.cuc
  cus := k.cus
  cic := k.cic
  cis := k.cis
  toes := k.toes
  f0 := k.af0
  f1 := k.af1
  f2 := k.af2

/-- The constants of the systems (rtklib.cxx 148-155, 58, 44-45, 13). -/
noncomputable def MU_GPS : ℝ := 3.9860050E14
noncomputable def MU_GAL : ℝ := 3.986004418E14
noncomputable def MU_CMP : ℝ := 3.986004418E14
noncomputable def OMGE : ℝ := 7.2921151467E-5
noncomputable def OMGE_GAL : ℝ := 7.2921151467E-5
noncomputable def OMGE_CMP : ℝ := 7.292115E-5
noncomputable def SIN_5 : ℝ := -0.0871557427476582
noncomputable def COS_5 : ℝ := 0.9961946980917456
noncomputable def CLIGHT : ℝ := 299792458.0

/-- The switch (rtklib.cxx 460-464). -/
noncomputable def constants : Sys → ℝ × ℝ
  | .gal => (MU_GAL, OMGE_GAL)
  | .cmp => (MU_CMP, OMGE_CMP)
  | _ => (MU_GPS, OMGE)

/-- The loop for Kepler's equation (rtklib.cxx 467-473): iterations left, `E`, `Ek`; `none` for the iteration
overflow. -/
noncomputable def keplerLoop (e M : ℝ) : ℕ → ℝ → ℝ → Option ℝ
  | 0, _, _ => none
  | n + 1, E, Ek =>
    if |E - Ek| > 1E-13 then keplerLoop e M n (E - (E - e * Real.sin E - M) / (1 - e * Real.cos E)) E else some E

/-- `sisa_value` (rtklib.cxx 423-430). -/
noncomputable def sisaValue (sisa : ℤ) : ℝ :=
  if sisa ≤ 49 then sisa * 0.01
  else if sisa ≤ 74 then 0.5 + (sisa - 50) * 0.02
  else if sisa ≤ 99 then 1.0 + (sisa - 75) * 0.04
  else if sisa ≤ 125 then 2.0 + (sisa - 100) * 0.16
  else -1.0

/-- `ura_value` (rtklib.cxx 432-435). -/
noncomputable def uraValue : List ℝ :=
  [2.4, 3.4, 4.85, 6.85, 9.65, 13.65, 24.0, 48.0, 96.0, 192.0, 384.0, 768.0, 1536.0, 3072.0, 6144.0]

/-- `var_uraeph` (rtklib.cxx 438-443); `none` is an access outside the table. -/
noncomputable def varUraeph (sys : Sys) (ura : ℤ) : Option ℝ :=
  if sys = .gal then some (sisaValue ura * sisaValue ura)
  else if ura < 0 ∨ 14 < ura then some (6144.0 * 6144.0)
  else (uraValue[ura.toNat]?).map fun v => v * v

/-- What `eph2pos` leaves in its outputs. -/
inductive Outcome
  /-- Everything zero (rtklib.cxx 454-457). -/
  | zeros
  /-- The outputs are not written (rtklib.cxx 470-473). -/
  | unwritten
  /-- Position, clock, variance. -/
  | at (rs : Fin 3 → ℝ) (dts : ℝ) (var : Option ℝ)

/-- `eph2pos` (rtklib.cxx 445-514) for a system and a number in the system. -/
noncomputable def eph2posOf (sys : Sys) (prn : ℤ) (time : GTime) (eph : Eph) : Outcome :=
  if eph.A ≤ 0 then .zeros
  else
    let tk := timediff time eph.toe
    let mu := (constants sys).1
    let omge := (constants sys).2
    let M := eph.M0 + (Real.sqrt (mu / (eph.A * eph.A * eph.A)) + eph.deln) * tk
    match keplerLoop eph.e M 30 M 0 with
    | none => .unwritten
    | some E =>
      let sinE := Real.sin E
      let cosE := Real.cos E
      let u := atan2 (Real.sqrt (1 - eph.e * eph.e) * sinE) (cosE - eph.e) + eph.omg
      let r := eph.A * (1 - eph.e * cosE)
      let i := eph.i0 + eph.idot * tk
      let sin2u := Real.sin (2 * u)
      let cos2u := Real.cos (2 * u)
      let u := u + (eph.cus * sin2u + eph.cuc * cos2u)
      let r := r + (eph.crs * sin2u + eph.crc * cos2u)
      let i := i + (eph.cis * sin2u + eph.cic * cos2u)
      let x := r * Real.cos u
      let y := r * Real.sin u
      let cosi := Real.cos i
      let rs : Fin 3 → ℝ :=
        if sys = .cmp ∧ (eph.flag = 2 ∨ (eph.flag = 0 ∧ prn ≤ 5)) then
          let O := eph.OMG0 + eph.OMGd * tk - omge * eph.toes
          let xg := x * Real.cos O - y * cosi * Real.sin O
          let yg := x * Real.sin O + y * cosi * Real.cos O
          let zg := y * Real.sin i
          let sino := Real.sin (omge * tk)
          let coso := Real.cos (omge * tk)
          ![xg * coso + yg * sino * COS_5 + zg * sino * SIN_5, -xg * sino + yg * coso * COS_5 + zg * coso * SIN_5,
            -yg * SIN_5 + zg * COS_5]
        else
          let O := eph.OMG0 + (eph.OMGd - omge) * tk - omge * eph.toes
          ![x * Real.cos O - y * cosi * Real.sin O, x * Real.sin O + y * cosi * Real.cos O, y * Real.sin i]
      let tk := timediff time eph.toc
      let dts := eph.f0 + eph.f1 * tk + eph.f2 * tk * tk
      let dts := dts - 2 * Real.sqrt (mu * eph.A) * eph.e * sinE / (CLIGHT * CLIGHT)
      .at rs dts (varUraeph sys eph.sva)

/-- `eph2pos` (rtklib.cxx 445-514). -/
noncomputable def eph2pos (time : GTime) (eph : Eph) : Outcome :=
  eph2posOf (satsys eph.sat).1 (satsys eph.sat).2 time eph

/-! ### GLONASS -/

/-- The constants (rtklib.cxx 149, 153, 518-519). -/
noncomputable def MU_GLO : ℝ := 3.9860044E14
noncomputable def OMGE_GLO : ℝ := 7.292115E-5
noncomputable def J2_GLO : ℝ := 1.0826257E-3
noncomputable def RE_GLO : ℝ := 6378136.0

/-- `dot` (rtklib.cxx 527-533) of the first `n` members, the last one first. -/
noncomputable def dotn (a b : ℕ → ℝ) : ℕ → ℝ → ℝ
  | 0, c => c
  | n + 1, c => dotn a b n (c + a n * b n)

/-- An array of six as a sequence. -/
def seq (x : Fin 6 → ℝ) (n : ℕ) : ℝ := if h : n < 6 then x ⟨n, h⟩ else 0

/-- `deq` (rtklib.cxx 536-552). -/
noncomputable def deq (x : Fin 6 → ℝ) (acc : Fin 3 → ℝ) : Fin 6 → ℝ :=
  let r2 := dotn (seq x) (seq x) 3 0
  let r3 := r2 * Real.sqrt r2
  let omg2 := OMGE_GLO * OMGE_GLO
  if r2 ≤ 0 then ![0, 0, 0, 0, 0, 0]
  else
    let a := 1.5 * J2_GLO * MU_GLO * (RE_GLO * RE_GLO) / r2 / r3
    let b := 5 * x 2 * x 2 / r2
    let c := -MU_GLO / r3 - a * (1 - b)
    ![x 3, x 4, x 5, (c + omg2) * x 0 + 2 * OMGE_GLO * x 4 + acc 0, (c + omg2) * x 1 - 2 * OMGE_GLO * x 3 + acc 1,
      (c - 2 * a) * x 2 + acc 2]

/-- `glorbit` (rtklib.cxx 555-565). -/
noncomputable def glorbit (t : ℝ) (x : Fin 6 → ℝ) (acc : Fin 3 → ℝ) : Fin 6 → ℝ :=
  let k1 := deq x acc
  let w : Fin 6 → ℝ := fun i => x i + k1 i * t / 2
  let k2 := deq w acc
  let w : Fin 6 → ℝ := fun i => x i + k2 i * t / 2
  let k3 := deq w acc
  let w : Fin 6 → ℝ := fun i => x i + k3 i * t
  let k4 := deq w acc
  fun i => x i + (k1 i + 2 * k2 i + 2 * k3 i + k4 i) * t / 6

/-- `geph_t` (rtklib.h 48-61): the members used. -/
structure Geph where
  toe : GTime
  pos : Fin 3 → ℝ
  vel : Fin 3 → ℝ
  acc : Fin 3 → ℝ
  taun : ℝ
  gamn : ℝ

/-- `toRtklib` of a GLONASS ephemeris (rtklib_adapter.cxx 45-69). -/
noncomputable def toGeph (toe : Utc.Time) (e : Glo) : Geph where
  toe := toTime toe
  pos := ![e.pos 0, e.pos 1, e.pos 2]
  vel := ![e.vel 0, e.vel 1, e.vel 2]
  acc := ![e.acc 0, e.acc 1, e.acc 2]
  taun := e.taun
  gamn := e.gamn

/-- The loop (rtklib.cxx 583-586) with the number of iterations bounded; `none` if it does not end. -/
noncomputable def gephLoop (acc : Fin 3 → ℝ) : ℕ → ℝ → ℝ → (Fin 6 → ℝ) → Option (Fin 6 → ℝ)
  | 0, _, _, _ => none
  | n + 1, tt, t, x =>
    if |t| > 1E-9 then
      let tt := if |t| < 60 then t else tt
      gephLoop acc n tt (t - tt) (glorbit tt x acc)
    else some x

/-- `geph2pos` (rtklib.cxx 567-590): position, clock, variance; `n` bounds the number of steps. -/
noncomputable def geph2pos (n : ℕ) (time : GTime) (g : Geph) : Option ((Fin 3 → ℝ) × ℝ × ℝ) :=
  let t := timediff time g.toe
  let dts := -g.taun + g.gamn * t
  let x : Fin 6 → ℝ := ![g.pos 0, g.pos 1, g.pos 2, g.vel 0, g.vel 1, g.vel 2]
  (gephLoop g.acc n (if t < 0 then -60 else 60) t x).map fun x => (![x 0, x 1, x 2], dts, 5.0 * 5.0)

/-! ### The atmosphere -/

/-- `ion_default` (rtklib.cxx 618-621). -/
noncomputable def ionDefault : Fin 8 → ℝ :=
  ![0.1118E-07, -0.7451E-08, -0.5961E-07, 0.1192E-06, 0.1167E+06, -0.2294E+06, -0.1311E+06, 0.1049E+07]

/-- `norm` (rtklib.cxx 592-595) of the eight parameters. -/
noncomputable def norm8 (a : Fin 8 → ℝ) : ℝ :=
  Real.sqrt (0 + a 7 * a 7 + a 6 * a 6 + a 5 * a 5 + a 4 * a 4 + a 3 * a 3 + a 2 * a 2 + a 1 * a 1 + a 0 * a 0)

/-- `ionmodel` (rtklib.cxx 615-656). -/
noncomputable def ionmodel (t : GTime) (ion : Fin 8 → ℝ) (pos : Fin 3 → ℝ) (az el : ℝ) : ℝ :=
  if pos 2 < -1E3 ∨ el ≤ 0 then 0
  else
    let ion := if norm8 ion ≤ 0 then ionDefault else ion
    let psi := 0.0137 / (el / Real.pi + 0.11) - 0.022
    let phi := pos 0 / Real.pi + psi * Real.cos az
    let phi := if phi > 0.416 then 0.416 else if phi < -0.416 then -0.416 else phi
    let lam := pos 1 / Real.pi + psi * Real.sin az / Real.cos (phi * Real.pi)
    let phi := phi + 0.064 * Real.cos ((lam - 1.617) * Real.pi)
    let tt := 43200 * lam + time2gpst t
    let tt := tt - ⌊tt / 86400⌋ * 86400
    let f := 1 + 16 * (0.53 - el / Real.pi) ^ 3
    let amp := ion 0 + phi * (ion 1 + phi * (ion 2 + phi * ion 3))
    let per := ion 4 + phi * (ion 5 + phi * (ion 6 + phi * ion 7))
    let amp := if amp < 0 then 0 else amp
    let per := if per < 72000 then 72000 else per
    let x := 2 * Real.pi * (tt - 50400) / per
    CLIGHT * f * (if |x| < 1.57 then 5E-9 + amp * (1 + x * x * (-0.5 + x * x / 24)) else 5E-9)

/-- `tropmodel` (rtklib.cxx 666-687). -/
noncomputable def tropmodel (pos : Fin 3 → ℝ) (el humi : ℝ) : ℝ :=
  if pos 2 < -100 ∨ 1E4 < pos 2 ∨ el ≤ 0 then 0
  else
    let hgt := if pos 2 < 0 then 0 else pos 2
    let pres := 1013.25 * (1 - 2.2557E-5 * hgt) ^ (5.2568 : ℝ)
    let temp := 15 - 6.5E-3 * hgt + 273.16
    let e := 6.108 * humi * Real.exp ((17.15 * temp - 4684) / (temp - 38.45))
    let z := Real.pi / 2 - el
    let trph := 0.0022768 * pres / (1 - 0.00266 * Real.cos (2 * pos 0) - 0.00028 * hgt / 1E3) / Real.cos z
    let trpw := 0.002277 * (1255 / temp + 0.05) * e / Real.cos z
    trph + trpw

end Verif.Model.Rtklib
