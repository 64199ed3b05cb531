import Verif.Model.Orbit
import Verif.Model.Wgs84
import Verif.Model.Time

/-!
Model of the reference simulator of GPS signals, `third_party/gps_sdr_sim/gps_sdr_sim.cxx`, and of the adapter to it,
`sdr_adapter.cxx`.

Simplifications: dates in unbounded integers and exact fractions, except the product of the week and the conversions to
`int` in `gps2date`; positions over the reals; the loops have a bound on the number of their iterations, `none` when it is
reached; memory that is not initialised is a parameter.
-/

namespace Verif.Sdr

open Verif.Model.Lie Verif.Model.Orbit Verif.Model.Ekf

/-! ### Dates -/

/-- `gpstime_t` (gps_sdr_sim.h 7-11). -/
structure GpsTime where
  week : Int
  sec : ℚ
deriving DecidableEq

/-- `datetime_t` (gps_sdr_sim.h 14-22). -/
structure DateTime where
  y : Int
  m : Int
  d : Int
  hh : Int
  mm : Int
  sec : ℚ
deriving DecidableEq

/-- The table `doy` (gps_sdr_sim.cxx 29). -/
def doy : List Int := [0, 31, 59, 90, 120, 151, 181, 212, 243, 273, 304, 334]

/-- The days since 6 January 1980 (gps_sdr_sim.cxx 34-42); `none` when the table is read outside of it. -/
def dayOf (y m d : Int) : Option Int :=
  if m < 1 ∨ 12 < m then none
  else
    let ye := y - 1980
    let lp := ye.tdiv 4 + 1
    let lp' := if ye.tmod 4 = 0 ∧ m ≤ 2 then lp - 1 else lp
    some (ye * 365 + doy.getD (m - 1).toNat 0 + d + lp' - 6)

/-- `date2gps` (gps_sdr_sim.cxx 27-50). -/
def date2gps (t : DateTime) : Option GpsTime :=
  (dayOf t.y t.m t.d).map fun de =>
    ⟨de.tdiv 7, (de.tmod 7 : Int) * 86400 + t.hh * 3600 + t.mm * 60 + t.sec⟩

/-- The conversion of a `double` to `int`: undefined when it does not fit. -/
def toInt (q : ℚ) : Option Int := Utc.i32 (Utc.trunc q)

/-- The date of a day number `c` (gps_sdr_sim.cxx 56-62). -/
def civil (c : Int) : Int × Int × Int :=
  let d := Utc.trunc ((c - 122.1) / 365.25)
  let e := 365 * d + d.tdiv 4
  let f := Utc.trunc ((c - e : Int) / 30.6001)
  let day := c - e - Utc.trunc (30.6001 * f)
  let m := f - 1 - 12 * f.tdiv 14
  (d - 4715 - (7 + m).tdiv 10, m, day)

/-- `gps2date` (gps_sdr_sim.cxx 52-70). -/
def gps2date (g : GpsTime) : Option DateTime := do
  let w ← Utc.i32 (7 * g.week)
  let j ← toInt (w + ⌊g.sec / 86400⌋ + 2444245)
  let c ← Utc.i32 (j + 1537)
  let h ← toInt (g.sec / 3600)
  let mi ← toInt (g.sec / 60)
  let p := civil c
  some ⟨p.1, p.2.1, p.2.2, h.tmod 24, mi.tmod 60, g.sec - 60 * ⌊g.sec / 60⌋⟩

/-- `UTCTime::week` (utctime.cxx 158-161): weeks since 1970. -/
def utcWeek (t : Utc.Time) : Int := t.sec.tdiv Utc.SEC_IN_WEEK

/-- `toSdr(UTCTime)` (sdr_adapter.cxx 6-12): the time of the week is computed and overwritten by the week; the member `week`
keeps what the memory held. -/
def toSdr (junk : Int) (t : Utc.Time) : Option GpsTime := do
  let _ ← Utc.gpsTowNs t
  some ⟨junk, utcWeek t⟩

/-! ### The satellite -/

/-- The working variables of `ephem_t` (gps_sdr_sim.h 65-69) that `satpos` reads. -/
structure Work where
  sq1e2 : ℝ
  A : ℝ
  omgkdot : ℝ

/-- The difference of two times of the week (gps_sdr_sim.cxx 110-115, 175-180). -/
noncomputable def weekDiff (g r : ℝ) : ℝ :=
  let tk := g - r
  if tk > 302400 then tk - 604800 else if tk < -302400 then tk + 604800 else tk

/-- The loop for the eccentric anomaly (gps_sdr_sim.cxx 121-127): `ek` and `OneMinusecosE` at its end. -/
noncomputable def anomaly (ecc mk : ℝ) : ℕ → ℝ → ℝ → ℝ → Option (ℝ × ℝ)
  | 0, _, _, _ => none
  | n + 1, ekold, ek, om =>
    if |ek - ekold| > 1.0e-14 then
      let om' := 1 - ecc * Real.cos ek
      anomaly ecc mk n ek (ek + (mk - ek + ecc * Real.sin ek) / om') om'
    else some (ek, om)

/-- The position for `ek` and `OneMinusecosE` (gps_sdr_sim.cxx 129-168). -/
noncomputable def posOf (k : Kepler) (w : Work) (toeSec tk ek om : ℝ) : V3 :=
  let pk := atan2 (w.sq1e2 * Real.sin ek) (Real.cos ek - k.ecc) + k.w
  let s2 := Real.sin (2 * pk)
  let c2 := Real.cos (2 * pk)
  let uk := pk + k.cus * s2 + k.cuc * c2
  let rk := w.A * om + k.crc * c2 + k.crs * s2
  let ik := k.i0 + k.idot * tk + k.cic * c2 + k.cis * s2
  let xpk := rk * Real.cos uk
  let ypk := rk * Real.sin uk
  let ok := k.omega0 + tk * w.omgkdot - omegaEarth * toeSec
  ![xpk * Real.cos ok - ypk * Real.cos ik * Real.sin ok, xpk * Real.sin ok + ypk * Real.cos ik * Real.cos ok,
    ypk * Real.sin ik]

/-- The velocity (gps_sdr_sim.cxx 132-172). -/
noncomputable def velOf (k : Kepler) (w : Work) (toeSec tk ek om : ℝ) : V3 :=
  let n := Real.sqrt (gm / (k.sqrta * k.sqrta * (k.sqrta * k.sqrta) * (k.sqrta * k.sqrta))) + k.deltaN
  let ekdot := n / om
  let pk := atan2 (w.sq1e2 * Real.sin ek) (Real.cos ek - k.ecc) + k.w
  let pkdot := w.sq1e2 * ekdot / om
  let s2 := Real.sin (2 * pk)
  let c2 := Real.cos (2 * pk)
  let uk := pk + k.cus * s2 + k.cuc * c2
  let ukdot := pkdot * (1 + 2 * (k.cus * c2 - k.cuc * s2))
  let rk := w.A * om + k.crc * c2 + k.crs * s2
  let rkdot := w.A * k.ecc * Real.sin ek * ekdot + 2 * pkdot * (k.crs * c2 - k.crc * s2)
  let ik := k.i0 + k.idot * tk + k.cic * c2 + k.cis * s2
  let ikdot := k.idot + 2 * pkdot * (k.cis * c2 - k.cic * s2)
  let xpk := rk * Real.cos uk
  let ypk := rk * Real.sin uk
  let xpkdot := rkdot * Real.cos uk - ypk * ukdot
  let ypkdot := rkdot * Real.sin uk + xpk * ukdot
  let ok := k.omega0 + tk * w.omgkdot - omegaEarth * toeSec
  let p := posOf k w toeSec tk ek om
  let tmp := ypkdot * Real.cos ik - ypk * Real.sin ik * ikdot
  ![-w.omgkdot * p 1 + xpkdot * Real.cos ok - tmp * Real.sin ok,
    w.omgkdot * p 0 + xpkdot * Real.sin ok + tmp * Real.cos ok,
    ypk * Real.cos ik * ikdot + ypkdot * Real.sin ik]

/-- `satpos` (gps_sdr_sim.cxx 78-186), at the seconds `g` of the week, for an ephemeris whose times of ephemeris and of clock
are `toeSec` and `tocSec` seconds of the week: position, velocity, bias and drift. -/
noncomputable def satpos (fuel : ℕ) (k : Kepler) (w : Work) (tgd toeSec tocSec g : ℝ) : Option (V3 × V3 × ℝ × ℝ) :=
  let tk := weekDiff g toeSec
  let n := Real.sqrt (gm / (k.sqrta * k.sqrta * (k.sqrta * k.sqrta) * (k.sqrta * k.sqrta))) + k.deltaN
  let mk := k.m0 + n * tk
  (anomaly k.ecc mk fuel (mk + 1) mk 0).map fun p =>
    let tc := weekDiff g tocSec
    (posOf k w toeSec tk p.1 p.2, velOf k w toeSec tk p.1 p.2,
      k.af0 + tc * (k.af1 + tc * k.af2) + (-4.442807633e-10 * k.ecc * k.sqrta * Real.sin p.1) - tgd,
      k.af1 + 2 * tc * k.af2)

/-! ### The receiver -/

/-- `WGS84_RADIUS`, the square of `WGS84_ECCENTRICITY` and `PI` (gps_sdr_sim.cxx 22-25). -/
noncomputable def radius : ℝ := 6378137
noncomputable def ecc2 : ℝ := 0.0818191908426 * 0.0818191908426
noncomputable def PI : ℝ := 3.1415926535898

/-- The end of an iteration: `zdz`, `nh` and `n`. -/
structure Turn where
  zdz : ℝ
  nh : ℝ
  n : ℝ

/-- The body of the loop of `xyz2llh` (gps_sdr_sim.cxx 238-242): what it computes and `dz_new`. -/
noncomputable def turn (rho2 z dz : ℝ) : Turn × ℝ :=
  let zdz := z + dz
  let nh := Real.sqrt (rho2 + zdz * zdz)
  let slat := zdz / nh
  let n := radius / Real.sqrt (1 - ecc2 * slat * slat)
  (⟨zdz, nh, n⟩, n * ecc2 * slat)

/-- The loop (gps_sdr_sim.cxx 236-248); `none` also when it divides by zero. -/
noncomputable def llhLoop (rho2 z : ℝ) : ℕ → ℝ → Option Turn
  | 0, _ => none
  | n + 1, dz =>
    let s := turn rho2 z dz
    open Classical in
    if s.1.nh = 0 then none
    else if |dz - s.2| < 1.0e-3 then some s.1 else llhLoop rho2 z n s.2

/-- `xyz2llh` (gps_sdr_sim.cxx 208-256). -/
noncomputable def xyz2llh (fuel : ℕ) (p : V3) : Option V3 :=
  if vnorm p < 1.0e-3 then some ![0, 0, -radius]
  else
    let rho2 := p 0 * p 0 + p 1 * p 1
    (llhLoop rho2 (p 2) fuel (ecc2 * p 2)).map fun s =>
      ![atan2 s.zdz (Real.sqrt rho2), atan2 (p 1) (p 0), s.nh - s.n]

/-- `ltcmat` and `ecef2neu` (gps_sdr_sim.cxx 258-288). -/
noncomputable def ecef2neu (llh v : V3) : V3 :=
  let slat := Real.sin (llh 0)
  let clat := Real.cos (llh 0)
  let slon := Real.sin (llh 1)
  let clon := Real.cos (llh 1)
  ![-slat * clon * v 0 + -slat * slon * v 1 + clat * v 2, -slon * v 0 + clon * v 1 + 0 * v 2,
    clat * clon * v 0 + clat * slon * v 1 + slat * v 2]

/-- `neu2azel` (gps_sdr_sim.cxx 290-302). -/
noncomputable def neu2azel (neu : V3) : ℝ × ℝ :=
  let az := atan2 (neu 1) (neu 0)
  (if az < 0 then az + 2 * PI else az, atan2 (neu 2) (Real.sqrt (neu 0 * neu 0 + neu 1 * neu 1)))

/-! ### The ionosphere -/

/-- The members of `ionoutc_t` used (gps_sdr_sim.h 72-81). -/
structure Iono where
  enable : Bool
  vflg : Bool
  al0 : ℝ
  al1 : ℝ
  al2 : ℝ
  al3 : ℝ
  be0 : ℝ
  be1 : ℝ
  be2 : ℝ
  be3 : ℝ

/-- The two loops for the local time (gps_sdr_sim.cxx 358-359). -/
noncomputable def down : ℕ → ℝ → Option ℝ
  | 0, _ => none
  | n + 1, t => if t ≥ 86400 then down n (t - 86400) else some t
noncomputable def upward : ℕ → ℝ → Option ℝ
  | 0, _ => none
  | n + 1, t => if t < 0 then upward n (t + 86400) else some t
noncomputable def dayTime (fuel : ℕ) (t : ℝ) : Option ℝ := (down fuel t).bind (upward fuel)

/-- `ionosphericDelay` (gps_sdr_sim.cxx 304-376); `pi` is the circle number used. -/
noncomputable def iono (pi : ℝ) (fuel : ℕ) (c : Iono) (sec lat lon az el : ℝ) : Option ℝ :=
  if c.enable = false then some 0
  else
    let E := el / pi
    let F := 1 + 16 * (0.53 - E) ^ 3
    if c.vflg = false then some (F * 5.0e-9 * 2.99792458e8)
    else
      let psi := 0.0137 / (E + 0.11) - 0.022
      let phi := lat / pi + psi * Real.cos az
      let phiI := if phi > 0.416 then 0.416 else if phi < -0.416 then -0.416 else phi
      let lamI := lon / pi + psi * Real.sin az / Real.cos (phiI * pi)
      let phiM := phiI + 0.064 * Real.cos ((lamI - 1.617) * pi)
      let phiM2 := phiM * phiM
      let phiM3 := phiM2 * phiM
      let amp := c.al0 + c.al1 * phiM + c.al2 * phiM2 + c.al3 * phiM3
      let amp' := if amp < 0 then 0 else amp
      let per := c.be0 + c.be1 * phiM + c.be2 * phiM2 + c.be3 * phiM3
      let per' := if per < 72000 then 72000 else per
      (dayTime fuel (86400 / 2 * lamI + sec)).map fun t =>
        let X := 2 * pi * (t - 50400) / per'
        if |X| < 1.57 then
          let X2 := X * X
          let X4 := X2 * X2
          F * (5.0e-9 + amp' * (1 - X2 / 2 + X4 / 24)) * 2.99792458e8
        else F * 5.0e-9 * 2.99792458e8

/-! ### The range -/

/-- The light time and the position of the satellite as `computeRange` leaves it in the caller's array
(gps_sdr_sim.cxx 405-419). -/
noncomputable def tau (pos rec : V3) : ℝ := vnorm (pos - rec) / 2.99792458e8
noncomputable def moved (pos vel rec : V3) : V3 :=
  let q := pos - tau pos rec • vel
  ![q 0 + q 1 * omegaEarth * tau pos rec, q 1 - q 0 * omegaEarth * tau pos rec, q 2]

/-- `range_t` (gps_sdr_sim.h 24-32) without the time. -/
structure Range where
  range : ℝ
  rate : ℝ
  d : ℝ
  azel : ℝ × ℝ
  iono : ℝ

/-- `computeRange` (gps_sdr_sim.cxx 385-446): the caller's position afterwards and the result. -/
noncomputable def computeRange (fuel : ℕ) (pos vel : V3) (clk : ℝ) (c : Iono) (sec : ℝ) (rec : V3) : Option (V3 × Range) := do
  let p := moved pos vel rec
  let los := p - rec
  let r := vnorm los
  let llh ← xyz2llh fuel rec
  let azel := neu2azel (ecef2neu llh los)
  let i ← iono PI fuel c sec (llh 0) (llh 1) azel.1 azel.2
  some (p, ⟨r - 2.99792458e8 * clk + i, (vel 0 * los 0 + vel 1 * los 1 + vel 2 * los 2) / r, r, azel, i⟩)

end Verif.Sdr
