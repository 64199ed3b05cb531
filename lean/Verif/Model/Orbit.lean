import Verif.Model.Ekf

/-!
Model of `common/satellite/satellite_state.cxx` (satellites from broadcast ephemerides), of `common/math/rk4.h`, and of
the light time iteration of `common/satellite/satellite_cache.cxx`, over the reals.

Simplifications: exact arithmetic; a `UTCTime` difference is a real number of seconds; the failed `check` is `none`.
In `eph2Sat` for Keplerian orbits the rate of the true anomaly is a quotient of two sines, `0/0` on the line of
apsides; the outcome is `none` there (the code computes a NaN).
-/

namespace Verif.Model.Orbit

open Verif.Model.Lie Verif.Model.Ekf

/-! ### The Runge-Kutta step -/

/-- `RK4` (rk4.h 9-22), for a state in a real vector space. -/
noncomputable def rk4 {E : Type*} [AddCommGroup E] [Module ℝ E] (f : E → E) (dt : ℝ) (x0 : E) : E :=
  let k1 := f x0
  let w1 := x0 + (dt / 2) • k1
  let k2 := f w1
  let w2 := x0 + (dt / 2) • k2
  let k3 := f w2
  let w3 := x0 + dt • k3
  let k4 := f w3
  x0 + (dt / 6) • (k1 + (2 : ℝ) • k2 + (2 : ℝ) • k3 + k4)

/-! ### Keplerian orbits -/

/-- `GM_EARTH` (common/defs.h 9). -/
noncomputable def gm : ℝ := 3.986005e14

/-- The members of `KeplerianEphemeris` used (common/ephemeris/eph.h 71-125); `toeToc` is `toe - toc` in seconds. -/
structure Kepler where
  sqrta : ℝ
  ecc : ℝ
  m0 : ℝ
  deltaN : ℝ
  w : ℝ
  i0 : ℝ
  idot : ℝ
  omega0 : ℝ
  omegadot : ℝ
  cus : ℝ
  cuc : ℝ
  crs : ℝ
  crc : ℝ
  cis : ℝ
  cic : ℝ
  af0 : ℝ
  af1 : ℝ
  af2 : ℝ
  toes : ℝ
  toeToc : ℝ

namespace Kepler

/-- satellite_state.cxx 27-29. -/
def A (k : Kepler) : ℝ := k.sqrta * k.sqrta
noncomputable def mkdot (k : Kepler) : ℝ := Real.sqrt (gm / (k.A * k.A * k.A)) + k.deltaN
/-- satellite_state.cxx 30. -/
noncomputable def mk' (k : Kepler) (dt : ℝ) : ℝ := k.m0 + k.mkdot * dt

end Kepler

/-- One iteration of the solver (satellite_state.cxx 38). -/
noncomputable def newton (ecc mk ek : ℝ) : ℝ := ek - (ek - ecc * Real.sin ek - mk) / (1 - ecc * Real.cos ek)

/-- `std::numeric_limits<double>::max()`. -/
noncomputable def dblMax : ℝ := 1.7976931348623157e308

/-- The loop (satellite_state.cxx 35-40): iterations left, `ek_prev`, `ek`. -/
noncomputable def solveLoop (ecc mk : ℝ) : ℕ → ℝ → ℝ → ℝ
  | 0, _, ek => ek
  | n + 1, prev, ek => if |ek - prev| > 1e-13 then solveLoop ecc mk n ek (newton ecc mk ek) else ek

/-- The eccentric anomaly (satellite_state.cxx 32-40). -/
noncomputable def solve (ecc mk : ℝ) : ℝ := solveLoop ecc mk 30 dblMax mk

namespace Kepler

/-- Rate of the eccentric anomaly and true anomaly (satellite_state.cxx 44-46). -/
noncomputable def ekdot (k : Kepler) (ek : ℝ) : ℝ := k.mkdot / (1 - k.ecc * Real.cos ek)
noncomputable def tak (k : Kepler) (ek : ℝ) : ℝ :=
  atan2 (Real.sqrt (1 - k.ecc * k.ecc) * Real.sin ek) (Real.cos ek - k.ecc)

/-- Rate of the true anomaly (satellite_state.cxx 47-48). -/
noncomputable def takdot (k : Kepler) (ek : ℝ) : ℝ :=
  Real.sin ek * k.ekdot ek * (1 + k.ecc * Real.cos (k.tak ek))
    / (Real.sin (k.tak ek) * (1 - k.ecc * Real.cos ek))

/-- satellite_state.cxx 50-58. -/
noncomputable def phik (k : Kepler) (ek : ℝ) : ℝ := k.tak ek + k.w
noncomputable def corrU (k : Kepler) (ek : ℝ) : ℝ :=
  k.cus * Real.sin (2 * k.phik ek) + k.cuc * Real.cos (2 * k.phik ek)
noncomputable def corrR (k : Kepler) (ek : ℝ) : ℝ :=
  k.crs * Real.sin (2 * k.phik ek) + k.crc * Real.cos (2 * k.phik ek)
noncomputable def corrI (k : Kepler) (ek : ℝ) : ℝ :=
  k.cis * Real.sin (2 * k.phik ek) + k.cic * Real.cos (2 * k.phik ek)
noncomputable def uk (k : Kepler) (ek : ℝ) : ℝ := k.phik ek + k.corrU ek
noncomputable def rk (k : Kepler) (ek : ℝ) : ℝ := k.A * (1 - k.ecc * Real.cos ek) + k.corrR ek
noncomputable def ik (k : Kepler) (dt ek : ℝ) : ℝ := k.i0 + k.idot * dt + k.corrI ek

/-- The position in the plane of the orbit (satellite_state.cxx 68-72). -/
noncomputable def xpk (k : Kepler) (ek : ℝ) : ℝ := k.rk ek * Real.cos (k.uk ek)
noncomputable def ypk (k : Kepler) (ek : ℝ) : ℝ := k.rk ek * Real.sin (k.uk ek)

/-- Longitude of the node (satellite_state.cxx 77-78). -/
noncomputable def omegak (k : Kepler) (dt : ℝ) : ℝ :=
  k.omega0 + (k.omegadot - omegaEarth) * dt - omegaEarth * k.toes
noncomputable def omegakdot (k : Kepler) : ℝ := k.omegadot - omegaEarth

/-- The position (satellite_state.cxx 85-87). -/
noncomputable def pos (k : Kepler) (dt ek : ℝ) : V3 :=
  let cwk := Real.cos (k.omegak dt)
  let swk := Real.sin (k.omegak dt)
  let cik := Real.cos (k.ik dt ek)
  let sik := Real.sin (k.ik dt ek)
  ![k.xpk ek * cwk - k.ypk ek * swk * cik, k.xpk ek * swk + k.ypk ek * cwk * cik, k.ypk ek * sik]

/-- The velocity (satellite_state.cxx 60-66, 74-75, 89-93) for given `c2uk` and `s2uk`. -/
noncomputable def velWith (k : Kepler) (dt ek c2 s2 : ℝ) : V3 :=
  let ukdot := k.takdot ek + 2 * (k.cus * c2 - k.cuc * s2) * k.takdot ek
  let rkdot := k.A * k.ecc * Real.sin ek * k.mkdot / (1 - k.ecc * Real.cos ek)
    + 2 * (k.crs * c2 - k.crc * s2) * k.takdot ek
  let ikdot := k.idot + (k.cis * c2 - k.cic * s2) * 2 * k.takdot ek
  let cwk := Real.cos (k.omegak dt)
  let swk := Real.sin (k.omegak dt)
  let cik := Real.cos (k.ik dt ek)
  let sik := Real.sin (k.ik dt ek)
  let xpkdot := rkdot * Real.cos (k.uk ek) - k.ypk ek * ukdot
  let ypkdot := rkdot * Real.sin (k.uk ek) + k.xpk ek * ukdot
  ![(xpkdot - k.ypk ek * cik * k.omegakdot) * cwk
      - (k.xpk ek * k.omegakdot + ypkdot * cik - k.ypk ek * sik * ikdot) * swk,
    (xpkdot - k.ypk ek * cik * k.omegakdot) * swk
      + (k.xpk ek * k.omegakdot + ypkdot * cik - k.ypk ek * sik * ikdot) * cwk,
    ypkdot * sik + k.ypk ek * cik * ikdot]

/-- The velocity of the code: `c2uk` and `s2uk` are taken at `uk` (satellite_state.cxx 60-61). -/
noncomputable def vel (k : Kepler) (dt ek : ℝ) : V3 :=
  k.velWith dt ek (Real.cos (2 * k.uk ek)) (Real.sin (2 * k.uk ek))

/-- The clock (satellite_state.cxx 95-102): bias and drift. -/
noncomputable def clkBias (k : Kepler) (dt ek : ℝ) : ℝ :=
  let clkDt := dt + k.toeToc
  k.af0 + k.af1 * dt + k.af2 * clkDt * clkDt
    - 2 * Real.sqrt (gm * k.A) * k.ecc * Real.sin ek / (cLight * cLight)
noncomputable def clkDrift (k : Kepler) (dt : ℝ) : ℝ := k.af1 + k.af2 * (dt + k.toeToc)

/-- `eph2Sat` (satellite_state.cxx 12-106), `dt` after the time of ephemeris: position, velocity and clock; `none` for
a stale ephemeris and on the line of apsides. -/
noncomputable def eph2Sat (k : Kepler) (dt : ℝ) : Option (V3 × V3 × ℝ × ℝ) :=
  let ek := solve k.ecc (k.mk' dt)
  open Classical in
  if |dt| > 7200 then none
  else if Real.sin (k.tak ek) = 0 then none
  else some (k.pos dt ek, k.vel dt ek, k.clkBias dt ek, k.clkDrift dt)

end Kepler

/-! ### GLONASS -/

/-- The constants of `glonassOrbit` (satellite_state.cxx 163-166). -/
noncomputable def omgGlo : ℝ := 7.292115E-5
noncomputable def reGlo : ℝ := 6378136.0
noncomputable def j2Glo : ℝ := 1.0826257E-3
noncomputable def muGlo : ℝ := 3.9860044E14

/-- `glonassOrbit` (satellite_state.cxx 161-186): derivative of position and velocity. -/
noncomputable def glonassOrbit (acc : V3) (x : V3 × V3) : V3 × V3 :=
  let p := x.1
  let v := x.2
  let r2 := dot p p
  let r3 := r2 * Real.sqrt r2
  let r5 := r2 * r3
  let omg2 := omgGlo * omgGlo
  let re2 := reGlo * reGlo
  let a := 1.5 * j2Glo * muGlo * re2 / r5
  let b := 5 * p 2 * p 2 / r2
  let c := -muGlo / r3 - a * (1 - b)
  (v, ![(c + omg2) * p 0 + 2 * omgGlo * v 1 + acc 0, (c + omg2) * p 1 - 2 * omgGlo * v 0 + acc 1,
    (c - 2 * a) * p 2 + acc 2])

/-- `GlonassEphemeris` (glonass.h): the members used. -/
structure Glo where
  pos : V3
  vel : V3
  acc : V3
  taun : ℝ
  gamn : ℝ

/-- `SatelliteState` (satellite_state.h 15-22); the time is in seconds after the time of ephemeris, `none` for
`INVALID_TIME`. -/
structure Sat where
  t : Option ℝ
  pos : V3
  vel : V3
  clk : V2

/-- The integration loop (satellite_state.cxx 139-151) with the number of iterations bounded; `none` if it does not
end. `step` is `timestep`, `dt` the time left. -/
noncomputable def gloLoop (acc : V3) : ℕ → ℝ → ℝ → V3 × V3 → Option (V3 × V3)
  | 0, _, _, _ => none
  | n + 1, step, dt, x =>
    if |dt| > 1e-9 then
      let step := if |dt| < 60 then dt else step
      gloLoop acc n step (dt - step) (rk4 (glonassOrbit acc) step x)
    else some x

/-- `eph2Sat` for GLONASS (satellite_state.cxx 108-159), `t` seconds after the time of ephemeris, into a state that may
already be filled in; `n` bounds the number of steps. -/
noncomputable def gloSat (n : ℕ) (e : Glo) (t : ℝ) (s : Sat) : Option Sat :=
  let clk : V2 := ![-e.taun + e.gamn * t, e.gamn]
  let start : ℝ × (V3 × V3) := match s.t with
    | none => (t, (e.pos, e.vel))
    | some t' => (t - t', (s.pos, s.vel))
  let dt := start.1
  (gloLoop e.acc n (if dt < 0 then -60 else 60) dt start.2).map fun x => ⟨some t, x.1, x.2, clk⟩

/-! ### Light time -/

/-- One iteration of the loop (satellite_cache.cxx 46-56): from the time of transmission `ts` to the next one, for a
satellite at `p`, seen by a receiver at `rec` at the time `t`; the correction `dt` and the new time. -/
noncomputable def lightStep (p : ℝ → V3) (rec : V3) (t ts : ℝ) : ℝ × ℝ :=
  let los := p ts - rec
  let sagnac := omegaEarth * (p ts 0 * rec 1 - p ts 1 * rec 0) / cLight
  let tau := (vnorm los + sagnac) / cLight
  let dt := tau - (t - ts)
  (dt, ts - dt)

/-- The loop (satellite_cache.cxx 43-56): the first iteration always runs; `none` if the bound on the number of
iterations is reached. -/
noncomputable def lightLoop (p v : ℝ → V3) (rec : V3) (t : ℝ) : ℕ → ℝ → Option ℝ
  | 0, _ => none
  | n + 1, ts =>
    let r := lightStep p rec t ts
    if |r.1| * vnorm (v r.2) > 1e-3 then lightLoop p v rec t n r.2 else some r.2

end Verif.Model.Orbit
