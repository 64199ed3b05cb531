import Verif.Model.Gather
/-!
# What the gathering tool should record

Carrier frequencies from the interface documents: GPS and Galileo in multiples of 10.23 MHz, GLONASS
by channel number, which the receiver reports plus seven (ubx_defs.h 871).  An ephemeris is what one
object makes of the messages of one satellite.
-/
namespace Verif.GatherSpec
open Verif.Gather Verif.Utc

/-- The signals the tool supports, by constellation and u-blox signal number. -/
inductive Signal
  | L1CA | L2CL | L2CM | E1C | E1B | E5bI | E5bQ | G1 | G2
deriving DecidableEq

/-- u-blox protocol description, "Signal Identifiers". -/
def signal : Nat → Nat → Option Signal
  | 0, 0 => some .L1CA
  | 0, 3 => some .L2CL
  | 0, 4 => some .L2CM
  | 2, 0 => some .E1C
  | 2, 1 => some .E1B
  | 2, 5 => some .E5bI
  | 2, 6 => some .E5bQ
  | 6, 0 => some .G1
  | 6, 2 => some .G2
  | _, _ => none

/-- 10.23 MHz. -/
def f0 : ℚ := 10230000

/-- The carrier (Hz) of a signal; `k` is the GLONASS channel. -/
def carrier (k : Int) : Signal → ℚ
  | .L1CA => 154 * f0
  | .L2CL => 120 * f0
  | .L2CM => 120 * f0
  | .E1C => 154 * f0
  | .E1B => 154 * f0
  | .E5bI => 118 * f0
  | .E5bQ => 118 * f0
  | .G1 => 1602000000 + 562500 * k
  | .G2 => 1246000000 + 437500 * k

/-- The channel meant by a received `freq_id`. -/
def channel (freqId : Nat) : Int := freqId - 7

/-- Signals of GLONASS. -/
def Signal.isGlo : Signal → Bool
  | .G1 => true
  | .G2 => true
  | _ => false

/-- m/s. -/
def c : ℚ := 299792458

/-- The range rate (m/s) behind a Doppler of `d` Hz (positive when approaching) on a carrier `f`. -/
def rangeRate (d f : ℚ) : ℚ := -(c / f) * d

/-- The measurements a message announces. -/
def announced (d : Rawx) : List Meas := (List.range d.num.toNat).map d.meas

/-- The measurements on supported signals. -/
def supported (ms : List Meas) : List (Meas × Signal) :=
  ms.filterMap fun m => (signal m.gnss.toNat m.sig.toNat).map fun s => (m, s)

/-- What a measurement of a message taken at `t` says. -/
def truth (t : Time) (m : Meas) (s : Signal) : Obs :=
  let f := carrier (channel m.freqId.toNat) s
  ⟨t, m.gnss, m.sv, f, m.pr, rangeRate m.dopp f, m.cp⟩

/-- One object fed with the messages of its satellite. -/
def solo (K : Kind σ) (sat : Nat) : Option σ → List Ev → Option (Option σ × List (Entry σ))
  | w, [] => some (w, [])
  | w, e :: es => do
    let r ← K.parse e.msg (w.getD (K.fresh sat))
    let d ← if r.1 then (sub e.now' (K.toe r.2)).map fun d => decide ((toSecNs d).natAbs ≤ 7200 * E9)
            else some false
    let q ← solo K sat (some r.2) es
    some (q.1, (if d then [⟨sat, e.now, r.2⟩] else []) ++ q.2)

/-- The messages about satellite `sat`. -/
def about (sat : Nat) (es : List Ev) : List Ev := es.filter fun e => e.msg.sv.toNat = sat

/-- The messages of a constellation. -/
def ofGnss (g : Nat) (es : List Ev) : List Ev := es.filter fun e => e.msg.gnss.toNat = g

/-- The records of one stream. -/
def gpsLog (l : List (Logged α β γ)) : List (Entry α) :=
  l.filterMap fun | .gps e => some e | _ => none
def galLog (l : List (Logged α β γ)) : List (Entry β) :=
  l.filterMap fun | .gal e => some e | _ => none
def gloLog (l : List (Logged α β γ)) : List (Entry γ) :=
  l.filterMap fun | .glo e => some e | _ => none

end Verif.GatherSpec
