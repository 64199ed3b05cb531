import Verif.Model.Gps
import Verif.Model.Glonass
import Verif.Model.Galileo
/-!
# Model of tools/gather_ephemeris.cxx

The two listeners of the gathering tool.  The log is the list of the calls `log_.log(key, stamp, …)`;
doubles are exact rationals; the two readings of the clock made for one finished ephemeris are inputs.
`none` is a read outside an array or an overflow in a time difference.
Not modelled: `main` (arguments, serial port, the wait for Ctrl-C), the printed messages, the memory
that is never freed, and the time of the clock readings.
-/
namespace Verif.Gather
open Verif.Utc

/-! ### Observations -/

/-- parsers/ubx/ubx_defs.h 859-880, the fields the listener could use. -/
structure Meas where
  pr : ℚ
  cp : ℚ
  dopp : ℚ
  gnss : UInt8
  sv : UInt8
  sig : UInt8
  freqId : UInt8
  trkStat : UInt8

/-- ubx_defs.h 841-881: `num_meas` as the byte received, and the memory of `meas[60]`; `week` and
`towMs` (here in milliseconds) are not looked at. -/
structure Rawx where
  week : Nat
  towMs : Int
  num : UInt8
  meas : Nat → Meas

/-- ubx_defs.h 881: the length of `meas`. -/
def MAX_MEAS : Nat := 60

/-- common/measurements/gnss_observation.h 14-21. -/
structure Obs where
  t : Time
  gnss : UInt8
  sat : UInt8
  freq : ℚ
  pseudorange : ℚ
  doppler : ℚ
  carrierPhase : ℚ
deriving DecidableEq

/-- gps.h 11-12. -/
def FREQUENCY_L1 : ℚ := 1575420000
def FREQUENCY_L2 : ℚ := 1227600000
/-- galileo.h 11-12. -/
def FREQUENCY_E1 : ℚ := 1575420000
def FREQUENCY_E5b : ℚ := 1207140000
/-- glonass.h 16-19. -/
def FREQ1_GLO : ℚ := 1602000000
def DFRQ1_GLO : ℚ := 562500
def FREQ2_GLO : ℚ := 1246000000
def DFRQ2_GLO : ℚ := 437500

/-- gather_ephemeris.cxx 91-127, `get_freq`; common/defs.h 14-25: GPS = 0, Galileo = 2,
Glonass = 6. -/
def getFreq (gnss sig slot : Nat) : ℚ :=
  match gnss with
  | 0 => if sig = 0 then FREQUENCY_L1 else if sig = 3 then FREQUENCY_L2
         else if sig = 4 then FREQUENCY_L2 else -1
  | 6 => if sig = 0 then FREQ1_GLO + DFRQ1_GLO * slot
         else if sig = 2 then FREQ2_GLO + DFRQ2_GLO * slot else -1
  | 2 => if sig = 0 then FREQUENCY_E1 else if sig = 1 then FREQUENCY_E1
         else if sig = 5 then FREQUENCY_E5b else if sig = 6 then FREQUENCY_E5b else -1
  | _ => 0

/-- gather_ephemeris.cxx 138-144: the observation made of one measurement; `t` keeps the value of
the constructor of `UTCTime` (utctime.cxx 18-22). -/
def obsOf (m : Meas) : Obs :=
  { t := ⟨0, 0⟩
    gnss := m.gnss
    sat := m.sv
    freq := getFreq m.gnss.toNat m.sig.toNat m.freqId.toNat
    pseudorange := m.pr
    doppler := m.dopp
    carrierPhase := m.cp }

/-- gather_ephemeris.cxx 134-149, the loop from index `i` for `n` further measurements. -/
def obsLoop (d : Rawx) (now : Time) : Nat → Nat → Option (List (Time × Obs))
  | _, 0 => some []
  | i, n + 1 =>
    if i < MAX_MEAS then do
      let rest ← obsLoop d now (i + 1) n
      let o := obsOf (d.meas i)
      some (if o.freq > 0 then (now, o) :: rest else rest)
    else none

/-- ubx_defs.h 833, 854: `num_meas` is a signed byte. -/
def i1 (b : UInt8) : Int := if b.toNat < 128 then b.toNat else (b.toNat : Int) - 256

/-- gather_ephemeris.cxx 129-150, `ObsListener::gotUbx` at time `now`. -/
def gotRawx (d : Rawx) (now : Time) : Option (List (Time × Obs)) :=
  obsLoop d now 0 (i1 d.num).toNat

/-! ### Ephemerides -/

/-- ubx_defs.h 959-970: `dwrd[10]` as ten numbers below `2 ^ 32`. -/
structure Sfrbx where
  gnss : UInt8
  sv : UInt8
  numWords : UInt8
  dwrd : List Nat

/-- What `Accumulator` uses of `EphType`: the object `new EphType(sat)` gives, `parse`, `toe`. -/
structure Kind (σ : Type) where
  fresh : Nat → σ
  parse : Sfrbx → σ → Option (Bool × σ)
  toe : σ → Time

/-- A message with the two readings of the clock (lines 66 and 69) made if it finishes an
ephemeris. -/
structure Ev where
  msg : Sfrbx
  now : Time
  now' : Time

/-- A record of the log: satellite, stamp and ephemeris. -/
structure Entry (σ : Type) where
  sat : Nat
  stamp : Time
  eph : σ

/-- gather_ephemeris.cxx 28-45, `verify(t, eph).ok()`. -/
def verify (t toe : Time) : Option Bool := do
  let d ← sub t toe
  some (¬ (7200 * E9 < (toSecNs d).natAbs))

/-- gather_ephemeris.cxx 77: `working`; an absent entry is null. -/
abbrev Working (σ : Type) : Type := Nat → Option σ

/-- gather_ephemeris.cxx 55-75, `Accumulator::handle`. -/
def handle (K : Kind σ) (w : Working σ) (e : Ev) : Option (Working σ × List (Entry σ)) := do
  let sat := e.msg.sv.toNat
  let s := (w sat).getD (K.fresh sat)
  let (done, s') ← K.parse e.msg s
  let w' : Working σ := fun k => if k = sat then some s' else w k
  if done then
    let ok ← verify e.now' (K.toe s')
    some (w', if ok then [⟨sat, e.now, s'⟩] else [])
  else some (w', [])

/-- Handling messages one after the other. -/
def runAcc (K : Kind σ) : Working σ → List Ev → Option (Working σ × List (Entry σ))
  | w, [] => some (w, [])
  | w, e :: es => do
    let (w', l) ← handle K w e
    let (w'', l') ← runAcc K w' es
    some (w'', l ++ l')

/-- The bytes of little-endian words. -/
def bytesOf (ws : List Nat) : List UInt8 :=
  ws.flatMap fun w => (List.range 4).map fun j => UInt8.ofNat (w / 2 ^ (8 * j))

/-- gps.cxx 39-45 sees `num_words * 4` bytes of `dwrd`, and never more than 40. -/
def gpsKind (fresh : Nat → Gps.Eph) : Kind Gps.Eph :=
  ⟨fresh, fun m e => Gps.parse (m.dwrd.take m.numWords.toNat) e, Gps.Eph.toe⟩

/-- glonass.cxx 44-50. -/
def gloKind (fresh : Nat → Glonass.Eph) : Kind Glonass.Eph :=
  ⟨fresh, fun m e => Glonass.parse (bytesOf (m.dwrd.take m.numWords.toNat)) e, Glonass.Eph.toe⟩

/-- galileo.cxx 48-62 takes 32 bytes of `dwrd` whatever `num_words` is. -/
def galKind (fresh : Nat → Galileo.Eph) : Kind Galileo.Eph :=
  ⟨fresh, fun m e => Galileo.parse (bytesOf m.dwrd) e, Galileo.Eph.toe⟩

/-- gather_ephemeris.cxx 185-187: the three accumulators, and what they have logged. -/
structure Acc (α β γ : Type) where
  gps : Working α
  gal : Working β
  glo : Working γ

/-- Which stream a record goes to, with the record. -/
inductive Logged (α β γ : Type)
  | gps (e : Entry α)
  | gal (e : Entry β)
  | glo (e : Entry γ)

/-- gather_ephemeris.cxx 164-183, `Listener::gotUbx`; ubx_defs.h 897-905. -/
def gotSfrbx (A : Kind α) (B : Kind β) (C : Kind γ) (w : Acc α β γ) (e : Ev) :
    Option (Acc α β γ × List (Logged α β γ)) :=
  match e.msg.gnss.toNat with
  | 0 => (handle A w.gps e).map fun r => ({ w with gps := r.1 }, r.2.map .gps)
  | 6 => (handle C w.glo e).map fun r => ({ w with glo := r.1 }, r.2.map .glo)
  | 2 => (handle B w.gal e).map fun r => ({ w with gal := r.1 }, r.2.map .gal)
  | _ => some (w, [])

/-- A history of subframes. -/
def runAll (A : Kind α) (B : Kind β) (C : Kind γ) :
    Acc α β γ → List Ev → Option (Acc α β γ × List (Logged α β γ))
  | w, [] => some (w, [])
  | w, e :: es => do
    let (w', l) ← gotSfrbx A B C w e
    let (w'', l') ← runAll A B C w' es
    some (w'', l ++ l')

end Verif.Gather
