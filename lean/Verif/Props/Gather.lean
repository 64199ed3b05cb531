import Verif.Spec.Gather
import Verif.Props.Gps
import Mathlib.Tactic.Linarith
import Mathlib.Tactic.NormNum
import Mathlib.Tactic.Positivity
import Mathlib.Tactic.Ring
import Mathlib.Tactic.FieldSimp
import Mathlib.Tactic.IntervalCases
/-!
# C118: the gathering tool
-/
namespace Verif.Props.Gather
open Verif.Gather Verif.GatherSpec Verif.Utc

/-- A measurement on no supported signal has no positive frequency. -/
theorem freq_none (g s k : Nat) (h : signal g s = none) : ¬ getFreq g s k > 0 := by
  unfold signal at h
  unfold getFreq
  split at h <;> simp_all
  rename_i h1 h2 h3 h4 h5 h6 h7 h8 h9
  split
  · have a := h1 rfl; have b := h2 rfl; have c := h3 rfl
    rw [if_neg a, if_neg b, if_neg c]; norm_num
  · have a := h8 rfl; have b := h9 rfl
    rw [if_neg a, if_neg b]; norm_num
  · have a := h4 rfl; have b := h5 rfl; have c := h6 rfl; have d := h7 rfl
    rw [if_neg a, if_neg b, if_neg c, if_neg d]; norm_num
  · norm_num

/-- The frequency given for a supported signal. -/
theorem freq_some (g s k : Nat) (x : Signal) (h : signal g s = some x) :
    getFreq g s k = carrier k x := by
  unfold signal at h
  split at h <;> simp at h <;> subst h <;>
    norm_num [getFreq, carrier, f0, FREQUENCY_L1, FREQUENCY_L2, FREQUENCY_E1, FREQUENCY_E5b,
      FREQ1_GLO, DFRQ1_GLO, FREQ2_GLO, DFRQ2_GLO]

theorem carrier_pos (k : Nat) (x : Signal) : carrier k x > 0 := by
  have : (0 : ℚ) ≤ (k : ℚ) := Nat.cast_nonneg k
  cases x <;> simp only [carrier, f0] <;> norm_num <;> linarith

/-- What the loop logs, as a list comprehension. -/
theorem loop_eq (d : Rawx) (now : Time) (n : Nat) : ∀ i, i + n ≤ MAX_MEAS →
    obsLoop d now i n = some ((((List.range' i n).map d.meas).filter fun m =>
      (obsOf m).freq > 0).map fun m => (now, obsOf m)) := by
  induction n with
  | zero => intro i _; rfl
  | succ n ih =>
    intro i h
    rw [obsLoop, if_pos (by omega), ih (i + 1) (by omega)]
    simp only [List.range'_succ, List.map_cons, Option.bind_eq_bind, Option.bind_some, List.filter_cons]
    by_cases hp : (obsOf (d.meas i)).freq > 0
    · simp [hp]
    · simp [hp]

theorem loop_none (d : Rawx) (now : Time) (n : Nat) : ∀ i, MAX_MEAS < i + n → i ≤ MAX_MEAS →
    obsLoop d now i n = none := by
  induction n with
  | zero => intro i h h'; omega
  | succ n ih =>
    intro i h h'
    rw [obsLoop]
    by_cases hi : i < MAX_MEAS
    · rw [if_pos hi, ih (i + 1) (by omega) (by omega)]; rfl
    · rw [if_neg hi]

/-- The observation logged for a measurement on a supported signal: GLONASS is a channel number
seven too high, the time is 1970 and the Doppler is that of the receiver in Hz. -/
def recorded (m : Meas) (s : Signal) : Obs :=
  ⟨⟨0, 0⟩, m.gnss, m.sv, carrier m.freqId.toNat s, m.pr, m.dopp, m.cp⟩

theorem obsOf_some (m : Meas) (s : Signal) (h : signal m.gnss.toNat m.sig.toNat = some s) :
    obsOf m = recorded m s := by
  unfold obsOf recorded
  rw [freq_some _ _ _ s h]

/-- For every message that announces at most 60 measurements: exactly the measurements on supported
signals are logged, in the order of the message, each once, all with the time of reception as stamp,
and each with its constellation, satellite, pseudorange and carrier phase. -/
theorem C118_observations_partial (d : Rawx) (now : Time) (h : d.num.toNat ≤ 60) :
    gotRawx d now = some ((supported (announced d)).map fun p => (now, recorded p.1 p.2)) := by
  have hi : (i1 d.num).toNat = d.num.toNat := by
    unfold i1; rw [if_pos (by omega)]; rfl
  unfold gotRawx announced supported
  rw [hi, loop_eq d now _ 0 (by unfold MAX_MEAS; omega), ← List.range_eq_range']
  congr 1
  generalize (List.range d.num.toNat).map d.meas = l
  induction l with
  | nil => rfl
  | cons m l ih =>
    rw [List.filter_cons, List.filterMap_cons]
    cases hs : signal m.gnss.toNat m.sig.toNat with
    | none =>
      have : ¬ (obsOf m).freq > 0 := freq_none _ _ _ hs
      simp only [this, decide_false, Bool.false_eq_true, if_false, Option.map_none]
      exact ih
    | some s =>
      have : (obsOf m).freq > 0 := by rw [obsOf_some m s hs]; exact carrier_pos _ s
      simp only [this, decide_true, if_true, Option.map_some, List.map_cons]
      rw [obsOf_some m s hs, ih]

/-- The recorded frequency of GPS and Galileo signals is that of the interface documents. -/
theorem C118_frequency_partial (m : Meas) (s : Signal) (h : s.isGlo = false) (t : Time) :
    (recorded m s).freq = (truth t m s).freq := by
  cases s <;> simp_all [recorded, truth, carrier, Signal.isGlo]

/-- The recorded frequency of every GLONASS signal is wrong, by seven channels: 3.9375 MHz on G1 and
3.0625 MHz on G2. -/
theorem C118_glonass_violated (m : Meas) (t : Time) :
    (recorded m .G1).freq = (truth t m .G1).freq + 3937500 ∧
      (recorded m .G2).freq = (truth t m .G2).freq + 3062500 := by
  simp only [recorded, truth, carrier, channel]
  constructor <;> push_cast <;> ring

/-- The recorded Doppler is the range rate only where both are zero: it is in Hz, and of the
opposite sign. -/
theorem C118_doppler_violated (m : Meas) (s : Signal) (t : Time)
    (hf : (truth t m s).freq > 0) :
    (recorded m s).doppler = (truth t m s).doppler ↔ m.dopp = 0 := by
  simp only [recorded, truth, rangeRate] at hf ⊢
  constructor
  · intro e
    have hp : c / carrier (channel m.freqId.toNat) s > 0 := by
      apply div_pos _ hf
      norm_num [c]
    have : (1 + c / carrier (channel m.freqId.toNat) s) * m.dopp = 0 := by linarith
    rcases mul_eq_zero.1 this with h | h
    · linarith
    · exact h
  · intro e; rw [e]; ring

/-- The recorded time of every observation is the first second of 1970, whatever the receiver
said. -/
theorem C118_time_violated (d : Rawx) (now : Time) (l : List (Time × Obs))
    (h : gotRawx d now = some l) : ∀ p ∈ l, p.2.t = ⟨0, 0⟩ := by
  have key : ∀ n i l, obsLoop d now i n = some l → ∀ p ∈ l, p.2.t = ⟨0, 0⟩ := by
    intro n
    induction n with
    | zero => intro i l h p hp; simp only [obsLoop, Option.some.injEq] at h; subst h; cases hp
    | succ n ih =>
      intro i l h p hp
      rw [obsLoop] at h
      split at h
      · cases hr : obsLoop d now (i + 1) n with
        | none => rw [hr] at h; cases h
        | some r =>
          rw [hr] at h
          simp only [Option.bind_eq_bind, Option.bind_some, Option.some.injEq] at h
          have hmem : p = (now, obsOf (d.meas i)) ∨ p ∈ r := by
            split at h
            · rw [← h] at hp; exact List.mem_cons.1 hp
            · rw [← h] at hp; exact Or.inr hp
          rcases hmem with e | e
          · rw [e]; rfl
          · exact ih _ _ hr p e
      · cases h
  exact key _ _ _ h

/-- 61 or more announced measurements: the listener reads past the end of `meas[60]`, or, from 128
on, takes the number to be negative and records nothing. -/
theorem C118_count_violated (d : Rawx) (now : Time) (h : 60 < d.num.toNat) :
    gotRawx d now = if d.num.toNat < 128 then none else some [] := by
  unfold gotRawx i1
  split
  · rw [loop_none d now _ 0 (by unfold MAX_MEAS; simp; omega) (by decide)]
  · have : d.num.toNat < 256 := d.num.toNat_lt
    rw [Int.toNat_of_nonpos (by omega)]
    rfl

/-- What a message records does not depend on the tracking status of its measurements: one whose
pseudorange the receiver flags as invalid is recorded as well. -/
theorem C118_status_violated (d : Rawx) (now : Time) (f : Nat → UInt8) :
    gotRawx { d with meas := fun i => { d.meas i with trkStat := f i } } now = gotRawx d now := by
  unfold gotRawx
  have key : ∀ n i, obsLoop { d with meas := fun i => { d.meas i with trkStat := f i } } now i n =
      obsLoop d now i n := by
    intro n
    induction n with
    | zero => intro i; rfl
    | succ n ih =>
      intro i
      rw [obsLoop, obsLoop, ih (i + 1)]
      rfl
  exact key _ 0

/-- Every message: what is logged is what the measurements say. -/
def C118_statement : Prop :=
  ∀ (d : Rawx) (now t : Time), d.num.toNat ≤ 60 → fromGPS d.week d.towMs = some t →
    gotRawx d now = some ((supported (announced d)).map fun p => (now, truth t p.1 p.2))

/-- A message with an unsupported signal, a GLONASS one and two of GPS. -/
def exampleRawx : Rawx where
  week := 2000
  towMs := 5000
  num := 4
  meas
    | 0 => ⟨20000000, 100000000, 50, 3, 7, 0, 0, 7⟩
    | 1 => ⟨21000000, 110000000, 60, 6, 3, 0, 8, 7⟩
    | 2 => ⟨22000000, 120000000, -70, 0, 12, 0, 0, 7⟩
    | _ => ⟨23000000, 130000000, 80, 0, 12, 3, 0, 0⟩

theorem C118_statement_false : ¬ C118_statement := by
  intro h
  have h1 := h exampleRawx ⟨1577836800, 0⟩ ⟨1525564805 + 18, 0⟩ (by decide) (by decide +kernel)
  rw [C118_observations_partial _ _ (by decide)] at h1
  have h2 := congrArg (Option.map (List.map fun p : Time × Obs => p.2.t)) h1
  revert h2
  decide +kernel

/-! ### Ephemerides -/

/-- For every history, what the accumulator holds of a satellite and what it logs of it are what a
single object, fed with the messages of this satellite alone, comes to: satellites do not mix. -/
theorem C118_satellites (K : Kind σ) (es : List Ev) : ∀ (w w' : Working σ) (l : List (Entry σ)),
    runAcc K w es = some (w', l) → ∀ sat : Nat,
      solo K sat (w sat) (about sat es) = some (w' sat, l.filter fun e => e.sat = sat) := by
  induction es with
  | nil =>
    intro w w' l h sat
    simp only [runAcc, Option.some.injEq, Prod.mk.injEq] at h
    obtain ⟨rfl, rfl⟩ := h
    rfl
  | cons e es ih =>
    intro w w' l h sat
    simp only [runAcc, Option.bind_eq_bind, Option.bind_eq_some_iff] at h
    obtain ⟨⟨w1, l1⟩, h1, ⟨w2, l2⟩, h2, h3⟩ := h
    simp only [Option.some.injEq, Prod.mk.injEq] at h3
    obtain ⟨rfl, rfl⟩ := h3
    have IH := ih _ _ _ h2 sat
    simp only [handle, Option.bind_eq_bind, Option.bind_eq_some_iff] at h1
    obtain ⟨⟨done, s'⟩, hp, h1⟩ := h1
    by_cases hs : e.msg.sv.toNat = sat
    · have ha : about sat (e :: es) = e :: about sat es := by simp [about, hs]
      rw [ha, solo]
      rw [hs] at hp h1
      simp only [hp, Option.bind_eq_bind, Option.bind_some]
      cases done with
      | false =>
        simp only [Bool.false_eq_true, if_false, Option.some.injEq, Prod.mk.injEq] at h1
        obtain ⟨rfl, rfl⟩ := h1
        simp only [if_true] at IH
        simp [IH]
      | true =>
        simp only [if_true, Option.bind_eq_some_iff, verify, Option.bind_eq_bind] at h1
        obtain ⟨ok, ⟨dt, hd, hok⟩, h1⟩ := h1
        simp only [Option.some.injEq, Prod.mk.injEq] at h1 hok
        obtain ⟨rfl, rfl⟩ := h1
        simp only [if_true] at IH
        simp only [hd, if_true, Option.map_some, Option.bind_some, IH, List.filter_append]
        congr 3
        have : decide ((toSecNs dt).natAbs ≤ 7200 * E9) = ok := by
          rw [← hok]; simp
        rw [this]
        cases ok <;> simp
    · have ha : about sat (e :: es) = about sat es := by simp [about, hs]
      rw [ha]
      have hw : w1 sat = w sat := by
        cases done with
        | false =>
          simp only [Bool.false_eq_true, if_false, Option.some.injEq, Prod.mk.injEq] at h1
          rw [← h1.1]; simp [Ne.symm hs]
        | true =>
          simp only [if_true, Option.bind_eq_some_iff] at h1
          obtain ⟨ok, _, h1⟩ := h1
          simp only [Option.some.injEq, Prod.mk.injEq] at h1
          rw [← h1.1]; simp [Ne.symm hs]
      have hl : l1.filter (fun e => e.sat = sat) = [] := by
        cases done with
        | false =>
          simp only [Bool.false_eq_true, if_false, Option.some.injEq, Prod.mk.injEq] at h1
          rw [← h1.2]; rfl
        | true =>
          simp only [if_true, Option.bind_eq_some_iff] at h1
          obtain ⟨ok, _, h1⟩ := h1
          simp only [Option.some.injEq, Prod.mk.injEq] at h1
          rw [← h1.2]
          cases ok <;> simp [hs]
      rw [← hw, IH, List.filter_append, hl]
      rfl

/-- Constellations do not mix: each of the three streams is what its accumulator makes of the
messages of its constellation, and the messages of the others are ignored. -/
theorem C118_constellations (A : Kind α) (B : Kind β) (C : Kind γ) (es : List Ev) :
    ∀ (w w' : Acc α β γ) (l : List (Logged α β γ)), runAll A B C w es = some (w', l) →
      runAcc A w.gps (ofGnss 0 es) = some (w'.gps, gpsLog l) ∧
      runAcc B w.gal (ofGnss 2 es) = some (w'.gal, galLog l) ∧
      runAcc C w.glo (ofGnss 6 es) = some (w'.glo, gloLog l) := by
  induction es with
  | nil =>
    intro w w' l h
    simp only [runAll, Option.some.injEq, Prod.mk.injEq] at h
    obtain ⟨rfl, rfl⟩ := h
    exact ⟨rfl, rfl, rfl⟩
  | cons e es ih =>
    intro w w' l h
    simp only [runAll, Option.bind_eq_bind, Option.bind_eq_some_iff] at h
    obtain ⟨⟨w1, l1⟩, h1, ⟨w2, l2⟩, h2, h3⟩ := h
    simp only [Option.some.injEq, Prod.mk.injEq] at h3
    obtain ⟨rfl, rfl⟩ := h3
    obtain ⟨I0, I2, I6⟩ := ih _ _ _ h2
    have keep : ∀ g, e.msg.gnss.toNat = g → ofGnss g (e :: es) = e :: ofGnss g es := by
      intro g hg; simp [ofGnss, hg]
    have skip : ∀ g, e.msg.gnss.toNat ≠ g → ofGnss g (e :: es) = ofGnss g es := by
      intro g hg; simp [ofGnss, hg]
    have apps : gpsLog (l1 ++ l2) = gpsLog l1 ++ gpsLog l2 ∧
        galLog (l1 ++ l2) = galLog l1 ++ galLog l2 ∧
        gloLog (l1 ++ l2) = gloLog l1 ++ gloLog l2 := by
      simp [gpsLog, galLog, gloLog]
    rw [apps.1, apps.2.1, apps.2.2]
    unfold gotSfrbx at h1
    split at h1
    · rename_i hg
      simp only [Option.map_eq_some_iff, Prod.mk.injEq] at h1
      obtain ⟨⟨r1, r2⟩, hr, hw, hl⟩ := h1
      subst hw; subst hl
      rw [keep 0 hg, skip 2 (by omega), skip 6 (by omega)]
      refine ⟨?_, ?_, ?_⟩
      · rw [runAcc, hr]
        simp [I0, gpsLog, List.filterMap_map, Function.comp_def]
      · simpa [galLog, List.filterMap_map, Function.comp_def] using I2
      · simpa [gloLog, List.filterMap_map, Function.comp_def] using I6
    · rename_i hg
      simp only [Option.map_eq_some_iff, Prod.mk.injEq] at h1
      obtain ⟨⟨r1, r2⟩, hr, hw, hl⟩ := h1
      subst hw; subst hl
      rw [keep 6 hg, skip 2 (by omega), skip 0 (by omega)]
      refine ⟨?_, ?_, ?_⟩
      · simpa [gpsLog, List.filterMap_map, Function.comp_def] using I0
      · simpa [galLog, List.filterMap_map, Function.comp_def] using I2
      · rw [runAcc, hr]
        simp [I6, gloLog, List.filterMap_map, Function.comp_def]
    · rename_i hg
      simp only [Option.map_eq_some_iff, Prod.mk.injEq] at h1
      obtain ⟨⟨r1, r2⟩, hr, hw, hl⟩ := h1
      subst hw; subst hl
      rw [keep 2 hg, skip 0 (by omega), skip 6 (by omega)]
      refine ⟨?_, ?_, ?_⟩
      · simpa [gpsLog, List.filterMap_map, Function.comp_def] using I0
      · rw [runAcc, hr]
        simp [I2, galLog, List.filterMap_map, Function.comp_def]
      · simpa [gloLog, List.filterMap_map, Function.comp_def] using I6
    · rename_i h0 h6 h2'
      simp only [Option.some.injEq, Prod.mk.injEq] at h1
      obtain ⟨rfl, rfl⟩ := h1
      rw [skip 0 h0, skip 2 h2', skip 6 h6]
      exact ⟨I0, I2, I6⟩

/-- Every ephemeris logged was reported complete by `parse` and is for a time within two hours of the
clock. -/
theorem C118_window (K : Kind σ) (es : List Ev) : ∀ (w w' : Working σ) (l : List (Entry σ)),
    runAcc K w es = some (w', l) → ∀ x ∈ l, ∃ e ∈ es, ∃ s : σ,
      K.parse e.msg s = some (true, x.eph) ∧ x.sat = e.msg.sv.toNat ∧ x.stamp = e.now ∧
      ∃ d, sub e.now' (K.toe x.eph) = some d ∧ (toSecNs d).natAbs ≤ 7200 * E9 := by
  induction es with
  | nil =>
    intro w w' l h x hx
    simp only [runAcc, Option.some.injEq, Prod.mk.injEq] at h
    rw [← h.2] at hx; cases hx
  | cons e es ih =>
    intro w w' l h x hx
    simp only [runAcc, Option.bind_eq_bind, Option.bind_eq_some_iff] at h
    obtain ⟨⟨w1, l1⟩, h1, ⟨w2, l2⟩, h2, h3⟩ := h
    simp only [Option.some.injEq, Prod.mk.injEq] at h3
    obtain ⟨rfl, rfl⟩ := h3
    rcases List.mem_append.1 hx with hx | hx
    · simp only [handle, Option.bind_eq_bind, Option.bind_eq_some_iff] at h1
      obtain ⟨⟨done, s'⟩, hp, h1⟩ := h1
      cases done with
      | false =>
        simp only [Bool.false_eq_true, if_false, Option.some.injEq, Prod.mk.injEq] at h1
        rw [← h1.2] at hx; cases hx
      | true =>
        simp only [if_true, Option.bind_eq_some_iff, verify, Option.bind_eq_bind] at h1
        obtain ⟨ok, ⟨dt, hd, hok⟩, h1⟩ := h1
        simp only [Option.some.injEq, Prod.mk.injEq] at h1 hok
        cases ok with
        | false => rw [← h1.2] at hx; simp at hx
        | true =>
          rw [← h1.2] at hx
          simp only [if_true, List.mem_singleton] at hx
          subst hx
          refine ⟨e, List.mem_cons_self, _, hp, rfl, rfl, dt, hd, ?_⟩
          simpa using hok
    · obtain ⟨e', he', r⟩ := ih _ _ _ h2 x hx
      exact ⟨e', List.mem_cons_of_mem _ he', r⟩

/-- Subframe `ws` of satellite `sv` of constellation `g`, received 100 s after the reference time. -/
def ev (g sv : UInt8) (ws : List Nat) : Ev :=
  ⟨⟨g, sv, 10, ws⟩, ⟨315964818 + 2148 * 604800 + 100, 0⟩, ⟨315964818 + 2148 * 604800 + 100, 7⟩⟩

/-- Subframes of GPS satellites 3 and 4 interleaved, with one of an unsupported constellation and
one of too few words: only satellite 3 has a complete set. -/
def exampleEvs : List Ev :=
  [ev 0 3 Gps.f1, ev 0 4 Gps.f2, ev 0 3 Gps.f2, ev 1 3 Gps.f2, ⟨⟨0, 4, 9, Gps.f1⟩, ⟨0, 0⟩, ⟨0, 0⟩⟩,
    ev 0 3 (Gps.f3 5), ev 0 4 (Gps.f3 5)]

/-- The hypothesis of the theorems on a history that logs something. -/
example : (runAcc (gpsKind fun _ => Gps.e0) (fun _ => none) (ofGnss 0 exampleEvs)).map
    (fun r => r.2.map fun e => (e.sat, e.stamp, e.eph.s1.week)) =
      some [(3, ⟨315964818 + 2148 * 604800 + 100, 0⟩, 2148)] := by
  decide +kernel

/-- A finished GPS ephemeris is not put away: a single damaged subframe after it logs it again. -/
theorem C118_repeat_violated :
    (runAcc (gpsKind fun _ => Gps.e0) (fun _ => none)
      [ev 0 3 Gps.f1, ev 0 3 Gps.f2, ev 0 3 (Gps.f3 5), ev 0 3 Gps.junk]).map
      (fun r => r.2.map fun e => (e.sat, e.eph.s1.week)) = some [(3, 2148), (3, 2148)] := by
  decide +kernel

end Verif.Props.Gather
