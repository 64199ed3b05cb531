import Verif.Model.Sdr
import Verif.Props.Calendar
import Verif.Props.RtkGal
import Verif.Props.Time
/-!
# C132: times of the reference simulator
-/
namespace Verif.Props.SdrTime

open Verif.Sdr Verif.Calendar Verif.Props.Calendar Verif.Props.RtkGal

/-! ### From the calendar -/

/-- The simulator counts the days of the calendar from 1 January 1980 to 28 February 2100 (day 47540). -/
theorem C132_days (x : Date) (hx : x.Valid) (h1 : 1980 ≤ x.y) (k : Int) (hk : DayNo x k) (h2 : k < 47541) :
    dayOf x.y x.m x.d = some (k - 3657) := by
  rw [dayNo_iff hx] at hk
  obtain ⟨y, m, d⟩ := x
  obtain ⟨m1, m2, d1, d2⟩ := hx
  simp only at *
  unfold dayNum at hk
  simp only at hk
  have hy : yearStart y = (y - 1970) * 365 + leaps (y - 1) - 477 := by
    unfold yearStart leaps
    omega
  have hc0 : 0 ≤ cum (isLeap y) (m - 1) := by
    interval_cases m <;> simp [cum] <;> (try split_ifs) <;> omega
  have hy2 : y ≤ 2100 := by
    unfold leaps at hy
    omega
  unfold dayOf
  rw [if_neg (by omega), ← hk]
  simp only
  rw [Int.tdiv_eq_ediv_of_nonneg (by omega), Int.tmod_eq_emod_of_nonneg (by omega)]
  congr 1
  by_cases hl : y ≤ 2099
  · rw [leap_short y (by omega) hl]
    have hy3 : leaps (y - 1) = (y - 1) / 4 - 15 := by
      unfold leaps
      omega
    rw [hy, hy3]
    interval_cases m <;> simp [doy, cum] <;> (try split_ifs) <;> omega
  · have : y = 2100 := by omega
    subst this
    have hf : isLeap 2100 = false := by decide
    have hs : yearStart 2100 = 47482 := by decide
    rw [hf] at hk ⊢
    rw [hs] at hk ⊢
    have hm : m ≤ 2 := by
      by_contra hm
      have : 59 ≤ cum false (m - 1) := by
        interval_cases m <;> simp [cum] at * 
      omega
    interval_cases m <;> simp [doy, cum] <;> omega

example : dayOf 2026 11 16 = some 17116 ∧ (⟨2026, 11, 16⟩ : Date).Valid ∧ dayNum ⟨2026, 11, 16⟩ = 20773 := by decide

/-! ### To the calendar -/

/-- The date in integers. -/
def civilI (c : Int) : Int × Int × Int :=
  let d := (20 * c - 2442) / 7305
  let e := 365 * d + d / 4
  let f := (c - e) * 10000 / 306001
  let m := f - 1 - 12 * (f / 14)
  (d - 4715 - (7 + m) / 10, m, c - e - 306001 * f / 10000)

theorem trunc_div (q : ℚ) (n : Int) (d : Nat) (hn : 0 ≤ n) (h : q = (n : ℚ) / (d : ℚ)) : Utc.trunc q = n / (d : Int) := by
  subst h
  unfold Utc.trunc
  rw [if_pos (by positivity)]
  exact Rat.floor_intCast_div_natCast n d

theorem civil_eq (c : Int) (hc : 1000 ≤ c) : civil c = civilI c := by
  unfold civil civilI
  have h1 : Utc.trunc (((c : ℚ) - 122.1) / 365.25) = (20 * c - 2442) / 7305 :=
    trunc_div _ (20 * c - 2442) 7305 (by omega) (by push_cast; norm_num; ring)
  simp only [h1]
  generalize hd : (20 * c - 2442) / 7305 = d
  have hd0 : 0 ≤ d := by omega
  rw [Int.tdiv_eq_ediv_of_nonneg hd0]
  generalize he : 365 * d + d / 4 = e
  have h2 : Utc.trunc (((c - e : Int) : ℚ) / 30.6001) = (c - e) * 10000 / 306001 :=
    trunc_div _ ((c - e) * 10000) 306001 (by omega) (by push_cast; norm_num; ring)
  simp only [h2]
  generalize hf : (c - e) * 10000 / 306001 = f
  have hf0 : 0 ≤ f := by omega
  have hf1 : 2 ≤ f := by omega
  have h3 : Utc.trunc (30.6001 * (f : ℚ)) = 306001 * f / 10000 :=
    trunc_div _ (306001 * f) 10000 (by omega) (by push_cast; norm_num; ring)
  rw [h3, Int.tdiv_eq_ediv_of_nonneg hf0, Int.tdiv_eq_ediv_of_nonneg (by omega)]

/-- Four years on, the same day of the calendar. -/
theorem civil_shift (c q : Int) : civilI (c + 1461 * q) = ((civilI c).1 + 4 * q, (civilI c).2) := by
  unfold civilI
  have h1 : (20 * (c + 1461 * q) - 2442) / 7305 = (20 * c - 2442) / 7305 + 4 * q := by omega
  simp only [h1]
  generalize (20 * c - 2442) / 7305 = d
  have h2 : c + 1461 * q - (365 * (d + 4 * q) + (d + 4 * q) / 4) = c - (365 * d + d / 4) := by omega
  rw [h2]
  generalize (c - (365 * d + d / 4)) * 10000 / 306001 = f
  simp only [Prod.mk.injEq, and_true]
  omega

theorem table : ∀ r : Fin 1461,
    let p := civilI (2445782 + (r.val : Int))
    1980 ≤ p.1 ∧ p.1 ≤ 1984 ∧ (p.1 = 1984 → 1456 ≤ r.val) ∧ (⟨p.1, p.2.1, p.2.2⟩ : Date).Valid ∧
      dayNum ⟨p.1, p.2.1, p.2.2⟩ = 3657 + (r.val : Int) := by
  decide +kernel

/-- January and February 2100. -/
theorem table2100 : ∀ r : Fin 59,
    let p := civilI (2445782 + 43825 + (r.val : Int))
    (⟨p.1, p.2.1, p.2.2⟩ : Date).Valid ∧ dayNum ⟨p.1, p.2.1, p.2.2⟩ = 47482 + (r.val : Int) ∧ p.1 = 2100 := by
  decide +kernel

theorem years4' (y q m d : Int) (h1 : 1980 ≤ y) (hq : 0 ≤ q) (h3 : y + 4 * q ≤ 2099) :
    dayNum ⟨y + 4 * q, m, d⟩ = dayNum ⟨y, m, d⟩ + 1461 * q ∧ ((⟨y, m, d⟩ : Date).Valid → (⟨y + 4 * q, m, d⟩ : Date).Valid) := by
  have hl : isLeap (y + 4 * q) = isLeap y := by
    rw [leap_short _ (by omega) (by omega), leap_short _ (by omega) (by omega)]
    congr 1
    rw [eq_iff_iff]
    omega
  constructor
  · unfold dayNum
    simp only [hl]
    have : yearStart (y + 4 * q) = yearStart y + 1461 * q := by
      unfold yearStart leaps
      omega
    rw [this]
    ring
  · intro h
    unfold Date.Valid at *
    simp only at *
    rw [mlen_eq] at *
    rw [hl]
    exact h

/-- The date of a day before 1 March 2100. -/
theorem civil_date (D : Int) (h0 : 0 ≤ D) (h1 : D < 43884) :
    let p := civil (2445782 + D)
    (⟨p.1, p.2.1, p.2.2⟩ : Date).Valid ∧ DayNo ⟨p.1, p.2.1, p.2.2⟩ (3657 + D) ∧ 1980 ≤ p.1 := by
  simp only
  rw [civil_eq _ (by omega)]
  by_cases h : D < 43825
  · have ht := table ⟨(D % 1461).toNat, by omega⟩
    simp only at ht
    rw [show (((D % 1461).toNat : Nat) : Int) = D % 1461 by omega] at ht
    have hs := civil_shift (2445782 + D % 1461) (D / 1461)
    rw [show 2445782 + D % 1461 + 1461 * (D / 1461) = 2445782 + D by omega] at hs
    obtain ⟨t1, t2, t3, t4, t5⟩ := ht
    generalize civilI (2445782 + D % 1461) = p at hs t1 t2 t3 t4 t5
    obtain ⟨y1, y2⟩ := years4' p.1 (D / 1461) p.2.1 p.2.2 t1 (by omega) (by omega)
    rw [hs]
    refine ⟨y2 t4, ?_, by simp only; omega⟩
    rw [dayNo_iff (y2 t4)]
    rw [y1, t5]
    omega
  · have ht := table2100 ⟨(D - 43825).toNat, by omega⟩
    simp only at ht
    rw [show (((D - 43825).toNat : Nat) : Int) = D - 43825 by omega,
      show 2445782 + 43825 + (D - 43825) = 2445782 + D by ring] at ht
    obtain ⟨t1, t2, t3⟩ := ht
    refine ⟨t1, ?_, by omega⟩
    rw [dayNo_iff t1, t2]
    ring

theorem i32_some (x : Int) (h1 : -2 ^ 31 ≤ x) (h2 : x < 2 ^ 31) : Utc.i32 x = some x := if_pos ⟨h1, h2⟩

theorem toInt_floor (q : ℚ) (h0 : 0 ≤ q) (h1 : q < 10000000) : toInt q = some ⌊q⌋ := by
  unfold toInt Utc.trunc
  rw [if_pos h0]
  have a : 0 ≤ ⌊q⌋ := Int.floor_nonneg.mpr h0
  have b : ⌊q⌋ < 10000000 := Int.floor_lt.mpr (by exact_mod_cast h1)
  exact i32_some _ (by omega) (by omega)

/-- Every time from the first GPS week to 28 February 2100 has its date and time of day, and the time of that date is the time
again. -/
theorem C132_dates (g : GpsTime) (hw : 0 ≤ g.week) (h0 : 0 ≤ g.sec) (h1 : g.sec < 604800)
    (hl : 7 * g.week + ⌊g.sec / 86400⌋ < 43884) :
    ∃ t, gps2date g = some t ∧ (⟨t.y, t.m, t.d⟩ : Date).Valid ∧
      DayNo ⟨t.y, t.m, t.d⟩ (3657 + (7 * g.week + ⌊g.sec / 86400⌋)) ∧
      0 ≤ t.hh ∧ t.hh < 24 ∧ 0 ≤ t.mm ∧ t.mm < 60 ∧ 0 ≤ t.sec ∧ t.sec < 60 ∧
      g.sec = 86400 * ⌊g.sec / 86400⌋ + 3600 * t.hh + 60 * t.mm + t.sec ∧ date2gps t = some g := by
  have a1 := Int.floor_le (g.sec / 86400)
  have a2 := Int.lt_floor_add_one (g.sec / 86400)
  have b1 := Int.floor_le (g.sec / 3600)
  have b2 := Int.lt_floor_add_one (g.sec / 3600)
  have c1 := Int.floor_le (g.sec / 60)
  have c2 := Int.lt_floor_add_one (g.sec / 60)
  have hh : toInt (g.sec / 3600) = some ⌊g.sec / 3600⌋ := toInt_floor _ (by positivity) (by linarith)
  have hm : toInt (g.sec / 60) = some ⌊g.sec / 60⌋ := toInt_floor _ (by positivity) (by linarith)
  unfold gps2date
  generalize ha : ⌊g.sec / 86400⌋ = a at *
  generalize hb : ⌊g.sec / 3600⌋ = b at *
  generalize hc : ⌊g.sec / 60⌋ = c at *
  have ha0 : 0 ≤ a := by rw [← ha]; exact Int.floor_nonneg.mpr (by positivity)
  have ha7 : a < 7 := by
    have : (a : ℚ) < 7 := by linarith
    exact_mod_cast this
  have hb1 : 24 * a ≤ b := by
    have : (24 * a : ℚ) < b + 1 := by linarith
    have : 24 * a < b + 1 := by exact_mod_cast this
    omega
  have hb2 : b < 24 * a + 24 := by
    have : (b : ℚ) < 24 * a + 24 := by linarith
    exact_mod_cast this
  have hc1 : 60 * b ≤ c := by
    have : (60 * b : ℚ) < c + 1 := by linarith
    have : 60 * b < c + 1 := by exact_mod_cast this
    omega
  have hc2 : c < 60 * b + 60 := by
    have : (c : ℚ) < 60 * b + 60 := by linarith
    exact_mod_cast this
  have hj : toInt ((7 * g.week : Int) + (a : Int) + 2444245) = some (7 * g.week + a + 2444245) := by
    rw [toInt_floor _ (by push_cast; positivity) (by
      have : ((7 * g.week + a : Int) : ℚ) < 43884 := by exact_mod_cast hl
      push_cast at this ⊢; linarith)]
    congr 1
    rw [show (((7 * g.week : Int) : ℚ) + (a : ℚ) + 2444245) = ((7 * g.week + a + 2444245 : Int) : ℚ) by push_cast; ring,
      Int.floor_intCast]
  simp only [Option.bind_eq_bind]
  rw [i32_some (7 * g.week) (by omega) (by omega), Option.bind_some, hj, Option.bind_some,
    i32_some _ (by omega) (by omega), Option.bind_some, hh, Option.bind_some, hm, Option.bind_some]
  rw [show 7 * g.week + a + 2444245 + 1537 = 2445782 + (7 * g.week + a) by ring]
  obtain ⟨v1, v2, v3⟩ := civil_date (7 * g.week + a) (by omega) hl
  generalize civil (2445782 + (7 * g.week + a)) = p at v1 v2 v3
  rw [Int.tmod_eq_emod_of_nonneg (by omega), Int.tmod_eq_emod_of_nonneg (by omega),
    show b % 24 = b - 24 * a by omega, show c % 60 = c - 60 * b by omega]
  refine ⟨_, rfl, v1, v2, by simp only; omega, by simp only; omega, by simp only; omega, by simp only; omega,
    by simp only; linarith, by simp only; linarith, by push_cast; ring, ?_⟩
  unfold date2gps
  have hk := C132_days ⟨p.1, p.2.1, p.2.2⟩ v1 v3 _ v2 (by omega)
  simp only at hk
  simp only [hk, Option.map_some, Option.some.injEq]
  rw [show 3657 + (7 * g.week + a) - 3657 = 7 * g.week + a by ring, Int.tdiv_eq_ediv_of_nonneg (by omega),
    Int.tmod_eq_emod_of_nonneg (by omega), show (7 * g.week + a) / 7 = g.week by omega,
    show (7 * g.week + a) % 7 = a by omega]
  obtain ⟨w, s⟩ := g
  simp only [GpsTime.mk.injEq, true_and]
  push_cast
  ring

/-- Such a time: the start of the afternoon of 16 November 2026. -/
example : gps2date ⟨2445, 129661.5⟩ = some ⟨2026, 11, 16, 12, 1, 1.5⟩ ∧
    7 * 2445 + ⌊(129661.5 : ℚ) / 86400⌋ < 43884 := by
  constructor <;> decide +kernel

/-- The year 2100 has a 29 February for the simulator, and its days from March on are counted one too high. -/
theorem C132_2100_violated : gps2date ⟨6269, 86400⟩ = some ⟨2100, 2, 29, 0, 0, 0⟩ ∧ ¬ (⟨2100, 2, 29⟩ : Date).Valid ∧
    DayNo ⟨2100, 3, 1⟩ (3657 + 43884) ∧ dayOf 2100 3 1 = some 43885 := by
  have hv : (⟨2100, 3, 1⟩ : Date).Valid := by decide
  refine ⟨by decide +kernel, by decide, ?_, by decide⟩
  rw [dayNo_iff hv]
  decide

/-! ### The adapter -/

/-- The claim: a GPS time reaches the simulator as its week and its seconds of the week. -/
def C132_statement : Prop :=
  ∀ junk week tow : Int, 0 ≤ week → week < 3550 → 0 ≤ tow → tow < 604800000 → tow % 1000 = 0 →
    ∀ t, Utc.fromGPS week tow = some t → toSdr junk t = some ⟨week, (tow : ℚ) / 1000⟩

/-- Whatever the time of the week, the simulator is given the number of weeks since 1970 as its seconds, and as the week
what the memory held. -/
theorem C132_adapter_violated (junk week tow : Int) (h0 : 0 ≤ week) (h1 : week < 3550) (h2 : 0 ≤ tow)
    (h3 : tow < 604800000) (hm : tow % 1000 = 0) :
    ∃ t, Utc.fromGPS week tow = some t ∧
      toSdr junk t = some ⟨junk, if tow < 345582000 then (week + 522 : Int) else (week + 523 : Int)⟩ := by
  obtain ⟨t, ht, hn, hi, hw, hg⟩ := Time.C08_gps_time_partial week tow h0 h1 h2 h3 hm
  refine ⟨t, ht, ?_⟩
  unfold toSdr
  rw [hg]
  simp only [Option.bind_eq_bind, Option.bind_some, Option.some.injEq, GpsTime.mk.injEq, true_and]
  have hs : t.sec = week * 604800 + 315964818 + tow / 1000 := by
    obtain ⟨n1, n2⟩ := hn
    unfold TimeSpec.instant at hi
    omega
  unfold utcWeek Utc.SEC_IN_WEEK
  rw [hs, Int.tdiv_eq_ediv_of_nonneg (by omega)]
  split_ifs <;> congr 1 <;> omega

theorem C132_statement_false : ¬ C132_statement := by
  intro h
  obtain ⟨t, ht, hs⟩ := C132_adapter_violated 5 2000 0 (by norm_num) (by norm_num) (by norm_num) (by norm_num) (by norm_num)
  have := h 5 2000 0 (by norm_num) (by norm_num) (by norm_num) (by norm_num) (by norm_num) t ht
  rw [hs] at this
  norm_num at this

/-- The date that the adapter gives an ephemeris is computed from that memory: for some contents the product with 7
overflows, and for others the date is decades off. -/
theorem C132_junk_violated (week tow : Int) (h0 : 0 ≤ week) (h1 : week < 3550) (h2 : 0 ≤ tow)
    (h3 : tow < 604800000) (hm : tow % 1000 = 0) :
    ∃ t, Utc.fromGPS week tow = some t ∧
      (∀ junk, 306783379 ≤ junk ∨ junk ≤ -306783379 → (toSdr junk t).bind gps2date = none) ∧
      ∃ d, (toSdr 0 t).bind gps2date = some d ∧ d.y = 1980 ∧ d.m = 1 ∧ d.d = 6 := by
  obtain ⟨t, ht, -⟩ := C132_adapter_violated 0 week tow h0 h1 h2 h3 hm
  have hj : ∀ junk, toSdr junk t = some ⟨junk, if tow < 345582000 then (week + 522 : Int) else (week + 523 : Int)⟩ := by
    intro junk
    obtain ⟨t', ht', hs⟩ := C132_adapter_violated junk week tow h0 h1 h2 h3 hm
    rw [ht] at ht'
    cases ht'
    exact hs
  refine ⟨t, ht, ?_, ?_⟩
  · intro junk hjk
    rw [hj, Option.bind_some]
    unfold gps2date
    have : Utc.i32 (7 * junk) = none := by
      unfold Utc.i32
      rw [if_neg (by omega)]
    simp only [Option.bind_eq_bind, this, Option.bind_none]
  · rw [hj, Option.bind_some]
    generalize hs : (if tow < 345582000 then (((week + 522 : Int)) : ℚ) else ((week + 523 : Int) : ℚ)) = s
    have hs0 : 0 ≤ s ∧ s < 86400 := by
      rw [← hs]
      split_ifs <;> constructor
      · exact_mod_cast (by omega : (0 : Int) ≤ week + 522)
      · exact_mod_cast (by omega : week + 522 < (86400 : Int))
      · exact_mod_cast (by omega : (0 : Int) ≤ week + 523)
      · exact_mod_cast (by omega : week + 523 < (86400 : Int))
    have hf : ⌊s / 86400⌋ = 0 := by
      rw [Int.floor_eq_zero_iff]
      constructor
      · have := hs0.1
        positivity
      · rw [div_lt_one (by norm_num)]
        exact hs0.2
    obtain ⟨d, hd, v, hn, -⟩ := C132_dates ⟨0, s⟩ le_rfl hs0.1 (by linarith [hs0.2]) (by simp only [hf]; norm_num)
    refine ⟨d, hd, ?_⟩
    simp only [hf] at hn
    have hv : (⟨1980, 1, 6⟩ : Date).Valid := by decide
    have hk : DayNo ⟨1980, 1, 6⟩ (3657 + (7 * 0 + 0)) := by
      rw [dayNo_iff hv]; decide
    have : (⟨d.y, d.m, d.d⟩ : Date) = ⟨1980, 1, 6⟩ := by
      rcases hn with ⟨-, hn⟩ | ⟨hn, -⟩
      · rcases hk with ⟨-, hk⟩ | ⟨hk, -⟩
        · rw [hn, hk]
        · norm_num at hk
      · norm_num at hn
    simp only [Date.mk.injEq] at this
    exact this

end Verif.Props.SdrTime
