import Verif.Lemmas.Time
import Mathlib.Tactic.Linarith
import Mathlib.Tactic.Positivity
import Mathlib.Tactic.FieldSimp
import Mathlib.Tactic.Ring
/-!
# C05-C11: timestamps (common/utctime.*, common/quantized_time.*)
-/
namespace Verif.Props.Time
open Verif.Utc Verif.TimeSpec

/-! ### C05 comparison -/

/-- **C05 (full statement, false)** for the six comparison operators. -/
def C05_statement : Prop :=
  ∀ a b : Time, Norm a → Norm b →
    (lt a b = true ↔ instant a < instant b) ∧ (gt a b = true ↔ instant a > instant b) ∧
    (le a b = true ↔ instant a ≤ instant b) ∧ (ge a b = true ↔ instant a ≥ instant b) ∧
    (eq a b = true ↔ instant a = instant b) ∧ (ne a b = true ↔ instant a ≠ instant b)

/-- **C05 partial**: `<`, `>`, `==`, `!=` are chronological on normalised timestamps, and
`<=`, `>=` are when the seconds differ.  Missing: `<=`/`>=` at equal seconds (violated). -/
theorem C05_compare_partial (a b : Time) (ha : Norm a) (hb : Norm b) :
    (lt a b = true ↔ instant a < instant b) ∧ (gt a b = true ↔ instant a > instant b) ∧
    (eq a b = true ↔ instant a = instant b) ∧ (ne a b = true ↔ instant a ≠ instant b) ∧
    (a.sec ≠ b.sec → ((le a b = true ↔ instant a ≤ instant b) ∧
      (ge a b = true ↔ instant a ≥ instant b))) := by
  obtain ⟨a1, a2⟩ := ha
  obtain ⟨b1, b2⟩ := hb
  unfold instant
  refine ⟨?_, ?_, ?_, ?_, ?_⟩
  · unfold lt; split <;> [skip; (split <;> [skip; split])] <;> simp <;> omega
  · unfold gt; split <;> [skip; (split <;> [skip; split])] <;> simp <;> omega
  · simp [eq]; omega
  · simp [ne]; omega
  · intro h
    constructor
    · unfold le; split <;> [skip; (split <;> [skip; split])] <;> simp <;> omega
    · unfold ge; split <;> [skip; (split <;> [skip; split])] <;> simp <;> omega

/-- **C05 violated**: whenever the seconds agree, `<=` and `>=` are both true, whatever the
nanoseconds. -/
theorem C05_le_ge_violated (s n m : Int) : le ⟨s, n⟩ ⟨s, m⟩ = true ∧ ge ⟨s, n⟩ ⟨s, m⟩ = true := by
  simp [le, ge]

theorem C05_statement_false : ¬ C05_statement := by
  intro h
  have := (h ⟨0, 5⟩ ⟨0, 3⟩ (by constructor <;> decide) (by constructor <;> decide)).2.2.1
  revert this; decide

example : Norm ⟨5, 999999999⟩ ∧ Norm ⟨6, 0⟩ ∧ lt ⟨5, 999999999⟩ ⟨6, 0⟩ = true := by
  refine ⟨by constructor <;> decide, by constructor <;> decide, by decide⟩

/-! ### C06 sum and difference -/

/-- **C06.** Sum and difference of normalised timestamps without 64-bit overflow are
normalised and exact. -/
theorem C06_add_sub_exact (a b : Time) (ha : Norm a) (hb : Norm b)
    (hd : -2 ^ 63 < a.sec - b.sec ∧ a.sec - b.sec < 2 ^ 63)
    (hs : -2 ^ 63 ≤ a.sec + b.sec ∧ a.sec + b.sec < 2 ^ 63 - 1) :
    (∃ d, sub a b = some d ∧ Norm d ∧ instant d = instant a - instant b) ∧
    (∃ s, add a b = some s ∧ Norm s ∧ instant s = instant a + instant b) :=
  ⟨sub_defined a b ha hb hd, add_defined a b ha hb hs⟩

/-- **C06.** Hence `(a - b) + b == a` and `(a + b) - b == a`. -/
theorem C06_round_trip (a b : Time) (ha : Norm a) (hb : Norm b)
    (ma : Moderate a) (mb : Moderate b) :
    ((sub a b).bind fun d => add d b) = some a ∧ ((add a b).bind fun s => sub s b) = some a := by
  obtain ⟨ma1, ma2⟩ := ma
  obtain ⟨mb1, mb2⟩ := mb
  obtain ⟨d, e1, n1, i1⟩ := sub_defined a b ha hb ⟨by omega, by omega⟩
  obtain ⟨s, e2, n2, i2⟩ := add_defined a b ha hb ⟨by omega, by omega⟩
  have na := ha
  have nb := hb
  obtain ⟨a1, a2⟩ := ha
  obtain ⟨b1, b2⟩ := hb
  have n1' := n1
  have n2' := n2
  obtain ⟨d1, d2⟩ := n1
  obtain ⟨s1, s2⟩ := n2
  rw [e1, e2]
  simp only [Option.bind_some]
  unfold instant at i1 i2
  constructor
  · obtain ⟨x, ex, nx, ix⟩ := add_defined d b n1' nb (by constructor <;> omega)
    rw [ex, norm_ext nx na (by unfold instant at *; omega)]
  · obtain ⟨x, ex, nx, ix⟩ := sub_defined s b n2' nb (by constructor <;> omega)
    rw [ex, norm_ext nx na (by unfold instant at *; omega)]

example : sub ⟨5, 1⟩ ⟨3, 2⟩ = some ⟨1, 999999999⟩ ∧ add ⟨5, 999999999⟩ ⟨0, 1⟩ = some ⟨6, 0⟩ := by
  decide

/-- Subtraction from the invalid marker overflows: no result. -/
theorem C06_invalid_time_overflows (t : Time) (h : 0 ≤ t.sec) : sub t INVALID_TIME = none := by
  unfold sub i64
  rw [if_neg (by simp only [INVALID_TIME]; omega)]; rfl

/-! ### C07 adding seconds -/

/-- **C07.** For a normalised `t` and any number of seconds `s` (in range), `t + s` and `t - s`
are normalised and denote `t` plus/minus `s` truncated to whole nanoseconds. -/
theorem C07_add_seconds (t : Time) (s : ℚ) (ht : Norm t)
    (hs : |trunc (s * 10 ^ 9)| < 2 ^ 63)
    (hr : -2 ^ 62 < t.sec ∧ t.sec < 2 ^ 62) :
    (∃ d, addSec t s = some d ∧ Norm d ∧ instant d = instant t + trunc (s * 10 ^ 9)) ∧
    (∃ d, subSec t s = some d ∧ Norm d ∧ instant d = instant t - trunc (s * 10 ^ 9)) := by
  obtain ⟨h1, h2⟩ := ht
  have e : (10 : ℚ) ^ 9 = 1000000000 := by norm_num
  rw [e] at hs ⊢
  have hk := trunc_scale s
  unfold addSec subSec
  generalize trunc (s * 1000000000) = k at *
  rw [abs_lt] at hs
  have m1 := Int.tmod_add_mul_tdiv k 1000000000
  have m2 := tmod_bounds k
  have hi : ∀ x : Int, -2 ^ 63 ≤ x → x < 2 ^ 63 → i64 x = some x := fun x a b => if_pos ⟨a, b⟩
  rw [hk]
  have m3 : -2 ^ 34 < k.tdiv 1000000000 ∧ k.tdiv 1000000000 < 2 ^ 34 := by omega
  simp only [E9, Option.bind_eq_bind]
  constructor
  · rw [hi k (by omega) (by omega), Option.bind_some,
      hi _ (by omega) (by omega), Option.bind_some,
      hi _ (by omega) (by omega), Option.bind_some]
    obtain ⟨d, a, b, c⟩ := wrap_defined (t.sec + k.tdiv 1000000000)
      (t.nsec + k.tmod 1000000000) (by constructor <;> omega) (by constructor <;> omega)
    exact ⟨d, a, b, by rw [c]; unfold instant; omega⟩
  · rw [hi k (by omega) (by omega), Option.bind_some,
      hi _ (by omega) (by omega), Option.bind_some,
      hi _ (by omega) (by omega), Option.bind_some]
    obtain ⟨d, a, b, c⟩ := wrap_defined (t.sec - k.tdiv 1000000000)
      (t.nsec - k.tmod 1000000000) (by constructor <;> omega) (by constructor <;> omega)
    exact ⟨d, a, b, by rw [c]; unfold instant; omega⟩

/-- **C07.** Adding more seconds never gives an earlier time (and subtracting more never a
later one). -/
theorem C07_monotone (t : Time) (s s' : ℚ) (h : s ≤ s') (d d' e e' : Time)
    (ht : Norm t) (hr : -2 ^ 62 < t.sec ∧ t.sec < 2 ^ 62)
    (hs : |trunc (s * 10 ^ 9)| < 2 ^ 63) (hs' : |trunc (s' * 10 ^ 9)| < 2 ^ 63)
    (h1 : addSec t s = some d) (h2 : addSec t s' = some d')
    (h3 : subSec t s = some e) (h4 : subSec t s' = some e') :
    instant d ≤ instant d' ∧ instant e' ≤ instant e := by
  obtain ⟨⟨x, a1, -, a2⟩, ⟨x', a3, -, a4⟩⟩ := C07_add_seconds t s ht hs hr
  obtain ⟨⟨y, b1, -, b2⟩, ⟨y', b3, -, b4⟩⟩ := C07_add_seconds t s' ht hs' hr
  have hm : trunc (s * 10 ^ 9) ≤ trunc (s' * 10 ^ 9) := trunc_mono (by linarith)
  rw [h1] at a1; rw [h3] at a3; rw [h2] at b1; rw [h4] at b3
  injection a1 with a1; injection a3 with a3; injection b1 with b1; injection b3 with b3
  subst a1 a3 b1 b3
  omega

/-- 10.25 s before (100 s, 0.1 s): a borrow. -/
example : addSec ⟨100, 100000000⟩ (-41 / 4) = some ⟨89, 850000000⟩ := by
  unfold addSec trunc; norm_num; decide

/-! ### C08 GPS time -/

/-- **C08 (full statement, false).** -/
def C08_statement : Prop :=
  ∀ week tow_ms : Int, 0 ≤ week → week < 2 ^ 16 → 0 ≤ tow_ms → tow_ms < 604800000 →
    ∃ t, fromGPS week tow_ms = some t ∧ Norm t ∧
      instant t = (week * 604800 + 315964800 + 18) * 10 ^ 9 + tow_ms * 10 ^ 6

/-- **C08 partial**: for whole seconds of week and weeks before 3550 the conversion is the
defined instant, normalised, and `GpsWeek`/`GpsTow` invert it.  Missing: fractional seconds
(wrong value) and weeks from 3551 on (signed overflow); both are violated below. -/
theorem C08_gps_time_partial (week tow_ms : Int) (h0 : 0 ≤ week) (h1 : week < 3550)
    (h2 : 0 ≤ tow_ms) (h3 : tow_ms < 604800000) (hw : tow_ms % 1000 = 0) :
    ∃ t, fromGPS week tow_ms = some t ∧ Norm t ∧
      instant t = (week * 604800 + 315964800 + 18) * 10 ^ 9 + tow_ms * 10 ^ 6 ∧
      gpsWeek t = some week ∧ gpsTowNs t = some (tow_ms * 10 ^ 6) := by
  have hi : ∀ x : Int, -2 ^ 63 ≤ x → x < 2 ^ 63 → i64 x = some x := fun x a b => if_pos ⟨a, b⟩
  have hj : ∀ x : Int, -2 ^ 31 ≤ x → x < 2 ^ 31 → i32 x = some x := fun x a b => if_pos ⟨a, b⟩
  have key : ∀ tow : Int, 0 ≤ tow → tow < 604800000 → tow % 1000 = 0 →
      fromGPS week tow = some ⟨week * 604800 + tow / 1000 + 315964818, 0⟩ := by
    intro tow a b c
    unfold fromGPS
    have e : tow.tdiv 1000 = tow / 1000 := Int.tdiv_eq_ediv_of_nonneg a
    have e' : tow.tmod 1000 = 0 := by rw [Int.tmod_eq_emod_of_nonneg a]; exact c
    simp only [SEC_IN_WEEK, GPS_UTC_OFFSET, E9, e, e', Option.bind_eq_bind]
    rw [hj _ (by omega) (by omega), Option.bind_some,
      hj _ (by omega) (by omega), Option.bind_some,
      hi _ (by omega) (by omega), Option.bind_some]
    simp [wrapNsec, E9]
  have hwk : gpsWeek ⟨week * 604800 + tow_ms / 1000 + 315964818, 0⟩ = some week := by
    unfold gpsWeek
    simp only [GPS_UTC_OFFSET, SEC_IN_WEEK, Option.bind_eq_bind]
    rw [hi _ (by omega) (by omega), Option.bind_some,
      Int.tdiv_eq_ediv_of_nonneg (by omega)]
    congr 1; omega
  refine ⟨_, key tow_ms h2 h3 hw, ⟨by simp, by simp⟩, ?_, hwk, ?_⟩
  · unfold instant; simp only; omega
  · unfold gpsTowNs
    simp only [Option.bind_eq_bind]
    rw [hwk, Option.bind_some, key 0 (by omega) (by omega) (by omega),
      Option.bind_some]
    unfold sub
    simp only [Option.bind_eq_bind]
    rw [hi _ (by omega) (by omega), Option.bind_some,
      hi _ (by omega) (by omega)]
    simp [wrapNsec, E9, toSecNs]; omega

/-- **C08 violated** (1): half a second into week 2000 is reported with 499000000000 ns, i.e.
500 s late and not normalised. -/
theorem C08_milliseconds_violated :
    fromGPS 2000 500 = some ⟨2000 * 604800 + 315964818 + 1, 499000000000⟩ := by decide

/-- **C08 violated** (1), for every week in range and every fractional second: the result is
off by `(tow_ms % 1000) * (1 s - 1 ms)`. -/
theorem C08_milliseconds_always_wrong (week tow_ms : Int) (h0 : 0 ≤ week) (h1 : week < 3550)
    (h2 : 0 ≤ tow_ms) (h3 : tow_ms < 604800000) (t : Time) (ht : fromGPS week tow_ms = some t) :
    instant t = (week * 604800 + 315964800 + 18) * 10 ^ 9 + tow_ms * 10 ^ 6
      + (tow_ms % 1000) * (10 ^ 9 - 10 ^ 6) := by
  have hi : ∀ x : Int, -2 ^ 63 ≤ x → x < 2 ^ 63 → i64 x = some x := fun x a b => if_pos ⟨a, b⟩
  have hj : ∀ x : Int, -2 ^ 31 ≤ x → x < 2 ^ 31 → i32 x = some x := fun x a b => if_pos ⟨a, b⟩
  have e : tow_ms.tdiv 1000 = tow_ms / 1000 := Int.tdiv_eq_ediv_of_nonneg h2
  have e' : tow_ms.tmod 1000 = tow_ms % 1000 := Int.tmod_eq_emod_of_nonneg h2
  unfold fromGPS at ht
  simp only [SEC_IN_WEEK, GPS_UTC_OFFSET, E9, e, e', Option.bind_eq_bind] at ht
  rw [hj _ (by omega) (by omega), Option.bind_some,
    hj _ (by omega) (by omega), Option.bind_some,
    hi _ (by omega) (by omega), Option.bind_some] at ht
  rw [wrap_instant ht]
  unfold instant; simp only; omega

/-- **C08 violated** (2): from week 3551 on the `int` product overflows. -/
theorem C08_week_overflow_violated (week tow_ms : Int) (h : 3551 ≤ week) :
    fromGPS week tow_ms = none := by
  unfold fromGPS i32
  rw [if_neg (by simp only [SEC_IN_WEEK]; omega)]; rfl

theorem C08_statement_false : ¬ C08_statement := by
  intro h
  obtain ⟨t, ht, -, -⟩ := h 3551 0 (by omega) (by omega) (by omega) (by omega)
  rw [C08_week_overflow_violated 3551 0 (by omega)] at ht
  exact absurd ht (by simp)

example : fromGPS 2086 86400000 = some ⟨1577664018, 0⟩ := by decide

/-! ### C09 GLONASS time of day -/

/-- Start (in UTC seconds) of the Moscow calendar day containing `sec`. -/
def moscowDayStart (sec : Int) : Int := (sec + 10800) / 86400 * 86400 - 10800

/-- **C09 (full statement, false)**: the result has time of day `tod_ms` in the Moscow day of the
reference. -/
def C09_statement : Prop :=
  ∀ (ref : Time) (tod_ms : Int), -10800 ≤ ref.sec → ref.sec < 2 ^ 40 →
    0 ≤ tod_ms → tod_ms < 86400000 →
    ∃ t, fromGlonassTimeOfDay ref tod_ms = some t ∧ Norm t ∧
      instant t = moscowDayStart ref.sec * 10 ^ 9 + tod_ms * 10 ^ 6

theorem fromGlonass_whole (week tow : Int) (h0 : 0 ≤ week) (h1 : week < 3550)
    (a : 0 ≤ tow) (b : tow < 604800000) (c : tow % 1000 = 0) :
    fromGlonass week tow = some ⟨week * 604800 + tow / 1000 - 10800, 0⟩ := by
  have hi : ∀ x : Int, -2 ^ 63 ≤ x → x < 2 ^ 63 → i64 x = some x := fun x a b => if_pos ⟨a, b⟩
  have hj : ∀ x : Int, -2 ^ 31 ≤ x → x < 2 ^ 31 → i32 x = some x := fun x a b => if_pos ⟨a, b⟩
  unfold fromGlonass
  have e : tow.tdiv 1000 = tow / 1000 := Int.tdiv_eq_ediv_of_nonneg a
  have e' : tow.tmod 1000 = 0 := by rw [Int.tmod_eq_emod_of_nonneg a]; exact c
  simp only [SEC_IN_WEEK, GLO_UTC_OFFSET, E9, e, e', Option.bind_eq_bind]
  rw [hj _ (by omega) (by omega), Option.bind_some,
    hi _ (by omega) (by omega), Option.bind_some]
  simp [wrapNsec, E9]; omega

/-- **C09 partial**: for whole seconds of day and reference times between the epoch and the
32-bit limit (January 2038) the result lies in the Moscow day of the reference with the given
time of day.  Missing: fractional seconds and later dates (violated). -/
theorem C09_glonass_tod_partial (ref : Time) (tod_ms : Int) (h0 : -10800 ≤ ref.sec)
    (h1 : ref.sec < 3549 * 604800) (h2 : 0 ≤ tod_ms) (h3 : tod_ms < 86400000)
    (hw : tod_ms % 1000 = 0) :
    ∃ t, fromGlonassTimeOfDay ref tod_ms = some t ∧ Norm t ∧
      instant t = moscowDayStart ref.sec * 10 ^ 9 + tod_ms * 10 ^ 6 := by
  have hi : ∀ x : Int, -2 ^ 63 ≤ x → x < 2 ^ 63 → i64 x = some x := fun x a b => if_pos ⟨a, b⟩
  have e1 : glonassWeek ref = some ((ref.sec + 10800) / 604800) := by
    unfold glonassWeek
    simp only [GLO_UTC_OFFSET, SEC_IN_WEEK, Option.bind_eq_bind]
    rw [hi _ (by omega) (by omega), Option.bind_some,
      Int.tdiv_eq_ediv_of_nonneg (by omega)]
    congr 1
  have e2 : glonassDayOfWeek ref = some ((ref.sec + 10800) % 604800 / 86400) := by
    unfold glonassDayOfWeek
    simp only [GLO_UTC_OFFSET, SEC_IN_WEEK, SEC_IN_DAY, Option.bind_eq_bind]
    rw [hi _ (by omega) (by omega), Option.bind_some,
      Int.tmod_eq_emod_of_nonneg (by omega), Int.tdiv_eq_ediv_of_nonneg (by omega)]
    congr 1
  unfold fromGlonassTimeOfDay
  rw [e1, e2]
  simp only [Option.bind_eq_bind, Option.bind_some]
  have e3 : s32 (u32 (u32 (u32 ((ref.sec + 10800) % 604800 / 86400) * SEC_IN_DAY) * 1000)
      + u32 tod_ms) = (ref.sec + 10800) % 604800 / 86400 * 86400000 + tod_ms := by
    rw [show SEC_IN_DAY = 86400 from rfl, u32_of (x := tod_ms) (by omega) (by omega),
      u32_of (x := _ / 86400) (by omega) (by omega), u32_of (x := _ * 86400) (by omega) (by omega),
      u32_of (by omega) (by omega), s32_of (by omega) (by omega)]
    omega
  have e4 : s32 (u32 ((ref.sec + 10800) / 604800)) = (ref.sec + 10800) / 604800 := by
    rw [u32_of (by omega) (by omega), s32_of (by omega) (by omega)]
  rw [e3, e4, fromGlonass_whole _ _ (by omega) (by omega) (by omega) (by omega) (by omega)]
  refine ⟨_, rfl, ⟨by simp, by simp⟩, ?_⟩
  unfold instant moscowDayStart; simp only; omega

/-- **C09 violated**: half a second. -/
theorem C09_milliseconds_violated :
    fromGlonassTimeOfDay ⟨1577664018, 0⟩ 500 = some ⟨1577653201, 499000000000⟩ := by decide

theorem C09_statement_false : ¬ C09_statement := by
  intro h
  obtain ⟨t, ht, hn, -⟩ := h ⟨1577664018, 0⟩ 500 (by decide) (by decide) (by decide) (by decide)
  rw [C09_milliseconds_violated] at ht
  injection ht with ht
  subst ht
  revert hn; simp [Norm]

example : fromGlonassTimeOfDay ⟨1577664018, 0⟩ 36000000 = some ⟨1577653200 + 36000, 0⟩ := by decide

/-! ### C10, C11 quantised time -/

/-- **C10.** For normalised times whose difference does not overflow, each comparison is the
comparison of instants with a dead band of half a quantum (50 microseconds); exactly one of
`<`, `==`, `>` holds, `<=`, `>=`, `!=` are the complements, and the mirrored operators agree. -/
theorem C10_quantised_compare (q t : Time) (hq : Norm q) (ht : Norm t)
    (hs : -2 ^ 63 < q.sec - t.sec ∧ q.sec - t.sec < 2 ^ 63) :
    qgt q t = some (decide (instant q - instant t > 50000)) ∧
    qlt q t = some (decide (instant t - instant q > 50000)) ∧
    qeq q t = some (decide (|instant q - instant t| ≤ 50000)) ∧
    qge q t = (qlt q t).map (!·) ∧ qle q t = (qgt q t).map (!·) ∧ qne q t = (qeq q t).map (!·) ∧
    gtq t q = qlt q t ∧ ltq t q = qgt q t ∧ geq t q = qle q t ∧ leq t q = qge q t ∧
    eqq t q = qeq q t ∧ neq t q = qne q t ∧
    (qgt q t = some true ∨ qlt q t = some true ∨ qeq q t = some true) ∧
    ¬ (qgt q t = some true ∧ qlt q t = some true) ∧
    ¬ (qgt q t = some true ∧ qeq q t = some true) ∧
    ¬ (qlt q t = some true ∧ qeq q t = some true) := by
  obtain ⟨d, e1, n1, i1⟩ := sub_defined q t hq ht hs
  obtain ⟨d', e2, n2, i2⟩ := sub_defined t q ht hq ⟨by omega, by omega⟩
  have t1 : toSecNs d = instant q - instant t := by rw [← i1]; rfl
  have t2 : toSecNs d' = instant t - instant q := by rw [← i2]; rfl
  simp only [qgt, qlt, qeq, qge, qle, qne, gtq, ltq, geq, leq, eqq, neq, e1, e2,
    Option.bind_eq_bind, Option.bind_some, t1, t2, HALF, Option.map_some, Option.some.injEq,
    decide_eq_true_eq]
  have hx : instant t - instant q = -(instant q - instant t) := by ring
  rw [hx]
  generalize instant q - instant t = x
  have habs : |x| = (x.natAbs : Int) := Int.abs_eq_natAbs x
  rw [habs, Int.natAbs_neg]
  refine ⟨trivial, trivial, rfl, ?_, ?_, ?_, trivial, trivial, trivial, trivial, rfl, rfl, ?_⟩
  · rw [← decide_not]; exact decide_eq_decide.2 (by omega)
  · rw [← decide_not]; exact decide_eq_decide.2 (by omega)
  · rw [← decide_not]; exact decide_eq_decide.2 (by omega)
  · omega

example : Norm ⟨10, 0⟩ ∧ Norm ⟨9, 999960000⟩ ∧ qeq ⟨10, 0⟩ ⟨9, 999960000⟩ = some true ∧
    qgt ⟨10, 0⟩ ⟨9, 999949999⟩ = some true := by
  refine ⟨by constructor <;> decide, by constructor <;> decide, by decide, by decide⟩

/-- **C11 (full statement, false).** -/
def C11_statement : Prop :=
  (∀ a b c : Time, Norm a → Norm b → Norm c → qeq a b = some true → qeq b c = some true →
    qeq a c = some true) ∧
  (∀ a : Time, Norm a → 0 ≤ a.sec → qne a INVALID_TIME = some true)

/-- **C11 violated** (1): not transitive. -/
theorem C11_not_transitive_violated :
    qeq ⟨0, 0⟩ ⟨0, 40000⟩ = some true ∧ qeq ⟨0, 40000⟩ ⟨0, 80000⟩ = some true ∧
    qeq ⟨0, 0⟩ ⟨0, 80000⟩ = some false := by decide

/-- **C11 violated** (2): comparing any time at or after the epoch with `INVALID_TIME`
overflows (undefined behaviour); the predict step of the filter does this on every call. -/
theorem C11_invalid_compare_violated (t : Time) (h : 0 ≤ t.sec) :
    qne t INVALID_TIME = none ∧ qeq t INVALID_TIME = none := by
  simp [qne, qeq, C06_invalid_time_overflows t h]

theorem C11_statement_false : ¬ C11_statement := by
  rintro ⟨-, h⟩
  have := h ⟨0, 0⟩ (by constructor <;> decide) (by decide)
  rw [(C11_invalid_compare_violated ⟨0, 0⟩ (by decide)).1] at this
  exact absurd this (by simp)

/-- **C11 partial**: quantised equality is reflexive and symmetric, a chain of two equalities
stays within one quantum, and strict quantised order is transitive and compatible with
chronological order.  Missing: transitivity of equality and the invalid marker (violated). -/
theorem C11_quantised_equality_partial (a b c : Time) (ha : Norm a) (hb : Norm b) (hc : Norm c)
    (ma : Moderate a) (mb : Moderate b) (mc : Moderate c) :
    qeq a a = some true ∧ qeq a b = qeq b a ∧
    (qeq a b = some true → qeq b c = some true → |instant a - instant c| ≤ 100000) ∧
    (qlt a b = some true → qlt b c = some true → qlt a c = some true) ∧
    (qlt a b = some true → lt a b = true) := by
  obtain ⟨a1, a2⟩ := ma
  obtain ⟨b1, b2⟩ := mb
  obtain ⟨c1, c2⟩ := mc
  have aa := C10_quantised_compare a a ha ha ⟨by omega, by omega⟩
  have ab := C10_quantised_compare a b ha hb ⟨by omega, by omega⟩
  have ba := C10_quantised_compare b a hb ha ⟨by omega, by omega⟩
  have bc := C10_quantised_compare b c hb hc ⟨by omega, by omega⟩
  have ac := C10_quantised_compare a c ha hc ⟨by omega, by omega⟩
  rw [aa.2.2.1, ab.2.2.1, ba.2.2.1, bc.2.2.1, ab.2.1, bc.2.1, ac.2.1,
    (C05_compare_partial a b ha hb).1]
  simp only [Option.some.injEq, decide_eq_true_eq, decide_eq_decide]
  refine ⟨by simp, ?_, ?_, ?_, ?_⟩
  · rw [abs_sub_comm]
  · intro h1 h2; rw [abs_le] at *; omega
  · intro h1 h2; omega
  · intro h1; omega

/-! ### C65 one time scale for GPS and GLONASS -/

/-- GPS time of the UTC second `u` (since 1970): GPS time started at UTC second 315964800 and has been
ahead of UTC by 18 leap seconds since 2017. -/
def gpsOfUtc (u : Int) : Int := u - 315964800 + 18

/-- Seconds since Moscow midnight of the UTC second `u`. -/
def moscowTod (u : Int) : Int := (u + 10800) % 86400

/-- **C65 (full statement, false).** One instant, given by GPS week and time of week and by GLONASS
time of day, converts to one time. -/
def C65_statement : Prop :=
  ∀ (u : Int) (t t' : Time), 1483228800 ≤ u → u < 3549 * 604800 →
    fromGPS (gpsOfUtc u / 604800) (gpsOfUtc u % 604800 * 1000) = some t →
    fromGlonassTimeOfDay ⟨u, 0⟩ (moscowTod u * 1000) = some t' → instant t = instant t'

/-- **C65 violated**: for *every* whole second from 2017 to 2038 the two differ by 36 s: the leap
seconds are added where they have to be subtracted (utctime.h 45).  The GLONASS time is the right
one. -/
theorem C65_always_36_seconds_violated (u : Int) (h0 : 1483228800 ≤ u) (h1 : u < 3549 * 604800) :
    ∃ t t', fromGPS (gpsOfUtc u / 604800) (gpsOfUtc u % 604800 * 1000) = some t ∧
      fromGlonassTimeOfDay ⟨u, 0⟩ (moscowTod u * 1000) = some t' ∧
      instant t' = u * 10 ^ 9 ∧ instant t = instant t' + 36 * 10 ^ 9 := by
  obtain ⟨t, a, -, b, -⟩ := C08_gps_time_partial (gpsOfUtc u / 604800) (gpsOfUtc u % 604800 * 1000)
    (by unfold gpsOfUtc; omega) (by unfold gpsOfUtc; omega) (by omega) (by omega) (by omega)
  obtain ⟨t', a', -, b'⟩ := C09_glonass_tod_partial ⟨u, 0⟩ (moscowTod u * 1000)
    (by simp only; omega) h1 (by unfold moscowTod; omega) (by unfold moscowTod; omega) (by omega)
  refine ⟨t, t', a, a', ?_, ?_⟩
  · rw [b']; unfold moscowDayStart moscowTod; simp only; omega
  · rw [b, b']; unfold moscowDayStart moscowTod gpsOfUtc; simp only; omega

theorem C65_statement_false : ¬ C65_statement := by
  intro h
  obtain ⟨t, t', a, b, -, c⟩ := C65_always_36_seconds_violated 1577836800 (by omega) (by omega)
  have := h 1577836800 t t' (by omega) (by omega) a b
  omega

/-- **C65 partial**: time differences do agree.  Missing: the instants themselves. -/
theorem C65_differences_partial (u v : Int) (h0 : 1483228800 ≤ u) (h1 : u < 3549 * 604800)
    (h2 : 1483228800 ≤ v) (h3 : v < 3549 * 604800) :
    ∃ t t' s s', fromGPS (gpsOfUtc u / 604800) (gpsOfUtc u % 604800 * 1000) = some t ∧
      fromGlonassTimeOfDay ⟨u, 0⟩ (moscowTod u * 1000) = some t' ∧
      fromGPS (gpsOfUtc v / 604800) (gpsOfUtc v % 604800 * 1000) = some s ∧
      fromGlonassTimeOfDay ⟨v, 0⟩ (moscowTod v * 1000) = some s' ∧
      instant t - instant s = (u - v) * 10 ^ 9 ∧ instant t' - instant s' = (u - v) * 10 ^ 9 := by
  obtain ⟨t, t', a, b, c, d⟩ := C65_always_36_seconds_violated u h0 h1
  obtain ⟨s, s', a', b', c', d'⟩ := C65_always_36_seconds_violated v h2 h3
  exact ⟨t, t', s, s', a, b, a', b', by omega, by omega⟩

/-- 1 January 2020, 00:00:00 UTC is GPS week 2086, second 259218. -/
example : gpsOfUtc 1577836800 / 604800 = 2086 ∧ gpsOfUtc 1577836800 % 604800 = 259218 ∧
    fromGPS 2086 259218000 = some ⟨1577836836, 0⟩ := by decide

end Verif.Props.Time
