import Verif.Model.Calendar
import Verif.Spec.Time
import Mathlib.Tactic.IntervalCases
import Mathlib.Tactic.Linarith
import Mathlib.Tactic.NormNum
import Mathlib.Tactic.Ring
import Mathlib.Tactic.Push
import Mathlib.Tactic.Positivity
import Mathlib.Data.Nat.Digits.Lemmas

/-!
C128: timestamps from and to the calendar, seconds and texts.
-/
namespace Verif.Props.Calendar
open Verif.Calendar Verif.Utc Verif.TimeSpec

/-! ### Days -/

theorem leap_iff (y : Int) : isLeap y = true ↔ Leap y := by
  simp only [isLeap, Leap, Bool.and_eq_true, Bool.or_eq_true, beq_iff_eq, bne_iff_ne]
  omega

theorem yearStart_succ (y : Int) : yearStart (y + 1) = yearStart y + if Leap y then 366 else 365 := by
  unfold yearStart leaps
  split <;> rename_i h <;> unfold Leap at h <;> omega

theorem yearOf_spec (n : Int) : yearStart (yearOf n) ≤ n ∧ n < yearStart (yearOf n + 1) := by
  unfold yearOf
  dsimp only
  split_ifs with h1 h2
  · rw [sub_add_cancel]
    refine ⟨?_, h1⟩
    clear h1
    unfold yearStart leaps
    omega
  · refine ⟨h2, ?_⟩
    clear h1 h2
    unfold yearStart leaps
    omega
  · exact ⟨by omega, by omega⟩

theorem yearStart_mono {a b : Int} (h : a ≤ b) : yearStart a ≤ yearStart b := by
  unfold yearStart leaps
  omega

theorem yearOf_unique {y n : Int} (h1 : yearStart y ≤ n) (h2 : n < yearStart (y + 1)) : yearOf n = y := by
  obtain ⟨a, b⟩ := yearOf_spec n
  rcases lt_trichotomy (yearOf n) y with h | h | h
  · have := yearStart_mono (show yearOf n + 1 ≤ y by omega)
    omega
  · exact h
  · have := yearStart_mono (show y + 1 ≤ yearOf n by omega)
    omega

/-- The length of a month. -/
def mlen (leap : Bool) (m : Int) : Int :=
  if m = 2 then (if leap then 29 else 28) else if m = 4 ∨ m = 6 ∨ m = 9 ∨ m = 11 then 30 else 31

theorem mlen_eq (y m : Int) : monthLen y m = mlen (isLeap y) m := by
  unfold monthLen mlen
  simp only [leap_iff]

/-- Days of a year. -/
def ylen (leap : Bool) : Int := if leap then 366 else 365

theorem monthOf_table : ∀ l : Bool, ∀ k : Fin 366, (k.val : Int) < ylen l →
    0 ≤ monthOf l k ∧ monthOf l k ≤ 11 ∧ cum l (monthOf l k) ≤ k ∧ (k : Int) < cum l (monthOf l k) + mlen l (monthOf l k + 1) := by
  decide +kernel

theorem monthOf_spec (l : Bool) (k : Int) (h0 : 0 ≤ k) (h1 : k < ylen l) :
    0 ≤ monthOf l k ∧ monthOf l k ≤ 11 ∧ cum l (monthOf l k) ≤ k ∧ k < cum l (monthOf l k) + mlen l (monthOf l k + 1) := by
  obtain ⟨n, rfl⟩ := Int.eq_ofNat_of_zero_le h0
  have hn : n < 366 := by
    unfold ylen at h1
    split at h1 <;> omega
  exact monthOf_table l ⟨n, hn⟩ h1

theorem monthOf_inv : ∀ l : Bool, ∀ m : Fin 12, ∀ d : Fin 31, (d.val : Int) < mlen l (m.val + 1) →
    monthOf l (cum l m.val + d.val) = m.val := by
  decide +kernel

theorem monthOf_unique (l : Bool) (m d : Int) (h0 : 0 ≤ m) (h1 : m ≤ 11) (h2 : 0 ≤ d) (h3 : d < mlen l (m + 1)) :
    monthOf l (cum l m + d) = m := by
  obtain ⟨m, rfl⟩ := Int.eq_ofNat_of_zero_le h0
  obtain ⟨d, rfl⟩ := Int.eq_ofNat_of_zero_le h2
  have hd : d < 31 := by
    unfold mlen at h3
    split_ifs at h3 <;> omega
  exact monthOf_inv l ⟨m, by omega⟩ ⟨d, hd⟩ h3

theorem cum_succ : ∀ l : Bool, ∀ m : Fin 11, cum l (m.val + 1) = cum l m.val + mlen l (m.val + 1) := by decide +kernel

theorem cum_last (l : Bool) : cum l 11 + mlen l 12 = ylen l := by revert l; decide +kernel

theorem cum_bounds : ∀ l : Bool, ∀ m : Fin 12, 0 ≤ cum l m.val ∧ cum l m.val + mlen l (m.val + 1) ≤ ylen l := by decide +kernel

/-- The number of a day. -/
def dayNum (x : Date) : Int := yearStart x.y + cum (isLeap x.y) (x.m - 1) + (x.d - 1)

/-- The day of a number. -/
def dateOf (n : Int) : Date :=
  let y := yearOf n
  let m := monthOf (isLeap y) (n - yearStart y)
  ⟨y, m + 1, n - yearStart y - cum (isLeap y) m + 1⟩

theorem yearStart_ylen (y : Int) : yearStart (y + 1) = yearStart y + ylen (isLeap y) := by
  rw [yearStart_succ, ylen]
  simp only [leap_iff]

theorem dateOf_valid (n : Int) : (dateOf n).Valid ∧ dayNum (dateOf n) = n := by
  obtain ⟨a, b⟩ := yearOf_spec n
  rw [yearStart_ylen] at b
  obtain ⟨h0, h1, h2, h3⟩ := monthOf_spec (isLeap (yearOf n)) (n - yearStart (yearOf n)) (by omega) (by omega)
  refine ⟨⟨?_, ?_, ?_, ?_⟩, ?_⟩
  · show 1 ≤ monthOf _ _ + 1
    omega
  · show monthOf _ _ + 1 ≤ 12
    omega
  · show 1 ≤ n - yearStart (yearOf n) - cum _ _ + 1
    omega
  · rw [mlen_eq]
    show n - yearStart (yearOf n) - cum _ _ + 1 ≤ mlen (isLeap (yearOf n)) (monthOf _ _ + 1)
    omega
  · unfold dayNum dateOf
    dsimp only
    rw [add_sub_cancel_right, add_sub_cancel_right]
    omega

theorem dayNum_bounds {x : Date} (h : x.Valid) : yearStart x.y ≤ dayNum x ∧ dayNum x < yearStart (x.y + 1) := by
  obtain ⟨h1, h2, h3, h4⟩ := h
  rw [mlen_eq] at h4
  obtain ⟨k, hk⟩ := Int.eq_ofNat_of_zero_le (show 0 ≤ x.m - 1 by omega)
  have hc := cum_bounds (isLeap x.y) ⟨k, by omega⟩
  have : x.m = k + 1 := by omega
  rw [yearStart_ylen]
  unfold dayNum
  rw [this, add_sub_cancel_right]
  rw [this] at h4
  dsimp only at hc
  omega

theorem dateOf_dayNum {x : Date} (h : x.Valid) : dateOf (dayNum x) = x := by
  obtain ⟨b1, b2⟩ := dayNum_bounds h
  obtain ⟨h1, h2, h3, h4⟩ := h
  rw [mlen_eq] at h4
  have hy := yearOf_unique b1 b2
  have hm : monthOf (isLeap x.y) (dayNum x - yearStart x.y) = x.m - 1 := by
    have := monthOf_unique (isLeap x.y) (x.m - 1) (x.d - 1) (by omega) (by omega) (by omega)
      (by rw [sub_add_cancel]; omega)
    rw [← this]
    congr 1
    unfold dayNum
    omega
  have e : dayNum x - yearStart x.y - cum (isLeap x.y) (x.m - 1) + 1 = x.d := by
    unfold dayNum
    omega
  unfold dateOf
  dsimp only
  rw [hy, hm, e, sub_add_cancel]

theorem next_valid {x : Date} (h : x.Valid) : (next x).Valid ∧ dayNum (next x) = dayNum x + 1 := by
  obtain ⟨h1, h2, h3, h4⟩ := h
  unfold next
  have pos : ∀ y m : Int, 1 ≤ monthLen y m := by
    intro y m
    unfold monthLen
    split_ifs <;> omega
  split_ifs with a b
  · refine ⟨⟨h1, h2, by show 1 ≤ x.d + 1; omega, by show x.d + 1 ≤ monthLen x.y x.m; omega⟩, ?_⟩
    unfold dayNum
    dsimp only
    omega
  · refine ⟨⟨by show 1 ≤ x.m + 1; omega, by show x.m + 1 ≤ 12; omega, le_refl _, pos _ _⟩, ?_⟩
    obtain ⟨k, hk⟩ := Int.eq_ofNat_of_zero_le (show 0 ≤ x.m - 1 by omega)
    have hc := cum_succ (isLeap x.y) ⟨k, by omega⟩
    have hm : x.m = k + 1 := by omega
    rw [mlen_eq] at a h4
    unfold dayNum
    dsimp only at hc ⊢
    rw [hm] at a h4 ⊢
    rw [add_sub_cancel_right, add_sub_cancel_right, hc]
    omega
  · refine ⟨⟨le_refl _, by show (1 : Int) ≤ 12; omega, le_refl _, pos _ _⟩, ?_⟩
    have hm : x.m = 12 := by omega
    have hl := cum_last (isLeap x.y)
    rw [mlen_eq, hm] at a h4
    unfold dayNum
    dsimp only
    rw [yearStart_ylen, hm]
    have : cum (isLeap (x.y + 1)) (1 - 1) = 0 := by cases isLeap (x.y + 1) <;> rfl
    rw [this]
    have e : (12 - 1 : Int) = 11 := rfl
    rw [e]
    omega

theorem iter_next (n : Nat) : ∀ {x : Date}, x.Valid → (next^[n] x).Valid ∧ dayNum (next^[n] x) = dayNum x + n := by
  induction n with
  | zero => intro x h; exact ⟨h, by simp⟩
  | succ n ih =>
    intro x h
    obtain ⟨a, b⟩ := next_valid h
    rw [Function.iterate_succ_apply]
    obtain ⟨c, d⟩ := ih a
    refine ⟨c, ?_⟩
    rw [d, b]
    push_cast
    ring

theorem dayNum_inj {x y : Date} (hx : x.Valid) (hy : y.Valid) (h : dayNum x = dayNum y) : x = y := by
  rw [← dateOf_dayNum hx, h, dateOf_dayNum hy]

theorem dayNo_iff {x : Date} (hx : x.Valid) (k : Int) : DayNo x k ↔ dayNum x = k := by
  have he : epoch.Valid := by decide
  have h0 : dayNum epoch = 0 := by decide +kernel
  unfold DayNo
  constructor
  · rintro (⟨h, e⟩ | ⟨h, -, e⟩)
    · have := (iter_next k.toNat he).2
      rw [← e, h0] at this
      omega
    · have := (iter_next (-k).toNat hx).2
      rw [e, h0] at this
      omega
  · intro h
    by_cases hk : 0 ≤ k
    · obtain ⟨a, b⟩ := iter_next k.toNat he
      exact Or.inl ⟨hk, dayNum_inj hx a (by rw [b, h0]; omega)⟩
    · obtain ⟨a, b⟩ := iter_next (-k).toNat hx
      exact Or.inr ⟨by omega, hx, dayNum_inj a he (by rw [b, h0]; omega)⟩

/-! ### `timegm` and `gmtime` -/

/-- Years whose distance from 1900 fits an `int`. -/
def YearFits (y : Int) : Prop := -2 ^ 31 ≤ y - 1900 ∧ y - 1900 < 2 ^ 31

instance (y : Int) : Decidable (YearFits y) := by unfold YearFits; infer_instance

/-- The date of a broken-down time. -/
def Tm.date (t : Tm) : Date := ⟨1900 + t.year, 1 + t.mon, t.mday⟩

/-- A time of day. -/
def Tm.Clock (t : Tm) : Prop := 0 ≤ t.hour ∧ t.hour < 24 ∧ 0 ≤ t.min ∧ t.min < 60 ∧ 0 ≤ t.sec ∧ t.sec < 60

theorem dayNum_fits {x : Date} (hx : x.Valid) (hy : YearFits x.y) : -10 ^ 12 < dayNum x ∧ dayNum x < 10 ^ 12 := by
  obtain ⟨a, b⟩ := dayNum_bounds hx
  unfold YearFits at hy
  unfold yearStart leaps at a b
  omega

theorem i32_some {x : Int} (h : -2 ^ 31 ≤ x ∧ x < 2 ^ 31) : i32 x = some x := if_pos h
theorem i64_some {x : Int} (h : -2 ^ 63 ≤ x ∧ x < 2 ^ 63) : i64 x = some x := if_pos h

theorem timegm_eq (t : Tm) (hx : (Tm.date t).Valid) (hy : YearFits (Tm.date t).y) (h : 0 ≤ t.hour ∧ t.hour < 24)
    (hm : 0 ≤ t.min ∧ t.min < 60) (hs : 0 ≤ t.sec ∧ t.sec < 2 ^ 31) :
    timegm t = some (dayNum (Tm.date t) * 86400 + t.hour * 3600 + t.min * 60 + t.sec) := by
  obtain ⟨b1, b2⟩ := dayNum_fits hx hy
  obtain ⟨h1, h2, -, -⟩ := hx
  simp only [Tm.date] at h1 h2
  have e1 : t.mon / 12 = 0 := by omega
  have e2 : t.mon % 12 = t.mon := by omega
  have e3 : yearStart (t.year + 1900) + cum (isLeap (t.year + 1900)) t.mon + (t.mday - 1) = dayNum (Tm.date t) := by
    unfold dayNum Tm.date
    dsimp only
    rw [add_sub_cancel_left, add_comm 1900]
  unfold timegm
  dsimp only
  rw [e1, e2, add_zero, e3, i64_some (by omega)]

theorem gmtime_eq (t : Int) : gmtime t = if YearFits (dateOf (t / 86400)).y then
    some ⟨(dateOf (t / 86400)).y - 1900, (dateOf (t / 86400)).m - 1, (dateOf (t / 86400)).d, t % 86400 / 3600, t % 86400 % 3600 / 60,
      t % 86400 % 60⟩ else none := by
  by_cases h : YearFits (dateOf (t / 86400)).y
  · rw [if_pos h]
    have h' : i32 (yearOf (t / 86400) - 1900) = some (yearOf (t / 86400) - 1900) := i32_some h
    unfold gmtime dateOf
    dsimp only
    rw [h', Option.map_some, add_sub_cancel_right]
  · rw [if_neg h]
    have h' : i32 (yearOf (t / 86400) - 1900) = none := if_neg h
    unfold gmtime
    dsimp only
    rw [h']
    rfl

/-- The library's `gmtime`, as it is modelled, gives the day that counting days from 1970 gives, and the time of that day;
it fails exactly for years that do not fit. -/
theorem C128_gmtime (t : Int) :
    (∀ d, gmtime t = some d → (Tm.date d).Valid ∧ Tm.Clock d ∧ DayNo (Tm.date d) (t / 86400) ∧
      t % 86400 = d.hour * 3600 + d.min * 60 + d.sec) ∧
    (gmtime t = none ↔ ∀ x : Date, x.Valid → DayNo x (t / 86400) → ¬ YearFits x.y) := by
  obtain ⟨v, n⟩ := dateOf_valid (t / 86400)
  constructor
  · intro d hd
    rw [gmtime_eq] at hd
    split at hd
    · injection hd with hd
      have e : Tm.date d = dateOf (t / 86400) := by
        rw [← hd]
        unfold Tm.date
        dsimp only
        rw [add_sub_cancel, add_sub_cancel]
      rw [e]
      refine ⟨v, ?_, (dayNo_iff v _).2 n, ?_⟩
      · rw [← hd]
        refine ⟨?_, ?_, ?_, ?_, ?_, ?_⟩ <;> dsimp only <;> omega
      · rw [← hd]
        dsimp only
        omega
    · cases hd
  · rw [gmtime_eq]
    constructor
    · intro h x hx hn hy
      rw [dayNo_iff hx] at hn
      have : x = dateOf (t / 86400) := dayNum_inj hx v (hn.trans n.symm)
      rw [← this, if_pos hy] at h
      cases h
    · intro h
      exact if_neg (h _ v ((dayNo_iff v _).2 n))

/-! ### Pairs, integers and doubles -/

/-- `UTCTime(sec, nsec)`: the instant is the sum; the result is normalised unless the nanoseconds are negative and not whole
seconds. -/
theorem C128_pair (s n : Int) (t : Time) (h : mk2 s n = some t) :
    instant t = s * 10 ^ 9 + n ∧ (Norm t ↔ 0 ≤ n ∨ 10 ^ 9 ∣ n) := by
  simp only [mk2, Option.bind_eq_bind, Option.bind_eq_some_iff, i64] at h
  obtain ⟨x, hx, h⟩ := h
  split at hx
  · injection hx with hx
    injection h with h
    subst h hx
    have hd := Int.mul_tdiv_add_tmod n E9
    have e : E9 = 10 ^ 9 := rfl
    refine ⟨?_, ?_⟩
    · unfold instant
      dsimp only
      rw [e] at hd ⊢
      linarith
    · unfold Norm
      dsimp only
      rw [e]
      by_cases hn : 0 ≤ n
      · have h1 := Int.tmod_nonneg (10 ^ 9) hn
        have h2 := Int.tmod_lt_of_pos n (show (0 : Int) < 10 ^ 9 by norm_num)
        exact ⟨fun _ => Or.inl hn, fun _ => ⟨h1, h2⟩⟩
      · have h1 : n.tmod (10 ^ 9) ≤ 0 := by
          rw [← neg_neg n, Int.neg_tmod]
          have := Int.tmod_nonneg (10 ^ 9) (show 0 ≤ -n by omega)
          omega
        constructor
        · intro h
          exact Or.inr (Int.dvd_of_tmod_eq_zero (by omega))
        · rintro (h | h)
          · exact absurd h hn
          · rw [Int.tmod_eq_zero_of_dvd h]
            norm_num
  · cases hx

/-- A tenth of a second before 1970, as a pair of numbers: not normalised, and not equal to the same instant computed by
subtraction. -/
theorem C128_pair_violated : ∃ a b, mk2 0 (-100000000) = some a ∧ sub ⟨0, 0⟩ ⟨0, 100000000⟩ = some b ∧
    instant a = instant b ∧ eq a b = false ∧ ¬ Norm a :=
  ⟨⟨0, -100000000⟩, ⟨-1, 900000000⟩, by decide, by decide, by decide, by decide, by unfold Norm; decide⟩

/-- Whole seconds are added and subtracted exactly. -/
theorem C128_whole (t : Time) (s : Int) (u : Time) :
    (addInt t s = some u → instant u = instant t + s * 10 ^ 9 ∧ (Norm t ↔ Norm u)) ∧
    (subInt t s = some u → instant u = instant t - s * 10 ^ 9 ∧ (Norm t ↔ Norm u)) ∧
    (-2 ^ 63 ≤ t.sec ∧ t.sec < 2 ^ 63 → addInt t s = some u → subInt u s = some t) := by
  refine ⟨fun h => ?_, fun h => ?_, fun hr h => ?_⟩
  · unfold addInt i64 at h
    split at h
    · injection h with h
      rw [← h]
      exact ⟨by unfold instant; dsimp only; ring, Iff.rfl⟩
    · cases h
  · unfold subInt i64 at h
    split at h
    · injection h with h
      rw [← h]
      exact ⟨by unfold instant; dsimp only; ring, Iff.rfl⟩
    · cases h
  · unfold addInt i64 at h
    split at h
    · injection h with h
      rw [← h]
      unfold subInt
      dsimp only
      rw [add_sub_cancel_right, i64_some hr]
      rfl
    · cases h

theorem trunc_nonneg {q : ℚ} (h : 0 ≤ q) : trunc q = ⌊q⌋ := if_pos h

theorem floor_scaled {s : ℚ} (h : 0 ≤ s) : (⌊s * 1000000000⌋).tmod 1000000000 = ⌊s * 1000000000⌋ - ⌊s⌋ * 1000000000 := by
  have h0 : 0 ≤ ⌊s * 1000000000⌋ := Int.floor_nonneg.2 (by positivity)
  rw [Int.tmod_eq_emod_of_nonneg h0]
  have e : ⌊s⌋ = ⌊s * 1000000000⌋ / 1000000000 := by
    have h1 : ⌊s⌋ * 1000000000 ≤ ⌊s * 1000000000⌋ := by
      rw [Int.le_floor]
      push_cast
      have := Int.floor_le s
      linarith
    have h2 : ⌊s * 1000000000⌋ < (⌊s⌋ + 1) * 1000000000 := by
      rw [Int.floor_lt]
      push_cast
      have := Int.lt_floor_add_one s
      linarith
    omega
  rw [e]
  omega

/-- `UTCTime(s)` for `s ≥ 0`: the last nanosecond before `s`, if `s` is below `2 ^ 63` nanoseconds; undefined otherwise. -/
theorem C128_seconds_partial (s : ℚ) (h0 : 0 ≤ s) :
    (s * 1000000000 < 2 ^ 63 → ∃ t, ofDouble s = some t ∧ Norm t ∧ instant t = ⌊s * 1000000000⌋) ∧
    (2 ^ 63 ≤ s * 1000000000 → ofDouble s = none) := by
  have hp : 0 ≤ s * 1000000000 := by positivity
  have hf0 : 0 ≤ ⌊s * 1000000000⌋ := Int.floor_nonneg.2 hp
  have hs0 : 0 ≤ ⌊s⌋ := Int.floor_nonneg.2 h0
  have hle : ⌊s⌋ ≤ ⌊s * 1000000000⌋ := Int.floor_le_floor (by nlinarith)
  constructor
  · intro h
    have hlt : ⌊s * 1000000000⌋ < 2 ^ 63 := by
      rw [Int.floor_lt]
      exact_mod_cast h
    refine ⟨⟨⌊s⌋, ⌊s * 1000000000⌋.tmod E9⟩, ?_, ?_, ?_⟩
    · unfold ofDouble
      rw [trunc_nonneg h0, trunc_nonneg hp, i64_some (by omega), i64_some (by omega)]
      rfl
    · have e : E9 = 10 ^ 9 := rfl
      unfold Norm
      dsimp only
      rw [e]
      exact ⟨Int.tmod_nonneg _ hf0, Int.tmod_lt_of_pos _ (by norm_num)⟩
    · unfold instant
      dsimp only
      have e : E9 = 1000000000 := rfl
      rw [e, floor_scaled h0]
      ring
  · intro h
    have hge : 2 ^ 63 ≤ ⌊s * 1000000000⌋ := by
      rw [Int.le_floor]
      exact_mod_cast h
    have : i64 ⌊s * 1000000000⌋ = none := if_neg (by omega)
    unfold ofDouble
    rw [trunc_nonneg hp, this]
    cases i64 (trunc s) <;> rfl

/-- A tenth of a second before 1970 as a double is not normalised, and differs from the same instant computed by subtraction. -/
theorem C128_seconds_violated : ∃ a b, ofDouble (-1 / 10) = some a ∧ subSec ⟨0, 0⟩ (1 / 10) = some b ∧
    instant a = instant b ∧ eq a b = false ∧ ¬ Norm a :=
  ⟨⟨0, -100000000⟩, ⟨-1, 900000000⟩, by decide +kernel, by decide +kernel, by decide, by decide, by unfold Norm; decide⟩

/-- The property as one would want it: every number of seconds gives a normalised time. -/
def C128_seconds_statement : Prop := ∀ s : ℚ, |s| < 9 * 10 ^ 9 → ∃ t, ofDouble s = some t ∧ Norm t

theorem C128_seconds_statement_false : ¬ C128_seconds_statement := by
  intro h
  obtain ⟨a, b, h1, -, -, -, h5⟩ := C128_seconds_violated
  obtain ⟨t, e, n⟩ := h (-1 / 10) (by norm_num [abs_lt])
  rw [h1] at e
  injection e with e
  exact h5 (e ▸ n)

/-- Weeks are counted from 1970, rounding down after it and towards it before it. -/
theorem C128_week_partial (t : Time) (h0 : 0 ≤ t.sec) (h1 : t.sec < 2 ^ 31 * 604800) : week t = some (t.sec / 604800) := by
  have e : t.sec.tdiv SEC_IN_WEEK = t.sec / 604800 := Int.tdiv_eq_ediv_of_nonneg h0
  unfold week
  rw [e, i32_some (by omega)]

/-- The last second before 1970 is in week 0, not in week -1. -/
theorem C128_week_violated : week ⟨-1, 0⟩ = some 0 ∧ (-1 : Int) / 604800 = -1 := by decide

/-- A random timestamp is normalised only if the second random number is below a milliard; `rand()` goes on to `2 ^ 31 - 1`. -/
theorem C128_random_violated (a b : Int) (hb : 0 ≤ b ∧ b < 2 ^ 31) :
    (Norm (random a b) ↔ b < 10 ^ 9) ∧ ¬ Norm (random 5 1000000000) := by
  unfold Norm random
  dsimp only
  exact ⟨⟨fun h => h.2, fun h => ⟨hb.1, h⟩⟩, by omega⟩

/-! ### From the calendar -/

theorem round_near {q : ℚ} (h : 0 ≤ q) : 0 ≤ rnd q ∧ |(rnd q : ℚ) - q| ≤ 1 / 2 := by
  unfold rnd
  rw [if_pos h]
  refine ⟨Int.floor_nonneg.2 (by linarith), ?_⟩
  have h1 := Int.floor_le (q + 1 / 2)
  have h2 := Int.lt_floor_add_one (q + 1 / 2)
  rw [abs_le]
  constructor <;> linarith

theorem round_le {q : ℚ} {n : Int} (h : 0 ≤ q) (hn : q < n) : rnd q ≤ n := by
  unfold rnd
  rw [if_pos h]
  have : ⌊q + 1 / 2⌋ < n + 1 := by
    rw [Int.floor_lt]
    push_cast
    linarith
  omega

theorem fromCalendar_eq (x : Date) (hx : x.Valid) (hy : YearFits x.y) (h m : Int) (s : ℚ) (hh : 0 ≤ h ∧ h < 24)
    (hm : 0 ≤ m ∧ m < 60) (hs : 0 ≤ s) (hs' : s < 2 ^ 31) :
    fromCalendar x.y x.m x.d h m s =
      mk2 (dayNum x * 86400 + h * 3600 + m * 60 + ⌊s⌋) (rnd (1000000000 * (s - ⌊s⌋))) := by
  have f0 : 0 ≤ ⌊s⌋ := Int.floor_nonneg.2 hs
  have f1 : ⌊s⌋ < 2 ^ 31 := by
    rw [Int.floor_lt]
    exact_mod_cast hs'
  have hm' : i32 (x.m - 1) = some (x.m - 1) := i32_some (by obtain ⟨a, b, -, -⟩ := hx; omega)
  have e : Tm.date ⟨x.y - 1900, x.m - 1, x.d, h, m, ⌊s⌋⟩ = x := by
    unfold Tm.date
    dsimp only
    rw [add_sub_cancel, add_sub_cancel]
  have ht := timegm_eq ⟨x.y - 1900, x.m - 1, x.d, h, m, ⌊s⌋⟩ (by rw [e]; exact hx) (by rw [e]; exact hy) hh hm ⟨f0, f1⟩
  rw [e] at ht
  unfold fromCalendar
  rw [i32_some hy, hm', i32_some (by omega)]
  show (timegm _).bind _ = _
  rw [ht]
  rfl

/-- Every date and time of day gives a normalised timestamp, and its instant is the nanosecond closest to the time that
counting days from 1970 gives. -/
theorem C128_calendar (x : Date) (hx : x.Valid) (hy : YearFits x.y) (h m : Int) (s : ℚ) (hh : 0 ≤ h ∧ h < 24)
    (hm : 0 ≤ m ∧ m < 60) (hs : 0 ≤ s) (hs' : s < 60) (k : Int) (hk : DayNo x k) :
    ∃ t, fromCalendar x.y x.m x.d h m s = some t ∧ Norm t ∧
      |(instant t : ℚ) - (k * 86400 + h * 3600 + m * 60 + s) * 10 ^ 9| ≤ 1 / 2 := by
  rw [dayNo_iff hx] at hk
  have f0 : 0 ≤ ⌊s⌋ := Int.floor_nonneg.2 hs
  have f1 : ⌊s⌋ < 60 := by
    rw [Int.floor_lt]
    exact_mod_cast hs'
  have q0 : 0 ≤ 1000000000 * (s - ⌊s⌋) := by
    have := Int.floor_le s
    nlinarith
  have q1 : 1000000000 * (s - ⌊s⌋) < ((10 ^ 9 : Int) : ℚ) := by
    have := Int.lt_floor_add_one s
    push_cast
    linarith
  obtain ⟨r0, rn⟩ := round_near q0
  have r1 := round_le q0 q1
  obtain ⟨b1, b2⟩ := dayNum_fits hx hy
  have hd : (rnd (1000000000 * (s - ⌊s⌋))).tdiv E9 = rnd (1000000000 * (s - ⌊s⌋)) / E9 := Int.tdiv_eq_ediv_of_nonneg r0
  have he : E9 = 10 ^ 9 := rfl
  have hmk : mk2 (dayNum x * 86400 + h * 3600 + m * 60 + ⌊s⌋) (rnd (1000000000 * (s - ⌊s⌋))) =
      some ⟨dayNum x * 86400 + h * 3600 + m * 60 + ⌊s⌋ + (rnd (1000000000 * (s - ⌊s⌋))).tdiv E9,
        (rnd (1000000000 * (s - ⌊s⌋))).tmod E9⟩ := by
    unfold mk2
    rw [hd, he, i64_some (by omega)]
    rfl
  obtain ⟨i1, i2⟩ := C128_pair _ _ _ hmk
  refine ⟨_, (fromCalendar_eq x hx hy h m s hh hm hs (by linarith)).trans hmk, i2.2 (Or.inl r0), ?_⟩
  rw [i1, hk]
  push_cast
  have e : (((k : ℚ) * 86400 + h * 3600 + m * 60 + ⌊s⌋) * 1000000000 + (rnd (1000000000 * (s - ⌊s⌋)) : ℚ) -
      (k * 86400 + h * 3600 + m * 60 + s) * 10 ^ 9) = (rnd (1000000000 * (s - ⌊s⌋)) : ℚ) - 1000000000 * (s - ⌊s⌋) := by ring
  rw [e]
  exact rn

/-- 29 February 2024, noon and a half second; the start of 1996, from which GLONASS counts. -/
example : (⟨2024, 2, 29⟩ : Date).Valid ∧ YearFits 2024 ∧ DayNo ⟨2024, 2, 29⟩ 19782 ∧
    fromCalendar 2024 2 29 12 0 (1 / 2) = some ⟨19782 * 86400 + 43200, 500000000⟩ ∧
    fromCalendar 1996 1 1 0 0 0 = some ⟨820454400, 0⟩ := by
  refine ⟨by decide, by decide, (dayNo_iff (by decide) _).2 (by decide +kernel), by decide +kernel, by decide +kernel⟩

/-- Breaking a timestamp down and putting it together again gives it back. -/
theorem C128_round_trip (t : Time) (ht : Norm t) (d : Tm) (hd : gmtime t.sec = some d) :
    fromCalendar (1900 + d.year) (1 + d.mon) d.mday d.hour d.min (d.sec + t.nsec / 10 ^ 9) = some t := by
  obtain ⟨v, c, n, r⟩ := (C128_gmtime t.sec).1 d hd
  have hy : YearFits (Tm.date d).y := by
    by_contra hy
    have h := (C128_gmtime t.sec).2.2 (fun x hx hn => by
      rw [dayNo_iff hx] at hn
      rw [dayNo_iff v] at n
      rw [dayNum_inj hx v (hn.trans n.symm)]
      exact hy)
    rw [h] at hd
    cases hd
  obtain ⟨c1, c2, c3, c4, c5, c6⟩ := c
  obtain ⟨t0, t1⟩ := ht
  have q0 : (0 : ℚ) ≤ (t.nsec : ℚ) / 10 ^ 9 := by
    have : (0 : ℚ) ≤ t.nsec := by exact_mod_cast t0
    positivity
  have q1 : (t.nsec : ℚ) / 10 ^ 9 < 1 := by
    rw [div_lt_one (by positivity)]
    exact_mod_cast t1
  have hf : ⌊(d.sec : ℚ) + t.nsec / 10 ^ 9⌋ = d.sec := by
    rw [Int.floor_eq_iff]
    constructor <;> linarith
  have hs0 : (0 : ℚ) ≤ (d.sec : ℚ) + t.nsec / 10 ^ 9 := by
    have : (0 : ℚ) ≤ d.sec := by exact_mod_cast c5
    linarith
  have hs1 : (d.sec : ℚ) + t.nsec / 10 ^ 9 < 2 ^ 31 := by
    have : (d.sec : ℚ) < 60 := by exact_mod_cast c6
    linarith
  have h := fromCalendar_eq (Tm.date d) v hy d.hour d.min (d.sec + t.nsec / 10 ^ 9) ⟨c1, c2⟩ ⟨c3, c4⟩ hs0 hs1
  have hr : rnd (1000000000 * ((d.sec : ℚ) + t.nsec / 10 ^ 9 - d.sec)) = t.nsec := by
    have e : 1000000000 * ((d.sec : ℚ) + t.nsec / 10 ^ 9 - d.sec) = (t.nsec : ℚ) := by ring
    have : (0 : ℚ) ≤ t.nsec := by exact_mod_cast t0
    unfold rnd
    rw [e, if_pos this, Int.floor_eq_iff]
    constructor <;> linarith
  rw [dayNo_iff v] at n
  rw [hf, hr, n] at h
  refine Eq.trans h ?_
  have e : t.sec / 86400 * 86400 + d.hour * 3600 + d.min * 60 + d.sec = t.sec := by omega
  have fits := dayNum_fits v hy
  have e1 : t.nsec.tdiv E9 = 0 := by
    rw [Int.tdiv_eq_ediv_of_nonneg t0, show E9 = 10 ^ 9 from rfl]
    omega
  have e2 : t.nsec.tmod E9 = t.nsec := by
    rw [Int.tmod_eq_emod_of_nonneg t0, show E9 = 10 ^ 9 from rfl]
    omega
  unfold mk2
  rw [e, e1, e2, add_zero, i64_some (by rw [n] at fits; omega)]
  rfl

/-- Months beyond December are months of the following years, and days beyond the end of a month are days of the following
ones: nothing is refused. -/
theorem C128_carry (y m d h mi : Int) (s : ℚ) (hy : YearFits y) (hy' : YearFits (y + 1)) (hm : -2 ^ 31 < m) (hm' : m < 2 ^ 31 - 12) :
    fromCalendar y (m + 12) d h mi s = fromCalendar (y + 1) m d h mi s ∧
    (∀ t u, timegm ⟨y, m, d, h, mi, 0⟩ = some t → timegm ⟨y, m, d + 1, h, mi, 0⟩ = some u → u = t + 86400) := by
  constructor
  · unfold fromCalendar
    have m1 : i32 (m + 12 - 1) = some (m + 12 - 1) := i32_some (by omega)
    have m2 : i32 (m - 1) = some (m - 1) := i32_some (by omega)
    rw [i32_some hy, i32_some hy', m1, m2]
    have : ∀ e, timegm ⟨y - 1900, m + 12 - 1, d, h, mi, e⟩ = timegm ⟨y + 1 - 1900, m - 1, d, h, mi, e⟩ := by
      intro e
      unfold timegm
      dsimp only
      have e1 : (m + 12 - 1) % 12 = (m - 1) % 12 := by omega
      have e2 : y - 1900 + 1900 + (m + 12 - 1) / 12 = y + 1 - 1900 + 1900 + (m - 1) / 12 := by omega
      rw [e1, e2]
    show (i32 ⌊s⌋).bind _ = (i32 ⌊s⌋).bind _
    congr 1
    funext e
    show (timegm _).bind _ = (timegm _).bind _
    rw [this]
  · intro t u ht hu
    unfold timegm i64 at ht hu
    dsimp only at ht hu
    split at ht
    · split at hu
      · injection ht with ht
        injection hu with hu
        omega
      · cases hu
    · cases ht

/-- 30 February is 1 March. -/
example : fromCalendar 2024 2 30 0 0 0 = fromCalendar 2024 3 1 0 0 0 := by decide +kernel

/-- The leap second at the end of 2016 is the same time as the second after it. -/
theorem C128_leap_second_violated :
    fromCalendar 2016 12 31 23 59 (60 + 1 / 2) = fromCalendar 2017 1 1 0 0 (1 / 2) ∧
    fromCalendar 2017 1 1 0 0 (1 / 2) = some ⟨1483228800, 500000000⟩ := by decide +kernel

/-! ### Texts -/

/-- Digits and the minus sign. -/
def Numeral (c : Char) : Prop := c ≠ '/' ∧ c ≠ ' ' ∧ c ≠ ':' ∧ c ≠ '.'

instance (c : Char) : Decidable (Numeral c) := by unfold Numeral; infer_instance

theorem digit_numeral {d : Nat} (h : d < 10) : Numeral (Char.ofNat (48 + d)) ∧ (Char.ofNat (48 + d)).toNat - 48 = d ∧ Char.ofNat (48 + d) ≠ '-' := by
  interval_cases d <;> decide

/-- The digits of a number, the highest first. -/
def digs (n : Nat) : List Nat := if n = 0 then [0] else (Nat.digits 10 n).reverse

theorem digs_lt {n d : Nat} (h : d ∈ digs n) : d < 10 := by
  unfold digs at h
  split at h
  · simp at h; omega
  · rw [List.mem_reverse] at h
    exact Nat.digits_lt_base (by norm_num) h

theorem num_eq (i : Int) : num i = if i < 0 then '-' :: (digs i.natAbs).map (fun d => Char.ofNat (48 + d))
    else (digs i.natAbs).map (fun d => Char.ofNat (48 + d)) := by
  unfold num digs
  simp only [Int.natAbs_eq_zero]

theorem num_numeral (i : Int) : ∀ c ∈ num i, Numeral c := by
  have h : ∀ c ∈ (digs i.natAbs).map (fun d => Char.ofNat (48 + d)), Numeral c := by
    intro c hc
    obtain ⟨d, hd, rfl⟩ := List.mem_map.1 hc
    exact (digit_numeral (digs_lt hd)).1
  rw [num_eq]
  split
  · intro c hc
    rcases List.mem_cons.1 hc with rfl | hc
    · decide
    · exact h c hc
  · exact h

theorem readNat_append (a b : List Char) (n : Nat) :
    (a ++ b).foldl (fun n c => 10 * n + (c.toNat - 48)) n = b.foldl (fun n c => 10 * n + (c.toNat - 48))
      (a.foldl (fun n c => 10 * n + (c.toNat - 48)) n) := List.foldl_append

theorem readNat_rev : ∀ l : List Nat, (∀ d ∈ l, d < 10) →
    readNat (l.reverse.map fun d => Char.ofNat (48 + d)) = Nat.ofDigits 10 l := by
  intro l
  induction l with
  | nil => intro _; rfl
  | cons d l ih =>
    intro h
    have hd := (digit_numeral (h d (by simp))).2.1
    have := ih fun e he => h e (by simp [he])
    unfold readNat at this ⊢
    rw [List.reverse_cons, List.map_append, readNat_append, this, Nat.ofDigits_cons]
    simp only [List.map_cons, List.map_nil, List.foldl_cons, List.foldl_nil, hd]
    push_cast
    ring

theorem readNat_digs (n : Nat) : readNat ((digs n).map fun d => Char.ofNat (48 + d)) = n := by
  unfold digs
  split
  · rename_i h; subst h; decide
  · rw [readNat_rev _ fun d hd => Nat.digits_lt_base (by norm_num) hd, Nat.ofDigits_digits]

theorem digs_ne (n : Nat) : digs n ≠ [] := by
  unfold digs
  split
  · simp
  · rename_i h
    rw [ne_eq, List.reverse_eq_nil_iff, Nat.digits_eq_nil_iff_eq_zero]
    exact h

/-- Reading a number back. -/
theorem readNat_num {i : Int} (h : 0 ≤ i) : (readNat (num i) : Int) = i := by
  rw [num_eq, if_neg (by omega), readNat_digs]
  omega

theorem num_inj {i j : Int} (h : num i = num j) : i = j := by
  have first : ∀ n : Nat, ∀ l, (digs n).map (fun d => Char.ofNat (48 + d)) ≠ '-' :: l := by
    intro n l e
    cases hd : digs n with
    | nil => exact digs_ne n hd
    | cons a r =>
      rw [hd, List.map_cons, List.cons.injEq] at e
      exact (digit_numeral (digs_lt (n := n) (by rw [hd]; simp))).2.2 e.1
  rw [num_eq, num_eq] at h
  split at h <;> split at h
  · rw [List.cons.injEq] at h
    have := congrArg readNat h.2
    rw [readNat_digs, readNat_digs] at this
    omega
  · exact absurd h.symm (first _ _)
  · exact absurd h (first _ _)
  · have := congrArg readNat h
    rw [readNat_digs, readNat_digs] at this
    omega

theorem split_at {c : Char} {a b r s : List Char} (ha : ∀ x ∈ a, x ≠ c) (hb : ∀ x ∈ b, x ≠ c) (h : a ++ c :: r = b ++ c :: s) :
    a = b ∧ r = s := by
  induction a generalizing b with
  | nil =>
    cases b with
    | nil => simpa using h
    | cons y b =>
      rw [List.nil_append, List.cons_append, List.cons.injEq] at h
      exact absurd h.1.symm (hb y (by simp))
  | cons x a ih =>
    cases b with
    | nil =>
      rw [List.nil_append, List.cons_append, List.cons.injEq] at h
      exact absurd h.1 (ha x (by simp))
    | cons y b =>
      rw [List.cons_append, List.cons_append, List.cons.injEq] at h
      obtain ⟨e1, e2⟩ := ih (fun z hz => ha z (by simp [hz])) (fun z hz => hb z (by simp [hz])) h.2
      rw [h.1, e1]
      exact ⟨rfl, e2⟩

theorem dateText_eq (d : Tm) (n : Int) : dateText d n = num (1900 + d.year) ++ '/' :: (num (1 + d.mon) ++ '/' :: (num d.mday ++ ' ' ::
    (num d.hour ++ ':' :: (num d.min ++ ':' :: (num d.sec ++ '.' :: num (n.tdiv 1000000)))))) := by
  simp [dateText]

/-- The text of a timestamp says, in this order, the year, month and day that counting days gives, the hour, minute and second
of that day, and the number of milliseconds; so times that differ by a millisecond have different texts. -/
theorem C128_str (t : Time) (ht : Norm t) (l : List Char) (hl : str t = some l) :
    (∃ x : Date, ∃ h m s ms : Int, x.Valid ∧ DayNo x (t.sec / 86400) ∧ t.sec % 86400 = h * 3600 + m * 60 + s ∧
      (0 ≤ h ∧ h < 24 ∧ 0 ≤ m ∧ m < 60 ∧ 0 ≤ s ∧ s < 60) ∧ ms = t.nsec / 10 ^ 6 ∧ ∃ a b c d e f g : List Char,
        l = a ++ '/' :: (b ++ '/' :: (c ++ ' ' :: (d ++ ':' :: (e ++ ':' :: (f ++ '.' :: g))))) ∧
        (0 ≤ x.y → (readNat a : Int) = x.y) ∧ (readNat b : Int) = x.m ∧ (readNat c : Int) = x.d ∧ (readNat d : Int) = h ∧
        (readNat e : Int) = m ∧ (readNat f : Int) = s ∧ (readNat g : Int) = ms) ∧
    ∀ t' : Time, Norm t' → str t' = some l → t'.sec = t.sec ∧ t'.nsec / 10 ^ 6 = t.nsec / 10 ^ 6 := by
  unfold str at hl
  obtain ⟨d, hd, hl⟩ := Option.map_eq_some_iff.1 hl
  obtain ⟨v, c, n, r⟩ := (C128_gmtime t.sec).1 d hd
  have hms : ∀ u : Time, Norm u → u.nsec.tdiv 1000000 = u.nsec / 10 ^ 6 := fun u hu => Int.tdiv_eq_ediv_of_nonneg hu.1
  constructor
  · obtain ⟨c1, c2, c3, c4, c5, c6⟩ := c
    obtain ⟨v1, v2, v3, v4⟩ := v
    simp only [Tm.date] at v1 v2 v3
    refine ⟨Tm.date d, d.hour, d.min, d.sec, t.nsec.tdiv 1000000, ⟨v1, v2, v3, v4⟩, n, r, ⟨c1, c2, c3, c4, c5, c6⟩, hms t ht, _, _, _, _, _, _, _,
      hl.symm.trans (dateText_eq d t.nsec), ?_, ?_, ?_, ?_, ?_, ?_, ?_⟩
    · exact fun h => readNat_num h
    · exact readNat_num (by omega)
    · exact readNat_num (by omega)
    · exact readNat_num c1
    · exact readNat_num c3
    · exact readNat_num c5
    · refine readNat_num ?_
      rw [hms t ht]
      have := ht.1
      omega
  · intro t' ht' hl'
    unfold str at hl'
    obtain ⟨d', hd', hl'⟩ := Option.map_eq_some_iff.1 hl'
    obtain ⟨v', c', n', r'⟩ := (C128_gmtime t'.sec).1 d' hd'
    have h := hl'.trans hl.symm
    rw [dateText_eq, dateText_eq] at h
    have sep : ∀ (i : Int) (c : Char), ¬ Numeral c → ∀ x ∈ num i, x ≠ c := by
      rintro i c hc x hx rfl
      exact hc (num_numeral i x hx)
    obtain ⟨e1, h⟩ := split_at (sep _ _ (by decide)) (sep _ _ (by decide)) h
    obtain ⟨e2, h⟩ := split_at (sep _ _ (by decide)) (sep _ _ (by decide)) h
    obtain ⟨e3, h⟩ := split_at (sep _ _ (by decide)) (sep _ _ (by decide)) h
    obtain ⟨e4, h⟩ := split_at (sep _ _ (by decide)) (sep _ _ (by decide)) h
    obtain ⟨e5, h⟩ := split_at (sep _ _ (by decide)) (sep _ _ (by decide)) h
    obtain ⟨e6, h⟩ := split_at (sep _ _ (by decide)) (sep _ _ (by decide)) h
    have e1 := num_inj e1
    have e2 := num_inj e2
    have e3 := num_inj e3
    have e4 := num_inj e4
    have e5 := num_inj e5
    have e6 := num_inj e6
    have e7 := num_inj h
    have ed : Tm.date d' = Tm.date d := by
      unfold Tm.date
      rw [e1, e2, e3]
    rw [dayNo_iff v'] at n'
    rw [dayNo_iff v] at n
    rw [ed] at n'
    refine ⟨?_, ?_⟩
    · have : t'.sec / 86400 = t.sec / 86400 := n'.symm.trans n
      omega
    · rw [← hms t ht, ← hms t' ht', e7]

/-- A log that was started 5 milliseconds after a full second. -/
example : str ⟨1583020800, 5000000⟩ = some "2020/3/1 0:0:0.5".toList ∧ str ⟨1583020800, 500000000⟩ = some "2020/3/1 0:0:0.500".toList := by
  decide +kernel

theorem frac_table : ∀ k : Fin 1000, (readFrac (num k.val) = (k.val : ℚ) / 1000 ↔ k.val = 0 ∨ 100 ≤ k.val) := by
  intro k
  have hk := k.isLt
  have hr : (readNat (num (k.val : Int)) : Int) = k.val := readNat_num (by omega)
  have hr' : readNat (num (k.val : Int)) = k.val := by exact_mod_cast hr
  have hl : (num (k.val : Int)).length = (digs k.val).length := by
    rw [num_eq, if_neg (by omega), List.length_map]
    rfl
  unfold readFrac
  rw [hr', hl]
  by_cases h0 : k.val = 0
  · rw [h0]
    norm_num
  · have hp : (0 : ℚ) < k.val := by exact_mod_cast Nat.pos_of_ne_zero h0
    have hd : (digs k.val).length = Nat.log 10 k.val + 1 := by
      unfold digs
      rw [if_neg h0, List.length_reverse, Nat.digits_len 10 k.val (by norm_num) h0]
    rw [hd, div_eq_div_iff (by positivity) (by norm_num), mul_right_inj' hp.ne']
    have e : ((1000 : ℚ) = 10 ^ (Nat.log 10 k.val + 1)) ↔ Nat.log 10 k.val = 2 := by
      constructor
      · intro h
        have h' : (10 : ℕ) ^ 3 = 10 ^ (Nat.log 10 k.val + 1) := by
          have : ((10 ^ 3 : ℕ) : ℚ) = ((10 ^ (Nat.log 10 k.val + 1) : ℕ) : ℚ) := by
            push_cast
            rw [← h]
          exact_mod_cast this
        have := Nat.pow_right_injective (le_refl 2 |>.trans (by norm_num : 2 ≤ 10)) h'
        omega
      · intro h
        rw [h]
        norm_num
    rw [e, Nat.log_eq_iff (by left; norm_num)]
    constructor
    · intro h
      right
      have := h.1
      omega
    · rintro (h | h)
      · exact absurd h h0
      · constructor <;> omega

/-- The digits behind the point, read as a decimal fraction, are the milliseconds exactly if there are none or at least 100:
the zeros in front of smaller numbers are missing. -/
theorem C128_fraction_violated (t : Time) (ht : Norm t) :
    (readFrac (num (t.nsec.tdiv 1000000)) = ((t.nsec / 10 ^ 6 : Int) : ℚ) / 1000 ↔ t.nsec / 10 ^ 6 = 0 ∨ 100 ≤ t.nsec / 10 ^ 6) := by
  obtain ⟨t0, t1⟩ := ht
  have e : t.nsec.tdiv 1000000 = t.nsec / 10 ^ 6 := Int.tdiv_eq_ediv_of_nonneg t0
  rw [e]
  obtain ⟨n, hn⟩ := Int.eq_ofNat_of_zero_le (show 0 ≤ t.nsec / 10 ^ 6 by omega)
  rw [hn]
  have := frac_table ⟨n, by omega⟩
  dsimp only at this
  rw [show (((n : Int) : ℚ)) = (n : ℚ) from by norm_cast, this]
  omega

/-- What one would want of the text: the seconds with their fraction can be read from it. -/
def C128_str_statement : Prop := ∀ t : Time, Norm t → ∀ l, str t = some l →
  readFrac (l.reverse.takeWhile (· ≠ '.')).reverse = ((t.nsec / 10 ^ 6 : Int) : ℚ) / 1000

theorem C128_str_statement_false : ¬ C128_str_statement := by
  intro h
  have := h ⟨1583020800, 5000000⟩ (by unfold Norm; decide) "2020/3/1 0:0:0.5".toList (by decide +kernel)
  revert this
  decide +kernel

theorem gmtime_1970 (s : Int) (d : Tm) (hd : gmtime s = some d) : d.year = 70 ↔ 0 ≤ s ∧ s < 31536000 := by
  obtain ⟨v, -, n, -⟩ := (C128_gmtime s).1 d hd
  rw [dayNo_iff v] at n
  obtain ⟨a, b⟩ := dayNum_bounds v
  rw [n] at a b
  have hy : (Tm.date d).y = 1900 + d.year := rfl
  have y0 : yearStart 1970 = 0 := by decide +kernel
  have y1 : yearStart 1971 = 365 := by decide +kernel
  constructor
  · intro h
    rw [hy, h] at a b
    have e : (1900 + 70 : Int) = 1970 := rfl
    have e' : (1900 + 70 + 1 : Int) = 1971 := rfl
    rw [e, y0] at a
    rw [e', y1] at b
    omega
  · rintro ⟨h1, h2⟩
    by_contra hne
    rcases lt_or_gt_of_ne hne with h | h
    · have := yearStart_mono (show (Tm.date d).y + 1 ≤ 1970 by rw [hy]; omega)
      omega
    · have := yearStart_mono (show 1971 ≤ (Tm.date d).y by rw [hy]; omega)
      omega

/-- Streaming a time: spans of less than 365 days are printed as seconds, everything else as a date. -/
theorem C128_print (t : Time) :
    (0 ≤ t.sec ∧ t.sec < 31536000 → print t = some (num t.sec ++ '.' :: num (t.nsec.tdiv 1000000))) ∧
    (¬ (0 ≤ t.sec ∧ t.sec < 31536000) → print t = str t) := by
  constructor
  · intro h
    cases hd : gmtime t.sec with
    | none =>
      exfalso
      have hn := (C128_gmtime t.sec).2.1 hd
      obtain ⟨v, n⟩ := dateOf_valid (t.sec / 86400)
      refine hn _ v ((dayNo_iff v _).2 n) ?_
      have h1 : yearOf (t.sec / 86400) = 1970 := by
        apply yearOf_unique
        · rw [show yearStart 1970 = 0 by decide +kernel]
          omega
        · rw [show yearStart (1970 + 1) = 365 by decide +kernel]
          omega
      show YearFits (yearOf (t.sec / 86400))
      rw [h1]
      decide
    | some d =>
      unfold print
      rw [hd, Option.map_some, if_pos ((gmtime_1970 _ _ hd).2 h)]
  · intro h
    unfold print str
    cases hd : gmtime t.sec with
    | none => rfl
    | some d => rw [Option.map_some, Option.map_some, if_neg (fun e => h ((gmtime_1970 _ _ hd).1 e))]

/-- Half a second less than nothing is printed as a date of 1969, five seconds and five milliseconds as 5.5. -/
theorem C128_print_violated : print ⟨-1, 500000000⟩ = some "1969/12/31 23:59:59.500".toList ∧
    print ⟨5, 5000000⟩ = some "5.5".toList ∧ print ⟨31536000, 0⟩ = some "1971/1/1 0:0:0.0".toList := by
  decide +kernel

/-- Printing the marker of an invalid time, or the smallest or the largest time, is undefined behaviour. -/
theorem C128_invalid_violated : str INVALID_TIME = none ∧ print INVALID_TIME = none ∧ str ⟨2 ^ 63 - 1, 0⟩ = none ∧
    print ⟨2 ^ 63 - 1, 0⟩ = none := by
  decide +kernel

/-- All times between the years 1 and 200000000 can be printed. -/
theorem C128_defined_partial (t : Time) (h0 : -62135596800 ≤ t.sec) (h1 : t.sec < 6 * 10 ^ 15) : (str t).isSome ∧ (print t).isSome := by
  have hd : gmtime t.sec ≠ none := by
    intro hd
    obtain ⟨v, n⟩ := dateOf_valid (t.sec / 86400)
    refine (C128_gmtime t.sec).2.1 hd _ v ((dayNo_iff v _).2 n) ?_
    obtain ⟨a, b⟩ := yearOf_spec (t.sec / 86400)
    show YearFits (yearOf (t.sec / 86400))
    unfold YearFits
    unfold yearStart leaps at a b
    omega
  obtain ⟨d, hd⟩ := Option.ne_none_iff_exists'.1 hd
  unfold str print
  rw [hd]
  exact ⟨rfl, rfl⟩

end Verif.Props.Calendar
