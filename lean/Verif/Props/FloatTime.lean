import Verif.Lemmas.Binary64
import Verif.Lemmas.Time
/-!
# C145, C146: timestamps in `double`s (common/utctime.*, common/quantized_time.*)
-/
namespace Verif.Props.FloatTime
open Verif.Utc Verif.TimeSpec Verif.Binary64 Verif.FTime

/-! ### C145: a number of seconds added to a time -/

/-- The product with 1e9 does not reach the next whole second. -/
theorem below {r : ℚ → ℚ} (hr : Nearest r) {s : ℚ} (hs : F s) {N : Int} (h0 : 0 ≤ s) (h1 : s < N)
    (hN : N ≤ 4611686018) : r (s * 1000000000) < N * 1000000000 := by
  have hN' : (N : ℚ) ≤ 4611686018 := by exact_mod_cast hN
  rcases le_or_gt s (1 / 2) with h | h
  · have hF : F ((500000000 : Int) : ℚ) := F_int (by norm_num)
    have a := hr.le_of_le (x := s * 1000000000) hF (by push_cast; linarith)
    have : (0 : ℚ) < N := by linarith
    have : 0 < N := by exact_mod_cast this
    have : (1 : ℚ) ≤ N := by exact_mod_cast this
    push_cast at a
    linarith
  · obtain ⟨m, e, hm, -, he⟩ := hs
    have hx : |s * 1000000000| = s * 1000000000 := abs_of_nonneg (by positivity)
    have herr := hr.rel (s * 1000000000) (by
      rw [hx]
      refine le_trans (?_ : _ ≤ (1 : ℚ)) (by linarith)
      rw [div_le_one (by positivity)]
      exact one_le_pow₀ (by norm_num))
    rw [hx, abs_le] at herr
    have p := two_zpow_pos e
    have gapd : s / 2 ^ 53 < N - s := by
      rcases le_or_gt 0 e with h2 | h2
      · obtain ⟨k, rfl⟩ : ∃ k : ℕ, e = k := ⟨e.toNat, by omega⟩
        rw [zpow_natCast] at he
        have e1 : s = ((m * 2 ^ k : Int) : ℚ) := by rw [he]; push_cast; ring
        rw [e1] at h1
        have : m * 2 ^ k + 1 ≤ N := by exact_mod_cast h1
        have h3 : s + 1 ≤ N := by rw [e1]; exact_mod_cast this
        rw [div_lt_iff₀ (by norm_num)]
        linarith
      · obtain ⟨k, rfl⟩ : ∃ k : ℕ, e = -k := ⟨(-e).toNat, by omega⟩
        rw [zpow_neg, zpow_natCast] at he p
        have q : (0 : ℚ) < 2 ^ k := by positivity
        have e1 : s * 2 ^ k = m := by rw [he]; field_simp
        have h3 : ((m : Int) : ℚ) < ((N * 2 ^ k : Int) : ℚ) := by
          rw [← e1]; push_cast; exact mul_lt_mul_of_pos_right h1 q
        have h4 : m + 1 ≤ N * 2 ^ k := by exact_mod_cast h3
        have h5 : s * 2 ^ k + 1 ≤ N * 2 ^ k := by rw [e1]; exact_mod_cast h4
        have h6 : (m : ℚ) < 2 ^ 53 := by
          have := (abs_lt.1 hm).2
          exact_mod_cast this
        rw [div_lt_iff₀ (by norm_num)]
        rw [← e1] at h6
        have h7 : s * 2 ^ k < (N - s) * 2 ^ 53 * 2 ^ k := by nlinarith
        exact lt_of_mul_lt_mul_right h7 q.le
    have : s * 1000000000 / 2 ^ 53 = s / 2 ^ 53 * 1000000000 := by ring
    rw [this] at herr
    linarith

/-- The whole seconds of the product are those of the number of seconds. -/
theorem whole_nonneg {r : ℚ → ℚ} (hr : Nearest r) {s : ℚ} (hs : F s) (h0 : 0 ≤ s)
    (h1 : s < 4611686018) :
    0 ≤ r (s * 1000000000) ∧
    ⌊r (s * 1000000000)⌋ / 1000000000 = ⌊s⌋ := by
  have f1 := Int.floor_le s
  have f2 := Int.lt_floor_add_one s
  have g0 : 0 ≤ ⌊s⌋ := Int.floor_nonneg.2 h0
  have g1 : ⌊s⌋ < 4611686018 := by rw [Int.floor_lt]; exact_mod_cast h1
  have a := below hr hs (N := ⌊s⌋ + 1) h0 (by push_cast; exact f2) (by omega)
  have hF : F ((⌊s⌋ * 1000000000 : Int) : ℚ) := by
    have := F_of_le (m := ⌊s⌋ * 1953125) (e := 9) (by rw [abs_le]; constructor <;> omega) (by norm_num)
    have e : ((⌊s⌋ * 1000000000 : Int) : ℚ) = ((⌊s⌋ * 1953125 : Int) : ℚ) * (2 : ℚ) ^ (9 : Int) := by
      have e9 : (2 : ℚ) ^ (9 : Int) = 512 := by norm_cast
      rw [e9]; push_cast; ring
    rw [e]; exact this
  have b := hr.ge_of_ge (x := s * 1000000000) hF (by push_cast; linarith)
  have h2 : 0 ≤ r (s * 1000000000) := by
    refine le_trans ?_ b
    have : (0 : Int) ≤ ⌊s⌋ * 1000000000 := by omega
    exact_mod_cast this
  refine ⟨h2, ?_⟩
  rw [Int.ediv_eq_iff_of_pos (by norm_num)]
  constructor
  · rw [Int.le_floor]; exact b
  · rw [Int.floor_lt]; push_cast at a ⊢; linarith

theorem trunc_neg (q : ℚ) : trunc (-q) = -trunc q := by
  unfold trunc
  rcases lt_trichotomy q 0 with h | h | h
  · rw [if_pos (by linarith), if_neg (by linarith), Int.floor_neg]
  · simp [h]
  · rw [if_neg (by linarith), if_pos h.le, Int.ceil_neg]

theorem whole {r : ℚ → ℚ} (hr : Nearest r) {s : ℚ} (hs : F s) (h1 : |s| < 4611686018) :
    (trunc (r (s * 1000000000))).tdiv 1000000000 = trunc s := by
  rw [abs_lt] at h1
  rcases le_or_gt 0 s with h | h
  · obtain ⟨a, b⟩ := whole_nonneg hr hs h h1.2
    unfold trunc
    rw [if_pos a, if_pos h, Int.tdiv_eq_ediv_of_nonneg (Int.floor_nonneg.2 a), b]
  · obtain ⟨a, b⟩ := whole_nonneg hr.neg (F_neg hs) (by linarith) (by linarith)
    simp only [neg_mul, neg_neg] at a b
    have c : trunc (-r (s * 1000000000)) = ⌊-r (s * 1000000000)⌋ := by unfold trunc; rw [if_pos a]
    have d : trunc (-s) = ⌊-s⌋ := by unfold trunc; rw [if_pos (by linarith)]
    rw [trunc_neg] at c d
    have e : trunc (r (s * 1000000000)) = -⌊-r (s * 1000000000)⌋ := by omega
    rw [e, Int.neg_tdiv, Int.tdiv_eq_ediv_of_nonneg (Int.floor_nonneg.2 a), b]
    omega

theorem trunc_int (n : Int) : trunc (n : ℚ) = n := by
  unfold trunc
  split
  · exact Int.floor_intCast n
  · exact Int.ceil_intCast n

theorem trunc_err (q : ℚ) : |(trunc q : ℚ) - q| < 1 := by
  unfold trunc
  split
  · have f1 := Int.floor_le q
    have f2 := Int.lt_floor_add_one q
    rw [abs_lt]; constructor <;> linarith
  · have f1 := Int.le_ceil q
    have f2 := Int.ceil_lt_add_one q
    rw [abs_lt]; constructor <;> linarith

theorem trunc_small {r : ℚ → ℚ} (hr : Nearest r) {s : ℚ} (h1 : |s| < 4611686018) :
    |trunc (r (s * 1000000000))| < 2 ^ 63 ∧
    |(trunc (r (s * 1000000000)) : ℚ) - s * 1000000000| < 1 + (|s| * 1000000000 + 1) / 2 ^ 53 := by
  have a := hr.abs_err (s * 1000000000) (|s| * 1000000000 + 1) (by
      refine le_trans (?_ : _ ≤ (1 : ℚ)) (by have := abs_nonneg s; linarith)
      rw [div_le_one (by positivity)]
      exact one_le_pow₀ (by norm_num)) (by rw [abs_mul]; norm_num)
  have b := trunc_err (r (s * 1000000000))
  have c : |(trunc (r (s * 1000000000)) : ℚ) - s * 1000000000| <
      1 + (|s| * 1000000000 + 1) / 2 ^ 53 := by
    refine lt_of_le_of_lt (abs_sub_le _ (r (s * 1000000000)) _) ?_
    linarith
  refine ⟨?_, c⟩
  have d : |(trunc (r (s * 1000000000)) : ℚ)| < 2 ^ 63 := by
    have e := abs_sub_abs_le_abs_sub (trunc (r (s * 1000000000)) : ℚ) (s * 1000000000)
    rw [abs_mul (s) 1000000000, abs_of_pos (by norm_num : (0 : ℚ) < 1000000000)] at e
    have : (|s| * 1000000000 + 1) / 2 ^ 53 < 1024 := by
      rw [div_lt_iff₀ (by norm_num)]; linarith
    linarith
  exact_mod_cast d

/-- The sum and the difference are those of the exact model at a truncated product. -/
theorem step {r : ℚ → ℚ} (hr : Nearest r) (t : Time) (s : ℚ) (ht : Norm t) (hm : Moderate t)
    (hs : F s) (h1 : |s| < 4611686018) :
    (∃ d, FTime.addSec r t s = some d ∧ Norm d ∧ instant d = instant t + trunc (r (s * 1000000000))) ∧
    (∃ d, FTime.subSec r t s = some d ∧ Norm d ∧
      instant d = instant t - trunc (r (s * 1000000000))) := by
  obtain ⟨t1, t2⟩ := ht
  obtain ⟨t3, t4⟩ := hm
  have hk := whole hr hs h1
  have hb := (trunc_small hr h1).1
  unfold FTime.addSec FTime.subSec
  generalize trunc (r (s * 1000000000)) = k at *
  rw [abs_lt] at hb
  have m1 := Int.tmod_add_mul_tdiv k 1000000000
  have m2 := tmod_bounds k
  have hi : ∀ x : Int, -2 ^ 63 ≤ x → x < 2 ^ 63 → i64 x = some x := fun x a b => if_pos ⟨a, b⟩
  rw [← hk]
  have m3 : -2 ^ 34 < k.tdiv 1000000000 ∧ k.tdiv 1000000000 < 2 ^ 34 := by omega
  simp only [E9, Option.bind_eq_bind]
  constructor
  · rw [hi k (by omega) (by omega), Option.bind_some,
      hi _ (by omega) (by omega), Option.bind_some,
      hi (k.tdiv 1000000000) (by omega) (by omega), Option.bind_some,
      hi _ (by omega) (by omega), Option.bind_some]
    obtain ⟨d, a, b, c⟩ := wrap_defined (t.sec + k.tdiv 1000000000)
      (t.nsec + k.tmod 1000000000) (by constructor <;> omega) (by constructor <;> omega)
    exact ⟨d, a, b, by rw [c]; unfold instant; omega⟩
  · rw [hi k (by omega) (by omega), Option.bind_some,
      hi _ (by omega) (by omega), Option.bind_some,
      hi (k.tdiv 1000000000) (by omega) (by omega), Option.bind_some,
      hi _ (by omega) (by omega), Option.bind_some]
    obtain ⟨d, a, b, c⟩ := wrap_defined (t.sec - k.tdiv 1000000000)
      (t.nsec - k.tmod 1000000000) (by constructor <;> omega) (by constructor <;> omega)
    exact ⟨d, a, b, by rw [c]; unfold instant; omega⟩

/-- **C145 (full statement, false).** A number of seconds added to, taken from, or turned into a
time gives a normalised time that is right to two nanoseconds. -/
def C145_statement : Prop :=
  ∀ r : ℚ → ℚ, Nearest r → ∀ (t : Time) (s : ℚ), Norm t → Moderate t → F s → |s| ≤ 9000000 →
    (∃ d, FTime.addSec r t s = some d ∧ Norm d ∧ |(instant d : ℚ) - (instant t + s * 10 ^ 9)| < 2) ∧
    (∃ d, FTime.subSec r t s = some d ∧ Norm d ∧ |(instant d : ℚ) - (instant t - s * 10 ^ 9)| < 2) ∧
    (∃ d, FTime.ofSec r s = some d ∧ Norm d ∧ |(instant d : ℚ) - s * 10 ^ 9| < 2)

/-- **C145.** For every rounding to nearest, every normalised time and every `double` below
4611686018 (146 years), the sum and the difference are normalised and are right to a nanosecond
and the rounding of the number of nanoseconds: no carry between seconds and nanoseconds is lost,
although the two are found from the number of seconds separately. -/
theorem C145_add {r : ℚ → ℚ} (hr : Nearest r) (t : Time) (s : ℚ) (ht : Norm t) (hm : Moderate t)
    (hs : F s) (h1 : |s| < 4611686018) :
    (∃ d, FTime.addSec r t s = some d ∧ Norm d ∧
      |(instant d : ℚ) - (instant t + s * 10 ^ 9)| < 1 + (|s| * 10 ^ 9 + 1) / 2 ^ 53) ∧
    (∃ d, FTime.subSec r t s = some d ∧ Norm d ∧
      |(instant d : ℚ) - (instant t - s * 10 ^ 9)| < 1 + (|s| * 10 ^ 9 + 1) / 2 ^ 53) := by
  obtain ⟨⟨d, a1, a2, a3⟩, ⟨e, b1, b2, b3⟩⟩ := step hr t s ht hm hs h1
  have h := (trunc_small hr h1).2
  have e9 : (10 : ℚ) ^ 9 = 1000000000 := by norm_num
  rw [e9]
  refine ⟨⟨d, a1, a2, ?_⟩, ⟨e, b1, b2, ?_⟩⟩
  · rw [a3]; push_cast
    rwa [add_sub_add_left_eq_sub]
  · rw [b3]; push_cast
    rwa [sub_sub_sub_cancel_left, abs_sub_comm]

/-- **C145.** Up to 104 days the error is below two nanoseconds. -/
theorem C145_short {r : ℚ → ℚ} (hr : Nearest r) (t : Time) (s : ℚ) (ht : Norm t) (hm : Moderate t)
    (hs : F s) (h1 : |s| ≤ 9000000) :
    (∃ d, FTime.addSec r t s = some d ∧ Norm d ∧ |(instant d : ℚ) - (instant t + s * 10 ^ 9)| < 2) ∧
    (∃ d, FTime.subSec r t s = some d ∧ Norm d ∧
      |(instant d : ℚ) - (instant t - s * 10 ^ 9)| < 2) := by
  have b : 1 + (|s| * 10 ^ 9 + 1) / 2 ^ 53 < 2 := by
    have : (|s| * 10 ^ 9 + 1) / 2 ^ 53 < 1 := by rw [div_lt_one (by norm_num)]; linarith
    linarith
  obtain ⟨⟨d, a1, a2, a3⟩, ⟨e, b1, b2, b3⟩⟩ := C145_add hr t s ht hm hs (by linarith)
  exact ⟨⟨d, a1, a2, a3.trans b⟩, ⟨e, b1, b2, b3.trans b⟩⟩

/-- **C145.** More seconds never give an earlier sum or a later difference. -/
theorem C145_monotone {r : ℚ → ℚ} (hr : Nearest r) (t : Time) (s s' : ℚ) (ht : Norm t)
    (hm : Moderate t) (hs : F s) (h1 : |s| < 4611686018) (hs' : F s') (h1' : |s'| < 4611686018)
    (h : s ≤ s') (d d' e e' : Time)
    (hd : FTime.addSec r t s = some d) (hd' : FTime.addSec r t s' = some d')
    (he : FTime.subSec r t s = some e) (he' : FTime.subSec r t s' = some e') :
    instant d ≤ instant d' ∧ instant e' ≤ instant e := by
  obtain ⟨⟨x, a1, -, a2⟩, ⟨y, a3, -, a4⟩⟩ := step hr t s ht hm hs h1
  obtain ⟨⟨x', b1, -, b2⟩, ⟨y', b3, -, b4⟩⟩ := step hr t s' ht hm hs' h1'
  have hmo : trunc (r (s * 1000000000)) ≤ trunc (r (s' * 1000000000)) :=
    trunc_mono (hr.mono (by linarith))
  rw [hd] at a1; rw [he] at a3; rw [hd'] at b1; rw [he'] at b3
  injection a1 with a1; injection a3 with a3; injection b1 with b1; injection b3 with b3
  subst a1 a3 b1 b3
  omega

/-- **C145.** Whole seconds are added and taken exactly. -/
theorem C145_whole {r : ℚ → ℚ} (hr : Nearest r) (t : Time) (n : Int) (ht : Norm t) (hm : Moderate t)
    (h1 : |n| < 4611686018) :
    (∃ d, FTime.addSec r t n = some d ∧ Norm d ∧ instant d = instant t + n * 10 ^ 9) ∧
    (∃ d, FTime.subSec r t n = some d ∧ Norm d ∧ instant d = instant t - n * 10 ^ 9) := by
  have hF : F (n : ℚ) := F_int (by rw [abs_lt] at h1; rw [abs_le]; omega)
  have h2 : |(n : ℚ)| < 4611686018 := by exact_mod_cast h1
  have hF' : F ((n : ℚ) * 1000000000) := by
    rw [abs_lt] at h1
    have := F_of_le (m := n * 1953125) (e := 9) (by rw [abs_le]; constructor <;> omega) (by norm_num)
    have e : (n : ℚ) * 1000000000 = ((n * 1953125 : Int) : ℚ) * (2 : ℚ) ^ (9 : Int) := by
      have e9 : (2 : ℚ) ^ (9 : Int) = 512 := by norm_cast
      rw [e9]; push_cast; ring
    rw [e]; exact this
  have hk : trunc (r ((n : ℚ) * 1000000000)) = n * 10 ^ 9 := by
    rw [hr.exact hF', show (n : ℚ) * 1000000000 = ((n * 10 ^ 9 : Int) : ℚ) by push_cast; norm_num]
    exact trunc_int _
  have := step hr t n ht hm hF h2
  rwa [hk] at this

/-- **C145.** The `double` nearest to `k` nanoseconds (as a literal of a program or a number of a
configuration is) adds and takes `k` nanoseconds or one less, never more. -/
theorem C145_decimal {r : ℚ → ℚ} (hr : Nearest r) (t : Time) (k : ℕ) (ht : Norm t) (hm : Moderate t)
    (h1 : k ≤ 2 ^ 50) :
    (∃ d, FTime.addSec r t (r (k / 10 ^ 9)) = some d ∧ Norm d ∧
      (instant d = instant t + k ∨ instant d = instant t + k - 1)) ∧
    (∃ d, FTime.subSec r t (r (k / 10 ^ 9)) = some d ∧ Norm d ∧
      (instant d = instant t - k ∨ instant d = instant t - k + 1)) := by
  have e9 : (10 : ℚ) ^ 9 = 1000000000 := by norm_num
  rw [e9]
  have hkq : (k : ℚ) ≤ 2 ^ 50 := by exact_mod_cast h1
  have hk0 : (0 : ℚ) ≤ k := by positivity
  have hmem := hr.mem ((k : ℚ) / 1000000000)
  have hs0 : 0 ≤ r ((k : ℚ) / 1000000000) := by
    have h0 : F 0 := by simpa using F_int (n := 0) (by norm_num)
    exact hr.ge_of_ge h0 (by positivity)
  have one : (1 : ℚ) / 2 ^ 900 ≤ 1 := by
    rw [div_le_one (by positivity)]; exact one_le_pow₀ (by norm_num)
  have herr := hr.abs_err ((k : ℚ) / 1000000000) (k / 1000000000 + 1) (by linarith [div_nonneg hk0 (by norm_num : (0 : ℚ) ≤ 1000000000)])
    (by rw [abs_of_nonneg (by positivity)]; linarith)
  generalize hs : r ((k : ℚ) / 1000000000) = s at *
  have hsk : |s * 1000000000 - k| ≤ 1 / 4 := by
    have e : s * 1000000000 - k = (s - k / 1000000000) * 1000000000 := by field_simp
    rw [e, abs_mul, abs_of_pos (by norm_num : (0 : ℚ) < 1000000000)]
    refine le_trans (mul_le_mul_of_nonneg_right herr (by norm_num)) ?_
    rw [div_mul_eq_mul_div, div_le_iff₀ (by norm_num)]
    linarith
  rw [abs_le] at hsk
  have hs1 : |s| < 4611686018 := by
    rw [abs_of_nonneg hs0]; linarith
  have herr' := hr.abs_err (s * 1000000000) (k + 1) (by linarith)
    (by rw [abs_of_nonneg (by positivity)]; linarith)
  have hq : |r (s * 1000000000) - s * 1000000000| ≤ 1 / 4 := by
    refine le_trans herr' ?_
    rw [div_le_iff₀ (by norm_num)]
    linarith
  rw [abs_le] at hq
  have hr0 : 0 ≤ r (s * 1000000000) := by
    have h0 : F 0 := by simpa using F_int (n := 0) (by norm_num)
    exact hr.ge_of_ge h0 (by positivity)
  have hK : trunc (r (s * 1000000000)) = k ∨ trunc (r (s * 1000000000)) = k - 1 := by
    unfold trunc
    rw [if_pos hr0]
    have a : (k : Int) - 1 ≤ ⌊r (s * 1000000000)⌋ := by rw [Int.le_floor]; push_cast; linarith
    have b : ⌊r (s * 1000000000)⌋ < (k : Int) + 1 := by rw [Int.floor_lt]; push_cast; linarith
    omega
  obtain ⟨⟨d, a1, a2, a3⟩, ⟨e, b1, b2, b3⟩⟩ := step hr t s ht hm hmem hs1
  exact ⟨⟨d, a1, a2, by omega⟩, ⟨e, b1, b2, by omega⟩⟩

/-- **C145.** The instant of a time made from seconds is the one of the sum with the epoch, and
the time is normalised when the seconds are not negative. -/
theorem C145_ofSec {r : ℚ → ℚ} (hr : Nearest r) (s : ℚ) (hs : F s) (h1 : |s| < 4611686018) :
    ∃ d, FTime.ofSec r s = some d ∧ |(instant d : ℚ) - s * 10 ^ 9| < 1 + (|s| * 10 ^ 9 + 1) / 2 ^ 53 ∧
      (0 ≤ s → Norm d) := by
  have hk := whole hr hs h1
  have hb := trunc_small hr h1
  have h0 : 0 ≤ s → 0 ≤ trunc (r (s * 1000000000)) := by
    intro h
    have := (whole_nonneg hr hs h (abs_lt.1 h1).2).1
    unfold trunc; rw [if_pos this]; exact Int.floor_nonneg.2 this
  have e9 : (10 : ℚ) ^ 9 = 1000000000 := by norm_num
  rw [e9]
  unfold FTime.ofSec
  generalize trunc (r (s * 1000000000)) = k at *
  have hb1 := hb.1
  rw [abs_lt] at hb1
  have m1 := Int.tmod_add_mul_tdiv k 1000000000
  have m2 := tmod_bounds k
  have m3 : -2 ^ 34 < k.tdiv 1000000000 ∧ k.tdiv 1000000000 < 2 ^ 34 := by omega
  have hi : ∀ x : Int, -2 ^ 63 ≤ x → x < 2 ^ 63 → i64 x = some x := fun x a b => if_pos ⟨a, b⟩
  rw [← hk]
  simp only [E9, Option.bind_eq_bind]
  rw [hi (k.tdiv 1000000000) (by omega) (by omega), Option.bind_some, hi k (by omega) (by omega),
    Option.bind_some]
  refine ⟨_, rfl, ?_, ?_⟩
  · have : instant ⟨k.tdiv 1000000000, k.tmod 1000000000⟩ = k := by simp only [instant]; omega
    rw [this]; exact hb.2
  · intro h
    have := h0 h
    have h3 := Int.tmod_nonneg 1000000000 this
    exact ⟨h3, by simp only; omega⟩

/-- **C145 violated**: a time made from a negative number of seconds that is not whole is not
normalised. -/
theorem C145_negative_violated {r : ℚ → ℚ} (hr : Nearest r) :
    FTime.ofSec r (-1 / 2) = some ⟨0, -500000000⟩ ∧ ¬ Norm ⟨0, -500000000⟩ ∧
    lt ⟨-1, 600000000⟩ ⟨0, -500000000⟩ = true ∧
    instant ⟨0, -500000000⟩ < instant ⟨-1, 600000000⟩ := by
  refine ⟨?_, fun h => absurd h.1 (by decide), by decide, by decide⟩
  have hF : F ((-500000000 : Int) : ℚ) := F_int (by norm_num)
  have e : (-1 / 2 : ℚ) * 1000000000 = ((-500000000 : Int) : ℚ) := by norm_num
  unfold FTime.ofSec
  rw [e, hr.exact hF]
  unfold trunc
  norm_num
  decide

theorem C145_statement_false : ¬ C145_statement := by
  intro h
  have hF : F (-1 / 2) := ⟨-1, -1, by norm_num, by norm_num, by norm_num⟩
  obtain ⟨-, -, d, h1, h2, -⟩ := h rnd rnd_nearest ⟨0, 0⟩ (-1 / 2) (by constructor <;> decide)
    (by constructor <;> norm_num) hF (by rw [abs_of_neg] <;> norm_num)
  have h3 := C145_negative_violated rnd_nearest
  rw [h3.1] at h1
  injection h1 with h1
  subst h1
  exact h3.2.1 h2

/-- **C145.** The nanosecond may be lost: the `double` nearest to 15 ns adds 14 ns, and the one
nearest to 15.7 ms adds 15699999 ns. -/
theorem C145_decimal_lost {r : ℚ → ℚ} (hr : Nearest r) :
    FTime.addSec r ⟨100, 0⟩ (r (15 / 1000000000)) = some ⟨100, 14⟩ ∧
    FTime.addSec r ⟨100, 0⟩ (r (157 / 10000)) = some ⟨100, 15699999⟩ := by
  have a : r (15 / 1000000000) = (4533471823554859 : Int) * (2 : ℚ) ^ (-78 : Int) :=
    hr.eq_of (by norm_num) (by norm_num) (by norm_num) (by rw [abs_lt]; norm_num)
  have b : r ((4533471823554859 : Int) * (2 : ℚ) ^ (-78 : Int) * 1000000000) =
      (8444249301319679 : Int) * (2 : ℚ) ^ (-49 : Int) :=
    hr.eq_of (by norm_num) (by norm_num) (by norm_num) (by rw [abs_lt]; norm_num)
  have c : r (157 / 10000) = (4525216905581874 : Int) * (2 : ℚ) ^ (-58 : Int) :=
    hr.eq_of (by norm_num) (by norm_num) (by norm_num) (by rw [abs_lt]; norm_num)
  have d : r ((4525216905581874 : Int) * (2 : ℚ) ^ (-58 : Int) * 1000000000) =
      (8428873318399999 : Int) * (2 : ℚ) ^ (-29 : Int) :=
    hr.eq_of (by norm_num) (by norm_num) (by norm_num) (by rw [abs_lt]; norm_num)
  unfold FTime.addSec
  rw [a, b, c, d]
  unfold trunc
  norm_num
  decide

/-- **C145.** The steps of 10 ms of the simulation and of the maintenance callback are exact. -/
theorem C145_centisecond {r : ℚ → ℚ} (hr : Nearest r) (t : Time) (ht : Norm t) (hm : Moderate t) :
    ∃ d, FTime.addSec r t (r (1 / 100)) = some d ∧ Norm d ∧ instant d = instant t + 10000000 := by
  have a : r (1 / 100) = (5764607523034235 : Int) * (2 : ℚ) ^ (-59 : Int) :=
    hr.eq_of (by norm_num) (by norm_num) (by norm_num) (by rw [abs_lt]; norm_num)
  have b : r (r (1 / 100) * 1000000000) = (5368709120000000 : Int) * (2 : ℚ) ^ (-29 : Int) := by
    rw [a]
    exact hr.eq_of (by norm_num) (by norm_num) (by norm_num) (by rw [abs_lt]; norm_num)
  have c : trunc (r (r (1 / 100) * 1000000000)) = 10000000 := by
    rw [b]; unfold trunc; norm_num
  have h := (step hr t (r (1 / 100)) ht hm (hr.mem _) (by rw [a, abs_lt]; norm_num)).1
  rwa [c] at h

/-- **C145.** The bound of 146 years is where it ends: 4611686021 seconds, added with ties to
even, add a second too many but for 512 ns. -/
theorem C145_beyond : FTime.addSec rnd ⟨100, 0⟩ 4611686021 = some ⟨4611686121, 999999488⟩ ∧
    F 4611686021 := by
  constructor
  · have h : rnd (4611686021 * 1000000000) = 4611686020999999488 := by
      have hl : Int.log 2 |(4611686021 * 1000000000 : ℚ)| = 62 := by
        rw [abs_of_pos (by norm_num)]
        apply le_antisymm
        · have := (Int.lt_zpow_iff_log_lt (b := 2) (by norm_num)
            (r := (4611686021 * 1000000000 : ℚ)) (x := 63) (by norm_num)).1 (by norm_num)
          omega
        · exact (Int.zpow_le_iff_le_log (b := 2) (by norm_num) (by norm_num)).1 (by norm_num)
      have he : expo (4611686021 * 1000000000) = 10 := by unfold expo; rw [hl]; rfl
      unfold rnd
      rw [he]
      unfold rint
      norm_num
    unfold FTime.addSec
    rw [h]
    unfold trunc
    norm_num
    decide
  · have := F_int (n := 4611686021) (by norm_num)
    exact_mod_cast this

/-- A quarter of a second before 10.1 s, with the rounding of the hardware: the hypotheses hold. -/
example : Nearest rnd ∧ F (-1 / 4) ∧ Norm ⟨10, 100000000⟩ ∧ Moderate ⟨10, 100000000⟩ ∧
    FTime.addSec rnd ⟨10, 100000000⟩ (-1 / 4) = some ⟨9, 850000000⟩ := by
  refine ⟨rnd_nearest, ⟨-1, -2, by norm_num, by norm_num, by norm_num⟩, by constructor <;> decide,
    by constructor <;> norm_num, ?_⟩
  have hF : F ((-250000000 : Int) : ℚ) := F_int (by norm_num)
  have e : (-1 / 4 : ℚ) * 1000000000 = ((-250000000 : Int) : ℚ) := by norm_num
  unfold FTime.addSec
  rw [e, rnd_nearest.exact hF]
  unfold trunc
  norm_num
  decide

end Verif.Props.FloatTime
