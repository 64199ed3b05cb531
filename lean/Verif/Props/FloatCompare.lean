import Verif.Props.FloatTime
/-!
# C146: differences of times in `double`s (common/utctime.cxx, common/quantized_time.cxx,
tools/post_process.cxx)
-/
namespace Verif.Props.FloatCompare
open Verif.Utc Verif.TimeSpec Verif.Binary64 Verif.FTime Verif.Props.FloatTime

/-- The `double` of a nanosecond. -/
def c : ℚ := (4835703278458517 : Int) * (2 : ℚ) ^ (-82 : Int)

theorem nano {r : ℚ → ℚ} (hr : Nearest r) : r (1 / 1000000000) = c :=
  hr.eq_of (by norm_num) (by norm_num) (by norm_num) (by rw [abs_lt]; norm_num)

theorem half_eq {r : ℚ → ℚ} (hr : Nearest r) :
    half r = (7378697629483821 : Int) * (2 : ℚ) ^ (-67 : Int) := by
  have a : r (1 / 10000) = (7378697629483821 : Int) * (2 : ℚ) ^ (-66 : Int) :=
    hr.eq_of (by norm_num) (by norm_num) (by norm_num) (by rw [abs_lt]; norm_num)
  unfold half
  rw [a]
  exact hr.eq_of (by norm_num) (by norm_num) (by norm_num) (by rw [abs_lt]; norm_num)

theorem F_half {r : ℚ → ℚ} (hr : Nearest r) : F (half r) := hr.mem _

/-- The sum of `toSec` from the rounded seconds. -/
def S (r : ℚ → ℚ) (fma : Bool) (a : ℚ) (n : Int) : ℚ :=
  if fma then r (a + n * c) else r (a + r (n * c))

theorem toSec_S {r : ℚ → ℚ} (hr : Nearest r) (fma : Bool) (d : Time) (hd : Norm d) :
    toSec r fma d = S r fma (r d.sec) d.nsec := by
  have : r (d.nsec : ℚ) = d.nsec := hr.exact (F_int (by
    obtain ⟨h1, h2⟩ := hd
    rw [abs_le]; constructor <;> omega))
  unfold toSec S
  rw [this, nano hr]

theorem c_pos : 0 < c := by unfold c; norm_num

theorem S_mono {r : ℚ → ℚ} (hr : Nearest r) (fma : Bool) {a b : ℚ} {m n : Int} (h : a ≤ b)
    (h' : m ≤ n) : S r fma a m ≤ S r fma b n := by
  have h2 : (m : ℚ) ≤ n := by exact_mod_cast h'
  have h3 : (m : ℚ) * c ≤ n * c := mul_le_mul_of_nonneg_right h2 c_pos.le
  have h4 := hr.mono h3
  unfold S
  split
  · exact hr.mono (by linarith)
  · exact hr.mono (by linarith)

theorem F_zero : F 0 := by simpa using F_int (n := 0) (by norm_num)

theorem S_zero {r : ℚ → ℚ} (hr : Nearest r) (fma : Bool) {a : ℚ} (ha : F a) : S r fma a 0 = a := by
  unfold S
  rw [Int.cast_zero, zero_mul, hr.exact F_zero, add_zero, hr.exact ha]
  simp

theorem S_low {r : ℚ → ℚ} (hr : Nearest r) (fma : Bool) {a : ℚ} {s n : Int} (ha : |s| ≤ 2 ^ 53)
    (h : (s : ℚ) ≤ a) (hn : 0 ≤ n) : (s : ℚ) ≤ S r fma a n := by
  rw [← S_zero hr fma (F_int ha)]
  exact S_mono hr fma h hn

theorem S_high {r : ℚ → ℚ} (hr : Nearest r) (fma : Bool) {a : ℚ} {s n : Int} (ha : |s + 1| ≤ 2 ^ 53)
    (h : a ≤ s) (hn : n < 1000000000) : S r fma a n ≤ (s : ℚ) + 1 := by
  have h1 : (n : ℚ) ≤ 999999999 := by
    have : n ≤ 999999999 := by omega
    exact_mod_cast this
  have h2 : (n : ℚ) * c ≤ 1 := by
    refine le_trans (mul_le_mul_of_nonneg_right h1 c_pos.le) ?_
    unfold c; norm_num
  have hF := F_int ha
  have h3 : r (n * c) ≤ 1 := by
    have := F_int (n := 1) (by norm_num)
    have := hr.le_of_le this (x := n * c) (by push_cast; exact h2)
    exact_mod_cast this
  push_cast at hF
  unfold S
  split
  · exact hr.le_of_le hF (by linarith)
  · exact hr.le_of_le hF (by linarith)

theorem r_sec_ge {r : ℚ → ℚ} (hr : Nearest r) {s T : Int} (hT : |T| ≤ 2 ^ 53) (h : T ≤ s) :
    (T : ℚ) ≤ r s := hr.ge_of_ge (F_int hT) (by exact_mod_cast h)

theorem r_sec_le {r : ℚ → ℚ} (hr : Nearest r) {s T : Int} (hT : |T| ≤ 2 ^ 53) (h : s ≤ T) :
    r s ≤ (T : ℚ) := hr.le_of_le (F_int hT) (by exact_mod_cast h)

/-- The comparison of the rounded difference with whole seconds from above. -/
theorem gt_whole {r : ℚ → ℚ} (hr : Nearest r) (fma : Bool) (d : Time) (hd : Norm d) (T : Int)
    (hT : |T| ≤ 4000000) : toSec r fma d > T ↔ toSecNs d > T * 1000000000 := by
  obtain ⟨h0, h1⟩ := hd
  rw [toSec_S hr fma d ⟨h0, h1⟩]
  have hTq : |(T : ℚ)| ≤ 4000000 := by exact_mod_cast hT
  rw [abs_le] at hT
  have hF : ∀ x : Int, -4000010 ≤ x → x ≤ 4000010 → |x| ≤ 2 ^ 53 := by
    intro x a b; rw [abs_le]; constructor <;> omega
  unfold toSecNs
  rcases lt_trichotomy d.sec T with h | h | h
  · refine iff_of_false ?_ (by omega)
    have a := r_sec_le hr (hF (T - 1) (by omega) (by omega)) (by omega : d.sec ≤ T - 1)
    have b := S_high hr fma (s := T - 1) (n := d.nsec) (hF _ (by omega) (by omega)) a (by omega)
    push_cast at b
    linarith
  · rw [h]
    rcases eq_or_lt_of_le h0 with e | e
    · refine iff_of_false ?_ (by omega)
      rw [← e, hr.exact (F_int (hF T (by omega) (by omega))), S_zero hr fma (F_int (hF T (by omega) (by omega)))]
      exact lt_irrefl _
    · refine iff_of_true ?_ (by omega)
      rw [hr.exact (F_int (hF T (by omega) (by omega)))]
      refine lt_of_lt_of_le ?_ (S_mono hr fma (le_refl _) (by omega : (1 : Int) ≤ d.nsec))
      have hc : r c = c := hr.exact (by rw [← nano hr]; exact hr.mem _)
      have e : S r fma T 1 = r (T + c) := by unfold S; rw [Int.cast_one, one_mul, hc]; simp
      rw [e]
      have hb := hr.abs_err (T + c) 4000001 (by
        refine le_trans (?_ : _ ≤ (1 : ℚ)) (by norm_num)
        rw [div_le_one (by positivity)]; exact one_le_pow₀ (by norm_num)) (by
        rw [abs_le] at hTq ⊢
        unfold c; norm_num at hTq ⊢; constructor <;> linarith)
      rw [abs_le] at hb
      unfold c at hb ⊢
      norm_num at hb ⊢
      linarith [hb.1]
  · refine iff_of_true ?_ (by omega)
    have a := r_sec_ge hr (hF (T + 1) (by omega) (by omega)) (by omega : T + 1 ≤ d.sec)
    have b := S_low hr fma (hF (T + 1) (by omega) (by omega)) a h0
    push_cast at b
    linarith

/-- The comparison of the rounded difference with whole seconds from below. -/
theorem lt_whole {r : ℚ → ℚ} (hr : Nearest r) (fma : Bool) (d : Time) (hd : Norm d) (T : Int)
    (hT : |T| ≤ 4000000) : toSec r fma d < T ↔ toSecNs d < T * 1000000000 := by
  obtain ⟨h0, h1⟩ := hd
  rw [toSec_S hr fma d ⟨h0, h1⟩]
  have hTq : |(T : ℚ)| ≤ 4000000 := by exact_mod_cast hT
  rw [abs_le] at hT
  have hF : ∀ x : Int, -4000010 ≤ x → x ≤ 4000010 → |x| ≤ 2 ^ 53 := by
    intro x a b; rw [abs_le]; constructor <;> omega
  unfold toSecNs
  rcases le_or_gt T d.sec with h | h
  · refine iff_of_false ?_ (by omega)
    have a := r_sec_ge hr (hF T (by omega) (by omega)) h
    have b := S_low hr fma (hF T (by omega) (by omega)) a h0
    linarith
  · refine iff_of_true ?_ (by omega)
    have a := r_sec_le hr (hF (T - 1) (by omega) (by omega)) (by omega : d.sec ≤ T - 1)
    refine lt_of_le_of_lt (S_mono hr fma a (by omega : d.nsec ≤ 999999999)) ?_
    have one : (1 : ℚ) / 2 ^ 900 ≤ 1 := by
      rw [div_le_one (by positivity)]; exact one_le_pow₀ (by norm_num)
    have hy := hr.abs_err (999999999 * c) 2 (by linarith) (by unfold c; rw [abs_le]; norm_num)
    have key : ∀ y : ℚ, |y - 999999999 * c| ≤ 2 / 2 ^ 53 → r ((T - 1 : Int) + y) < T := by
      intro y hy
      rw [abs_le] at hy
      have hy2 : y ≤ 1 ∧ 0 ≤ y := by
        unfold c at hy; norm_num at hy; constructor <;> linarith [hy.1, hy.2]
      have hb := hr.abs_err ((T - 1 : Int) + y) 4000002 (by linarith) (by
        rw [abs_le] at hTq ⊢
        push_cast; constructor <;> linarith)
      rw [abs_le] at hb
      unfold c at hy
      push_cast at hb ⊢
      norm_num at hb hy ⊢
      linarith [hb.2, hy.2]
    have e9 : ((999999999 : Int) : ℚ) = 999999999 := by norm_num
    unfold S
    rw [e9]
    split
    · exact key _ (by rw [sub_self, abs_zero]; norm_num)
    · exact key _ hy

/-- The comparison of the rounded difference with half the resolution from above. -/
theorem gt_half {r : ℚ → ℚ} (hr : Nearest r) (fma : Bool) (d : Time) (hd : Norm d) :
    toSec r fma d > half r ↔ toSecNs d > 50000 := by
  obtain ⟨h0, h1⟩ := hd
  rw [toSec_S hr fma d ⟨h0, h1⟩]
  have hh : 0 < half r ∧ half r < 1 := by rw [half_eq hr]; norm_num
  unfold toSecNs
  rcases lt_trichotomy d.sec 0 with h | h | h
  · refine iff_of_false ?_ (by omega)
    have a := r_sec_le hr (T := -1) (by norm_num) (by omega : d.sec ≤ -1)
    have b := S_high hr fma (s := -1) (n := d.nsec) (by norm_num) a (by omega)
    push_cast at b
    linarith
  · rw [h, Int.cast_zero, hr.exact F_zero]
    have e : ∀ n : Int, S r fma 0 n = r (n * c) := by
      intro n; unfold S; rw [zero_add, zero_add, hr.exact (hr.mem _)]; simp
    rcases le_or_gt d.nsec 50000 with k | k
    · refine iff_of_false ?_ (by omega)
      have a : S r fma 0 50000 = half r := by
        rw [e, half_eq hr]
        exact hr.eq_of (by norm_num) (by norm_num) (by norm_num) (by unfold c; rw [abs_lt]; norm_num)
      have := S_mono hr fma (le_refl (0 : ℚ)) k
      rw [a] at this
      exact not_lt.2 this
    · refine iff_of_true ?_ (by omega)
      refine lt_of_lt_of_le ?_ (S_mono hr fma (le_refl (0 : ℚ)) (by omega : 50001 ≤ d.nsec))
      rw [e, half_eq hr]
      have : r ((50001 : Int) * c) = (7378845203436411 : Int) * (2 : ℚ) ^ (-67 : Int) :=
        hr.eq_of (by norm_num) (by norm_num) (by norm_num) (by unfold c; rw [abs_lt]; norm_num)
      rw [this]
      norm_num
  · refine iff_of_true ?_ (by omega)
    have a := r_sec_ge hr (T := 1) (by norm_num) (by omega : 1 ≤ d.sec)
    have b := S_low hr fma (by norm_num) a h0
    push_cast at b
    linarith

/-- The comparison of the rounded difference with half the resolution from below. -/
theorem lt_half {r : ℚ → ℚ} (hr : Nearest r) (fma : Bool) (d : Time) (hd : Norm d) :
    toSec r fma d < -half r ↔ toSecNs d < -50000 := by
  obtain ⟨h0, h1⟩ := hd
  rw [toSec_S hr fma d ⟨h0, h1⟩]
  have hh : 0 < half r ∧ half r < 1 := by rw [half_eq hr]; norm_num
  unfold toSecNs
  rcases lt_trichotomy d.sec (-1) with h | h | h
  · refine iff_of_true ?_ (by omega)
    have a := r_sec_le hr (T := -2) (by norm_num) (by omega : d.sec ≤ -2)
    have b := S_high hr fma (s := -2) (n := d.nsec) (by norm_num) a (by omega)
    push_cast at b
    linarith
  · rw [h, hr.exact (F_int (n := -1) (by norm_num))]
    rcases le_or_gt 999950000 d.nsec with k | k
    · refine iff_of_false ?_ (by omega)
      have a : -half r ≤ S r fma ((-1 : Int) : ℚ) 999950000 := by
        have hy : r ((999950000 : Int) * c) = (9006748894778256 : Int) * (2 : ℚ) ^ (-53 : Int) :=
          hr.eq_of (by norm_num) (by norm_num) (by norm_num) (by unfold c; rw [abs_lt]; norm_num)
        unfold S
        split
        · refine hr.ge_of_ge (F_neg (F_half hr)) ?_
          rw [half_eq hr]; unfold c; norm_num
        · refine hr.ge_of_ge (F_neg (F_half hr)) ?_
          rw [hy, half_eq hr]; norm_num
      exact not_lt.2 (le_trans a (S_mono hr fma (le_refl _) k))
    · refine iff_of_true ?_ (by omega)
      refine lt_of_le_of_lt (S_mono hr fma (le_refl _) (by omega : d.nsec ≤ 999949999)) ?_
      have hF : F ((-7378700000000000 : Int) * (2 : ℚ) ^ (-67 : Int)) :=
        F_of_le (by norm_num) (by norm_num)
      refine lt_of_le_of_lt (?_ : _ ≤ ((-7378700000000000 : Int) : ℚ) * (2 : ℚ) ^ (-67 : Int)) (by
        rw [half_eq hr]; norm_num)
      have hy : r ((999949999 : Int) * c) = (9006748885771056 : Int) * (2 : ℚ) ^ (-53 : Int) :=
        hr.eq_of (by norm_num) (by norm_num) (by norm_num) (by unfold c; rw [abs_lt]; norm_num)
      unfold S
      split
      · exact hr.le_of_le hF (by unfold c; norm_num)
      · exact hr.le_of_le hF (by rw [hy]; norm_num)
  · refine iff_of_false ?_ (by omega)
    have a := r_sec_ge hr (T := 0) (by norm_num) (by omega : 0 ≤ d.sec)
    have b := S_low hr fma (by norm_num) a h0
    push_cast at b
    linarith

theorem abs_half {r : ℚ → ℚ} (hr : Nearest r) (fma : Bool) (d : Time) (hd : Norm d) :
    |toSec r fma d| > half r ↔ (toSecNs d).natAbs > 50000 := by
  have a := gt_half hr fma d hd
  have b := lt_half hr fma d hd
  constructor
  · intro h
    rcases lt_abs.1 h with h | h
    · have := a.1 h; omega
    · have := b.1 (by linarith); omega
  · intro h
    rcases le_or_gt 0 (toSecNs d) with k | k
    · exact lt_abs.2 (Or.inl (a.2 (by omega)))
    · have := b.2 (by omega)
      exact lt_abs.2 (Or.inr (by linarith))

/-- **C146.** For every rounding to nearest, with or without fused operations, the twelve
comparisons of quantised times in `double`s are the exact ones: `t` is after `q` when it is more
than 50000 ns later, and equal when it is at most 50000 ns away, on either side. -/
theorem C146_quantised {r : ℚ → ℚ} (hr : Nearest r) (fma : Bool) (q t : Time) (hq : Norm q)
    (ht : Norm t) (h1 : -2 ^ 63 < q.sec - t.sec) (h2 : q.sec - t.sec < 2 ^ 63) :
    FTime.qgt r fma q t = some (decide (instant q - instant t > 50000)) ∧
    FTime.qge r fma q t = some (decide (instant t - instant q ≤ 50000)) ∧
    FTime.qlt r fma q t = some (decide (instant t - instant q > 50000)) ∧
    FTime.qle r fma q t = some (decide (instant q - instant t ≤ 50000)) ∧
    FTime.qeq r fma q t = some (decide (|instant q - instant t| ≤ 50000)) ∧
    FTime.qne r fma q t = some (decide (|instant q - instant t| > 50000)) ∧
    FTime.gtq r fma t q = some (decide (instant t - instant q > 50000)) ∧
    FTime.geq r fma t q = some (decide (instant q - instant t ≤ 50000)) ∧
    FTime.ltq r fma t q = some (decide (instant q - instant t > 50000)) ∧
    FTime.leq r fma t q = some (decide (instant t - instant q ≤ 50000)) ∧
    FTime.eqq r fma t q = some (decide (|instant t - instant q| ≤ 50000)) ∧
    FTime.neq r fma t q = some (decide (|instant t - instant q| > 50000)) := by
  obtain ⟨d, a1, a2, a3⟩ := sub_defined q t hq ht ⟨h1, h2⟩
  obtain ⟨e, b1, b2, b3⟩ := sub_defined t q ht hq ⟨by omega, by omega⟩
  have d1 := gt_half hr fma d a2
  have d2 := abs_half hr fma d a2
  have e1 := gt_half hr fma e b2
  have e2 := abs_half hr fma e b2
  have hd : toSecNs d = instant q - instant t := by
    rw [← a3]; unfold toSecNs instant; norm_num
  have he : toSecNs e = instant t - instant q := by
    rw [← b3]; unfold toSecNs instant; norm_num
  rw [hd] at d1 d2
  rw [he] at e1 e2
  have n1 : ∀ x : Int, x.natAbs > 50000 ↔ |x| > 50000 := by
    intro x; rw [Int.abs_eq_natAbs]; omega
  rw [n1] at d2 e2
  unfold FTime.qgt FTime.qge FTime.qlt FTime.qle FTime.qeq FTime.qne FTime.gtq FTime.geq FTime.ltq
    FTime.leq FTime.eqq FTime.neq
  rw [a1, b1]
  simp only [Option.bind_eq_bind, Option.bind_some, Option.some.injEq, decide_eq_decide]
  have nc : ∀ {x h : ℚ} {y : Int}, (x > h ↔ y > 50000) → (x ≤ h ↔ y ≤ 50000) := by
    intro x h y k
    rw [← not_lt, ← not_lt]
    exact not_congr k
  exact ⟨d1, nc e1, e1, nc d1, nc d2, d2, e1, nc d1, d1, nc e1, nc e2, e2⟩

/-- **C146.** The comparisons with whole seconds of up to 46 days are exact. -/
theorem C146_threshold {r : ℚ → ℚ} (hr : Nearest r) (fma : Bool) (d : Time) (hd : Norm d) (T : Int)
    (hT : |T| ≤ 4000000) :
    (toSec r fma d > T ↔ instant d > T * 10 ^ 9) ∧ (toSec r fma d < T ↔ instant d < T * 10 ^ 9) :=
  ⟨gt_whole hr fma d hd T hT, lt_whole hr fma d hd T hT⟩

/-- **C146.** An ephemeris is stale exactly when it is more than two hours away. -/
theorem C146_stale {r : ℚ → ℚ} (hr : Nearest r) (fma : Bool) (t toe : Time) (ht : Norm t)
    (he : Norm toe) (h1 : -2 ^ 63 < t.sec - toe.sec) (h2 : t.sec - toe.sec < 2 ^ 63) :
    stale r fma t toe = some (decide (|instant t - instant toe| > 7200 * 10 ^ 9)) := by
  obtain ⟨d, a1, a2, a3⟩ := sub_defined t toe ht he ⟨h1, h2⟩
  have g := gt_whole hr fma d a2 7200 (by norm_num)
  have l := lt_whole hr fma d a2 (-7200) (by norm_num)
  have hd : toSecNs d = instant t - instant toe := by
    rw [← a3]; unfold toSecNs instant; norm_num
  rw [hd] at g l
  unfold stale
  rw [a1]
  simp only [Option.bind_eq_bind, Option.bind_some, Option.some.injEq, decide_eq_decide]
  push_cast at g l
  rw [gt_iff_lt, gt_iff_lt, lt_abs, lt_abs]
  constructor
  · rintro (h | h)
    · have := g.1 h; left; omega
    · have := l.1 (by linarith); right; omega
  · rintro (h | h)
    · left; exact g.2 (by omega)
    · right; have := l.2 (by omega); linarith

/-- **C146.** The run of the filter ends exactly when more than 45 s have passed. -/
theorem C146_ends {r : ℚ → ℚ} (hr : Nearest r) (fma : Bool) (t t0 : Time) (ht : Norm t)
    (h0 : Norm t0) (h1 : -2 ^ 63 < t.sec - t0.sec) (h2 : t.sec - t0.sec < 2 ^ 63) :
    ends r fma t t0 = some (decide (instant t - instant t0 > 45 * 10 ^ 9)) := by
  obtain ⟨d, a1, a2, a3⟩ := sub_defined t t0 ht h0 ⟨h1, h2⟩
  have g := gt_whole hr fma d a2 45 (by norm_num)
  have hd : toSecNs d = instant t - instant t0 := by
    rw [← a3]; unfold toSecNs instant; norm_num
  rw [hd] at g
  unfold ends
  rw [a1]
  simp only [Option.bind_eq_bind, Option.bind_some, Option.some.injEq, decide_eq_decide]
  push_cast at g
  exact g

/-- **C146.** Observations are given to the filter exactly when the next entry is more than 10 ms
away. -/
theorem C146_gap {r : ℚ → ℚ} (hr : Nearest r) (fma : Bool) (n t : Time) (hn : Norm n)
    (ht : Norm t) (h1 : -2 ^ 63 < n.sec - t.sec) (h2 : n.sec - t.sec < 2 ^ 63) :
    FTime.gap r fma n t = some (decide (instant n - instant t > 10000000)) := by
  obtain ⟨d, a1, a2, a3⟩ := sub_defined n t hn ht ⟨h1, h2⟩
  have hd : toSecNs d = instant n - instant t := by
    rw [← a3]; unfold toSecNs instant; norm_num
  have hc : r (1 / 100) = (5764607523034235 : Int) * (2 : ℚ) ^ (-59 : Int) :=
    hr.eq_of (by norm_num) (by norm_num) (by norm_num) (by rw [abs_lt]; norm_num)
  have hh : 0 < r (1 / 100) ∧ r (1 / 100) < 1 := by rw [hc]; norm_num
  have g : toSec r fma d > r (1 / 100) ↔ toSecNs d > 10000000 := by
    obtain ⟨k0, k1⟩ := a2
    rw [toSec_S hr fma d ⟨k0, k1⟩]
    unfold toSecNs
    rcases lt_trichotomy d.sec 0 with h | h | h
    · refine iff_of_false ?_ (by omega)
      have a := r_sec_le hr (T := -1) (by norm_num) (by omega : d.sec ≤ -1)
      have b := S_high hr fma (s := -1) (n := d.nsec) (by norm_num) a (by omega)
      push_cast at b
      linarith
    · rw [h, Int.cast_zero, hr.exact F_zero]
      have e : ∀ n : Int, S r fma 0 n = r (n * c) := by
        intro n; unfold S; rw [zero_add, zero_add, hr.exact (hr.mem _)]; simp
      rcases le_or_gt d.nsec 10000000 with k | k
      · refine iff_of_false ?_ (by omega)
        have a : S r fma 0 10000000 = r (1 / 100) := by
          rw [e, hc]
          exact hr.eq_of (by norm_num) (by norm_num) (by norm_num)
            (by unfold c; rw [abs_lt]; norm_num)
        have := S_mono hr fma (le_refl (0 : ℚ)) k
        rw [a] at this
        exact not_lt.2 this
      · refine iff_of_true ?_ (by omega)
        refine lt_of_lt_of_le ?_ (S_mono hr fma (le_refl (0 : ℚ)) (by omega : 10000001 ≤ d.nsec))
        rw [e, hc]
        have : r ((10000001 : Int) * c) = (5764608099494988 : Int) * (2 : ℚ) ^ (-59 : Int) :=
          hr.eq_of (by norm_num) (by norm_num) (by norm_num) (by unfold c; rw [abs_lt]; norm_num)
        rw [this]
        norm_num
    · refine iff_of_true ?_ (by omega)
      have a := r_sec_ge hr (T := 1) (by norm_num) (by omega : 1 ≤ d.sec)
      have b := S_low hr fma (by norm_num) a k0
      push_cast at b
      linarith
  rw [hd] at g
  unfold FTime.gap
  rw [a1]
  simp only [Option.bind_eq_bind, Option.bind_some, Option.some.injEq, decide_eq_decide]
  exact g

/-- **C146.** How far `toSec` is from the exact number of seconds. -/
theorem C146_accuracy {r : ℚ → ℚ} (hr : Nearest r) (fma : Bool) (d : Time) (hd : Norm d)
    (hs : |d.sec| ≤ 2 ^ 53) :
    |toSec r fma d - (instant d : ℚ) / 10 ^ 9| ≤ (|(d.sec : ℚ)| + 4) / 2 ^ 53 := by
  rw [toSec_S hr fma d hd, hr.exact (F_int hs)]
  obtain ⟨h0, h1⟩ := hd
  have q0 : (0 : ℚ) ≤ d.nsec := by exact_mod_cast h0
  have q1 : (d.nsec : ℚ) ≤ 999999999 := by
    have : d.nsec ≤ 999999999 := by omega
    exact_mod_cast this
  have one : (1 : ℚ) / 2 ^ 900 ≤ 1 := by
    rw [div_le_one (by positivity)]; exact one_le_pow₀ (by norm_num)
  have c1 : |c - 1 / 1000000000| ≤ 1 / (1000000000 * 2 ^ 53) := by
    unfold c; rw [abs_le]; norm_num
  have p1 : |(d.nsec : ℚ) * c - d.nsec / 1000000000| ≤ 1 / 2 ^ 53 := by
    rw [show (d.nsec : ℚ) * c - d.nsec / 1000000000 = d.nsec * (c - 1 / 1000000000) by ring,
      abs_mul, abs_of_nonneg q0]
    calc (d.nsec : ℚ) * |c - 1 / 1000000000| ≤ 1000000000 * (1 / (1000000000 * 2 ^ 53)) := by
          gcongr; linarith
      _ = 1 / 2 ^ 53 := by norm_num
  have p2 : (d.nsec : ℚ) * c ≤ 1 := by
    refine le_trans (mul_le_mul_of_nonneg_right q1 c_pos.le) ?_
    unfold c; norm_num
  have p3 : 0 ≤ (d.nsec : ℚ) * c := mul_nonneg q0 c_pos.le
  have p4 := hr.abs_err ((d.nsec : ℚ) * c) 1 (by linarith) (by rw [abs_of_nonneg p3]; exact p2)
  have F1 := F_int (n := 1) (by norm_num)
  push_cast at F1
  have p5 := hr.le_of_le F1 p2
  have p6 := hr.ge_of_ge F_zero p3
  have sa := abs_nonneg (d.sec : ℚ)
  have key : ∀ y : ℚ, 0 ≤ y → y ≤ 1 → |y - d.nsec * c| ≤ 1 / 2 ^ 53 →
      |r ((d.sec : ℚ) + y) - (instant d : ℚ) / 10 ^ 9| ≤ (|(d.sec : ℚ)| + 4) / 2 ^ 53 := by
    intro y y0 y1 y2
    have hb := hr.abs_err ((d.sec : ℚ) + y) (|(d.sec : ℚ)| + 1) (by linarith)
      (le_trans (abs_add_le _ _) (by rw [abs_of_nonneg y0]; linarith))
    have hi : (instant d : ℚ) / 10 ^ 9 = d.sec + d.nsec / 1000000000 := by
      unfold instant; push_cast; field_simp; ring
    rw [hi]
    have e : r ((d.sec : ℚ) + y) - (d.sec + d.nsec / 1000000000) =
        (r ((d.sec : ℚ) + y) - (d.sec + y)) + ((y - d.nsec * c) + (d.nsec * c - d.nsec / 1000000000)) := by
      ring
    rw [e]
    refine le_trans (abs_add_le _ _) ?_
    have := abs_add_le (y - (d.nsec : ℚ) * c) (d.nsec * c - d.nsec / 1000000000)
    push_cast
    have e2 : (|(d.sec : ℚ)| + 4) / 2 ^ 53 = (|(d.sec : ℚ)| + 1) / 2 ^ 53 + (1 / 2 ^ 53 + 1 / 2 ^ 53) + 1 / 2 ^ 53 := by
      ring
    rw [e2]
    have : (0 : ℚ) ≤ 1 / 2 ^ 53 := by positivity
    linarith
  unfold S
  split
  · exact key _ p3 p2 (by rw [sub_self, abs_zero]; positivity)
  · exact key _ p6 p5 p4

/-- **C146.** A later time never has fewer seconds. -/
theorem C146_monotone {r : ℚ → ℚ} (hr : Nearest r) (fma : Bool) (a b : Time) (ha : Norm a)
    (hb : Norm b) (h1 : |a.sec| < 2 ^ 53) (h2 : |b.sec| < 2 ^ 53) (h : instant a ≤ instant b) :
    toSec r fma a ≤ toSec r fma b := by
  rw [toSec_S hr fma a ha, toSec_S hr fma b hb, hr.exact (F_int h1.le), hr.exact (F_int h2.le)]
  obtain ⟨a0, a1⟩ := ha
  obtain ⟨b0, b1⟩ := hb
  unfold instant at h
  rcases lt_or_eq_of_le (by omega : a.sec ≤ b.sec) with k | k
  · have u := S_high hr fma (s := a.sec) (n := a.nsec) (by rw [abs_lt] at h1; rw [abs_le]; omega)
      (le_refl _) (by omega)
    have v := S_low hr fma (s := b.sec) (n := b.nsec) h2.le (le_refl _) b0
    have : (a.sec : ℚ) + 1 ≤ b.sec := by exact_mod_cast k
    linarith
  · rw [k]
    exact S_mono hr fma (le_refl _) (by omega)

/-- **C146.** A time found again from the rounded seconds since another time is at most one
nanosecond wrong, when the two are at most 46 days apart. -/
theorem C146_round_trip {r : ℚ → ℚ} (hr : Nearest r) (fma : Bool) (t t0 d : Time) (ht : Norm t)
    (h0 : Norm t0) (hm : Moderate t) (hm0 : Moderate t0) (hd : sub t t0 = some d)
    (hb : |d.sec| < 1000000) :
    ∃ u, FTime.addSec r t0 (toSec r fma d) = some u ∧ Norm u ∧ |instant u - instant t| ≤ 1 := by
  obtain ⟨d', a1, a2, a3⟩ := sub_defined t t0 ht h0
    ⟨by have := hm.1; have := hm0.2; omega, by have := hm.2; have := hm0.1; omega⟩
  rw [hd] at a1
  injection a1 with a1
  subst a1
  have acc := C146_accuracy hr fma d a2 (by rw [abs_lt] at hb; rw [abs_le]; omega)
  have hbq : |(d.sec : ℚ)| < 1000000 := by exact_mod_cast hb
  have hF : F (toSec r fma d) := by unfold toSec; split <;> exact hr.mem _
  generalize toSec r fma d = s at *
  have acc2 : |s - (instant d : ℚ) / 10 ^ 9| ≤ 1 / 8000000000 := by
    refine le_trans acc ?_
    push_cast
    rw [div_le_div_iff₀ (by norm_num) (by norm_num)]
    linarith
  rw [abs_le] at acc2
  have hi : (instant d : ℚ) / 10 ^ 9 = d.sec + d.nsec / 1000000000 := by
    unfold instant; push_cast; field_simp; ring
  have q0 : (0 : ℚ) ≤ d.nsec := by exact_mod_cast a2.1
  have q1 : (d.nsec : ℚ) ≤ 1000000000 := by
    have := a2.2.le
    exact_mod_cast this
  rw [abs_lt] at hbq
  have hs : |s| ≤ 1000002 := by
    rw [hi] at acc2
    have : (d.nsec : ℚ) / 1000000000 ≤ 1 := by rw [div_le_one (by norm_num)]; exact q1
    have : 0 ≤ (d.nsec : ℚ) / 1000000000 := by positivity
    rw [abs_le]; constructor <;> linarith
  obtain ⟨u, b1, b2, b3⟩ := (C145_add hr t0 s h0 hm0 hF (by linarith)).1
  refine ⟨u, b1, b2, ?_⟩
  have b4 : 1 + (|s| * 10 ^ 9 + 1) / 2 ^ 53 < 1 + 1 / 2 := by
    have : (|s| * 10 ^ 9 + 1) / 2 ^ 53 < 1 / 2 := by
      rw [div_lt_div_iff₀ (by norm_num) (by norm_num)]; linarith
    linarith
  have b5 := b3.trans b4
  rw [abs_lt] at b5
  have e : (instant t : ℚ) = instant t0 + instant d := by rw [a3]; push_cast; ring
  have e3 : (instant d : ℚ) = instant d / 10 ^ 9 * 10 ^ 9 := by field_simp
  have l1 : ((instant u - instant t : Int) : ℚ) < 2 := by push_cast; rw [e]; linarith
  have l2 : (-2 : ℚ) < ((instant u - instant t : Int) : ℚ) := by push_cast; rw [e]; linarith
  have l1' : instant u - instant t < 2 := by exact_mod_cast l1
  have l2' : -2 < instant u - instant t := by exact_mod_cast l2
  rw [abs_le]; omega

/-- **C146.** The seconds since 1970 do not tell times apart that differ by 100 ns: at
2020-09-13 the two have the same `double`. -/
theorem C146_absolute {r : ℚ → ℚ} (hr : Nearest r) (fma : Bool) :
    toSec r fma ⟨1600000000, 0⟩ = toSec r fma ⟨1600000000, 100⟩ := by
  rw [toSec_S hr fma _ (by constructor <;> decide), toSec_S hr fma _ (by constructor <;> decide)]
  have hF := F_int (n := 1600000000) (by norm_num)
  rw [hr.exact hF, S_zero hr fma hF]
  have k : ∀ y : ℚ, 0 ≤ y → y < 1 / 2 ^ 23 → r (((1600000000 : Int) : ℚ) + y) = ((1600000000 : Int) : ℚ) := by
    intro y y0 y1
    have := hr.eq_of (m := 6710886400000000) (e := -22) (by norm_num) (by norm_num) (by norm_num)
      (x := ((1600000000 : Int) : ℚ) + y) (by rw [abs_lt]; norm_num at y1 ⊢; constructor <;> linarith)
    rw [this]; norm_num
  have p : (0 : ℚ) ≤ ((100 : Int) : ℚ) * c := by unfold c; norm_num
  have hy : r (((100 : Int) : ℚ) * c) ≤ 1 / 2 ^ 23 - 1 / 2 ^ 30 := by
    have F1 : F (127 * (2 : ℚ) ^ (-30 : Int)) := ⟨127, -30, by norm_num, by norm_num, by norm_num⟩
    refine le_trans (hr.le_of_le F1 (by unfold c; norm_num)) (by norm_num)
  unfold S
  split
  · exact (k _ p (by unfold c; norm_num)).symm
  · exact (k _ (hr.ge_of_ge F_zero p) (lt_of_le_of_lt hy (by norm_num))).symm

/-- Times 50 µs apart, in both orders, are equal and neither is after the other; a nanosecond
more and they are not. -/
example : FTime.qeq rnd false ⟨5, 0⟩ ⟨4, 999950000⟩ = some true ∧
    FTime.qeq rnd true ⟨4, 999950000⟩ ⟨5, 0⟩ = some true ∧
    FTime.qeq rnd false ⟨4, 999949999⟩ ⟨5, 0⟩ = some false ∧
    FTime.stale rnd false ⟨10000, 0⟩ ⟨2800, 0⟩ = some false := by
  have n : ∀ a b : Int, 0 ≤ b → b < 10 ^ 9 → Norm ⟨a, b⟩ := fun a b h h' => ⟨h, h'⟩
  refine ⟨(C146_quantised rnd_nearest false ⟨5, 0⟩ ⟨4, 999950000⟩ (n _ _ (by norm_num) (by norm_num))
      (n _ _ (by norm_num) (by norm_num)) (by norm_num) (by norm_num)).2.2.2.2.1.trans (by decide),
    (C146_quantised rnd_nearest true ⟨4, 999950000⟩ ⟨5, 0⟩ (n _ _ (by norm_num) (by norm_num))
      (n _ _ (by norm_num) (by norm_num)) (by norm_num) (by norm_num)).2.2.2.2.1.trans (by decide),
    (C146_quantised rnd_nearest false ⟨4, 999949999⟩ ⟨5, 0⟩ (n _ _ (by norm_num) (by norm_num))
      (n _ _ (by norm_num) (by norm_num)) (by norm_num) (by norm_num)).2.2.2.2.1.trans (by decide),
    (C146_stale rnd_nearest false ⟨10000, 0⟩ ⟨2800, 0⟩ (n _ _ (by norm_num) (by norm_num))
      (n _ _ (by norm_num) (by norm_num)) (by norm_num) (by norm_num)).trans (by decide)⟩

/-- The comparison of the rounded difference with a period of whole nanoseconds. -/
theorem ge_period {r : ℚ → ℚ} (hr : Nearest r) (fma : Bool) (d : Time) (hd : Norm d) (k : Int) (h0 : 0 < k)
    (h1 : k ≤ 1000000000) : toSec r fma d ≥ r (k / 1000000000) ↔ toSecNs d ≥ k := by
  obtain ⟨k0, k1⟩ := hd
  rw [toSec_S hr fma d ⟨k0, k1⟩]
  have q0 : (1 : ℚ) ≤ k := by exact_mod_cast h0
  have q1 : (k : ℚ) ≤ 1000000000 := by exact_mod_cast h1
  have F1 : F (1 : ℚ) := by simpa using F_int (n := 1) (by norm_num)
  have e : ∀ n : Int, S r fma 0 n = r (n * c) := by
    intro n; unfold S; rw [zero_add, zero_add, hr.exact (hr.mem _)]; simp
  have hp1 : r ((k : ℚ) / 1000000000) ≤ 1 := hr.le_of_le F1 (by rw [div_le_one (by norm_num)]; exact q1)
  have hy : 1 / 2 ^ 1000 ≤ |(k : ℚ) / 1000000000| := by
    rw [abs_of_pos (by positivity)]
    calc (1 : ℚ) / 2 ^ 1000 ≤ 1 / 1000000000 := by
          apply one_div_le_one_div_of_le (by norm_num)
          calc (1000000000 : ℚ) ≤ 2 ^ 30 := by norm_num
            _ ≤ 2 ^ 1000 := pow_le_pow_right₀ (by norm_num) (by norm_num)
      _ ≤ _ := by gcongr
  have ey := hr.rel _ hy
  rw [abs_of_pos (show (0 : ℚ) < (k : ℚ) / 1000000000 by positivity)] at ey
  have ey' := abs_le.1 ey
  have hyle : (k : ℚ) / 1000000000 ≤ 1 := by rw [div_le_one (by norm_num)]; exact q1
  have hpos : 0 < r ((k : ℚ) / 1000000000) := by
    have : (0 : ℚ) < (k : ℚ) / 1000000000 := by positivity
    have : (k : ℚ) / 1000000000 / 2 ^ 53 ≤ (k : ℚ) / 1000000000 / 2 := by gcongr; norm_num
    linarith [ey'.1]
  have hc1 : (1 : ℚ) / 1000000000 ≤ c := by unfold c; norm_num
  have hc2 : c ≤ 1 / 1000000000 * (1 + 1 / 2 ^ 53) := by unfold c; norm_num
  unfold toSecNs
  rcases lt_trichotomy d.sec 0 with h | h | h
  · refine iff_of_false ?_ (by omega)
    have a := r_sec_le hr (T := -1) (by norm_num) (by omega : d.sec ≤ -1)
    have b := S_high hr fma (s := -1) (n := d.nsec) (by norm_num) a (by omega)
    push_cast at b
    linarith
  · rw [h, Int.cast_zero, hr.exact F_zero, e]
    rcases le_or_gt k d.nsec with q | q
    · refine iff_of_true ?_ (by omega)
      have : (k : ℚ) ≤ d.nsec := by exact_mod_cast q
      refine hr.mono ?_
      calc (k : ℚ) / 1000000000 = k * (1 / 1000000000) := by ring
        _ ≤ d.nsec * c := by gcongr
    · refine iff_of_false ?_ (by omega)
      rw [ge_iff_le, not_le]
      have hm : (d.nsec : ℚ) ≤ k - 1 := by
        have : d.nsec ≤ k - 1 := by omega
        exact_mod_cast this
      have hx : (d.nsec : ℚ) * c ≤ (k - 1) * (1 / 1000000000 * (1 + 1 / 2 ^ 53)) := by
        have : (0 : ℚ) ≤ d.nsec := by exact_mod_cast k0
        gcongr
      have h0x : 0 ≤ (d.nsec : ℚ) * c := mul_nonneg (by exact_mod_cast k0) c_pos.le
      have ex := hr.abs_err ((d.nsec : ℚ) * c) 1 (by
        apply div_le_one_of_le₀ _ (by positivity)
        exact one_le_pow₀ (by norm_num)) (by
          rw [abs_of_nonneg h0x]
          refine hx.trans ?_
          nlinarith)
      have ex' := abs_le.1 ex
      have : (k : ℚ) / 1000000000 / 2 ^ 53 ≤ 1 / 2 ^ 53 := by gcongr
      norm_num at hx ex' ey' this ⊢
      linarith [ex'.2, ey'.1]
  · refine iff_of_true ?_ (by omega)
    have a := r_sec_ge hr (T := 1) (by norm_num) (by omega : 1 ≤ d.sec)
    have b := S_low hr fma (by norm_num) a k0
    push_cast at b
    exact hp1.trans b

/-- **C146.** A simulated sensor is sampled exactly when its period has passed, for every rate whose period is a whole
number of nanoseconds up to a second. -/
theorem C146_due {r : ℚ → ℚ} (hr : Nearest r) (fma : Bool) (rate : ℚ) (k : Int) (hk : 1 / rate = k / 10 ^ 9) (h0 : 0 < k)
    (h1 : k ≤ 10 ^ 9) (t prev : Time) (ht : Norm t) (hp : Norm prev) (h2 : -2 ^ 63 < t.sec - prev.sec)
    (h3 : t.sec - prev.sec < 2 ^ 63) : due r fma rate t prev = some (decide (instant t - instant prev ≥ k)) := by
  obtain ⟨d, a1, a2, a3⟩ := sub_defined t prev ht hp ⟨h2, h3⟩
  have hd : toSecNs d = instant t - instant prev := by
    rw [← a3]; unfold toSecNs instant; norm_num
  have g := ge_period hr fma d a2 k h0 (by norm_num at h1; exact h1)
  rw [hd] at g
  unfold due
  rw [a1, hk]
  norm_num at g ⊢
  exact g

/-- **C146.** A sample is accepted by the IMU model exactly when it is at least a tenth of a millisecond after the last. -/
theorem C146_imu {r : ℚ → ℚ} (hr : Nearest r) (fma : Bool) (t tf : Time) (ht : Norm t) (hp : Norm tf)
    (h2 : -2 ^ 63 < t.sec - tf.sec) (h3 : t.sec - tf.sec < 2 ^ 63) :
    imuAccepts r fma t tf = some (decide (instant t - instant tf ≥ 100000)) := by
  have := C146_due hr fma 10000 100000 (by norm_num) (by norm_num) (by norm_num) t tf ht hp h2 h3
  unfold due at this
  unfold imuAccepts
  exact this

/-- **C146.** An ephemeris gives a position exactly when it is at most two hours away: `eph2Sat` accepts what the
post-processing does not call stale. -/
theorem C146_fresh {r : ℚ → ℚ} (hr : Nearest r) (fma : Bool) (t toe : Time) (ht : Norm t) (he : Norm toe)
    (h1 : -2 ^ 63 < t.sec - toe.sec) (h2 : t.sec - toe.sec < 2 ^ 63) :
    fresh r fma t toe = some (decide (|instant t - instant toe| ≤ 7200 * 10 ^ 9)) := by
  have h := C146_stale hr fma t toe ht he h1 h2
  obtain ⟨d, a1, a2, a3⟩ := sub_defined t toe ht he ⟨h1, h2⟩
  unfold stale at h
  unfold fresh
  rw [a1] at h ⊢
  simp only [Option.bind_eq_bind, Option.bind_some, Option.some.injEq, decide_eq_decide] at h ⊢
  rw [← not_lt, ← not_lt]
  exact not_congr h

end Verif.Props.FloatCompare
