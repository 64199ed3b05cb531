import Verif.Spec.Scale
import Verif.Lemmas.Binary64
/-! Helper lemmas for the scaled fields of ephemerides. -/
namespace Verif.Scale
open Verif.Binary64

variable {r : ℚ → ℚ}

/-- The rounding of a number just above a power of two. -/
theorem eq_above (hr : Nearest r) {e : Int} (he : -1074 ≤ e) {x : ℚ} (h1 : 2 ^ 52 * (2 : ℚ) ^ e ≤ x)
    (h2 : x - 2 ^ 52 * (2 : ℚ) ^ e < 2 ^ e / 2) : r x = 2 ^ 52 * (2 : ℚ) ^ e := by
  have hF : F (((2 ^ 52 : Int) : ℚ) * (2 : ℚ) ^ e) := F_of_le (by norm_num) he
  rw [show (((2 ^ 52 : Int) : ℚ)) = 2 ^ 52 by norm_cast] at hF
  have h := hr.near x _ hF
  have hg := hr.ge_of_ge hF h1
  rw [abs_of_nonpos (by linarith : 2 ^ 52 * (2 : ℚ) ^ e - x ≤ 0)] at h
  have h' := le_trans (le_abs_self _) h
  by_contra hc
  refine gap (m := 2 ^ 52) (e := e) (by norm_num) (hr.mem x) ?_ ?_
  · rw [show (((2 ^ 52 : Int) : ℚ)) = 2 ^ 52 by norm_cast]; exact lt_of_le_of_ne hg (Ne.symm hc)
  · rw [show (((2 ^ 52 : Int) : ℚ)) = 2 ^ 52 by norm_cast]; linarith

/-- The literals after rounding by the compiler. -/
theorem lit5 (hr : Nearest r) : r P2_5 = 1 / 2 ^ 5 := by
  have := hr.exact (F_of_le (m := 1) (e := -5) (by norm_num) (by norm_num))
  norm_num [P2_5] at this ⊢; exact this
theorem lit11 (hr : Nearest r) : r P2_11 = 1 / 2 ^ 11 := by
  have := hr.exact (F_of_le (m := 1) (e := -11) (by norm_num) (by norm_num))
  norm_num [P2_11] at this ⊢; exact this
theorem lit19 (hr : Nearest r) : r P2_19 = 1 / 2 ^ 19 := by
  have := hr.exact (F_of_le (m := 1) (e := -19) (by norm_num) (by norm_num))
  norm_num [P2_19] at this ⊢; exact this
theorem lit20 (hr : Nearest r) : r P2_20 = 1 / 2 ^ 20 := by
  have := hr.exact (F_of_le (m := 1) (e := -20) (by norm_num) (by norm_num))
  norm_num [P2_20] at this ⊢; exact this
theorem lit29 (hr : Nearest r) : r P2_29 = 1 / 2 ^ 29 := by
  rw [hr.eq_of (m := 2 ^ 53) (e := -82) (by norm_num) (by norm_num) (by norm_num)
    (by rw [abs_lt]; norm_num [P2_29])]
  norm_num
theorem lit30 (hr : Nearest r) : r P2_30 = 1 / 2 ^ 30 := by
  rw [hr.eq_of (m := 2 ^ 53) (e := -83) (by norm_num) (by norm_num) (by norm_num)
    (by rw [abs_lt]; norm_num [P2_30])]
  norm_num
theorem lit31 (hr : Nearest r) : r P2_31 = 1 / 2 ^ 31 := by
  rw [eq_above hr (e := -83) (by norm_num) (by norm_num [P2_31]) (by norm_num [P2_31])]
  norm_num
theorem lit32 (hr : Nearest r) : r P2_32 = 1 / 2 ^ 32 * (1 - 1 / 2 ^ 53) := by
  rw [hr.eq_of (m := 2 ^ 53 - 1) (e := -85) (by norm_num) (by norm_num) (by norm_num)
    (by rw [abs_lt]; norm_num [P2_32])]
  norm_num
theorem lit33 (hr : Nearest r) : r P2_33 = 1 / 2 ^ 33 * (1 - 1 / 2 ^ 53) := by
  rw [hr.eq_of (m := 2 ^ 53 - 1) (e := -86) (by norm_num) (by norm_num) (by norm_num)
    (by rw [abs_lt]; norm_num [P2_33])]
  norm_num
theorem lit34 (hr : Nearest r) : r P2_34 = 1 / 2 ^ 34 * (1 - 1 / 2 ^ 53) := by
  rw [hr.eq_of (m := 2 ^ 53 - 1) (e := -87) (by norm_num) (by norm_num) (by norm_num)
    (by rw [abs_lt]; norm_num [P2_34])]
  norm_num
theorem lit55 (hr : Nearest r) : r P2_55 = 1 / 2 ^ 55 * (1 - 1 / 2 ^ 53) := by
  rw [hr.eq_of (m := 2 ^ 53 - 1) (e := -108) (by norm_num) (by norm_num) (by norm_num)
    (by rw [abs_lt]; norm_num [P2_55])]
  norm_num
theorem lit40 (hr : Nearest r) : r P2_40 = 1 / 2 ^ 40 * (1 - 1 / 2 ^ 52) := by
  rw [hr.eq_of (m := 2 ^ 53 - 2) (e := -93) (by norm_num) (by norm_num) (by norm_num)
    (by rw [abs_lt]; norm_num [P2_40])]
  norm_num
theorem lit43 (hr : Nearest r) : r P2_43 = 1 / 2 ^ 43 * (1 - 1 / 2 ^ 52) := by
  rw [hr.eq_of (m := 2 ^ 53 - 2) (e := -96) (by norm_num) (by norm_num) (by norm_num)
    (by rw [abs_lt]; norm_num [P2_43])]
  norm_num
theorem lit46 (hr : Nearest r) : r P2_46 = 1 / 2 ^ 46 * (1 - 1 / 2 ^ 52) := by
  rw [hr.eq_of (m := 2 ^ 53 - 2) (e := -99) (by norm_num) (by norm_num) (by norm_num)
    (by rw [abs_lt]; norm_num [P2_46])]
  norm_num
theorem lit59 (hr : Nearest r) : r P2_59 = 1 / 2 ^ 59 * (1 + 1 / 2 ^ 49) := by
  rw [hr.eq_of (m := 2 ^ 52 + 8) (e := -111) (by norm_num) (by norm_num) (by norm_num)
    (by rw [abs_lt]; norm_num [P2_59])]
  norm_num
theorem lit1000 (hr : Nearest r) : r 1000 = 1000 := by
  exact_mod_cast hr.exact (F_int (n := 1000) (by norm_num))
theorem litPI (hr : Nearest r) : r PI = 884279719003555 / 2 ^ 48 := by
  rw [hr.eq_of (m := 7074237752028440) (e := -51) (by norm_num) (by norm_num) (by norm_num)
    (by rw [abs_lt]; norm_num [PI])]
  norm_num
theorem litM_PI (hr : Nearest r) : r M_PI = 884279719003555 / 2 ^ 48 := by
  rw [hr.eq_of (m := 7074237752028440) (e := -51) (by norm_num) (by norm_num) (by norm_num)
    (by rw [abs_lt]; norm_num [M_PI])]
  norm_num

theorem scale_eq (hr : Nearest r) (c : ℚ) {m : Int} (hm : |m| ≤ 2 ^ 32) : scale r c m = r (m * r c) := by
  unfold scale
  rw [hr.exact (F_int (le_trans hm (by norm_num)))]

/-- A constant that is a power of two scales exactly. -/
theorem scale_exact (hr : Nearest r) {c : ℚ} {k : ℕ} (hk : k ≤ 1000) (hc : r c = 1 / 2 ^ k) {m : Int}
    (hm : |m| ≤ 2 ^ 32) : scale r c m = m * (1 / 2 ^ k) := by
  have e : (m : ℚ) * (1 / 2 ^ k) = m * (2 : ℚ) ^ (-(k : Int)) := by
    rw [zpow_neg, zpow_natCast, one_div]
  rw [scale_eq hr c hm, hc, e]
  exact hr.exact (F_of_le (le_trans hm (by norm_num)) (by omega))

theorem scale2_exact (hr : Nearest r) {c : ℚ} {k : ℕ} (hk : k ≤ 1000) (hc : r c = 1 / 2 ^ k) {m : Int}
    (hm : |m| ≤ 2 ^ 32) : scale2 r c 1000 m = m * (1 / 2 ^ k * 1000) := by
  have e : (m : ℚ) * (1 / 2 ^ k) * 1000 = ((m * 1000 : Int) : ℚ) * (2 : ℚ) ^ (-(k : Int)) := by
    rw [zpow_neg, zpow_natCast, one_div]; push_cast; ring
  have e' : (m : ℚ) * (1 / 2 ^ k * 1000) = (m : ℚ) * (1 / 2 ^ k) * 1000 := by ring
  unfold scale2
  rw [scale_exact hr hk hc hm, lit1000 hr, e', e]
  refine hr.exact (F_of_le ?_ (by omega))
  rw [abs_mul]
  refine le_trans (mul_le_mul_of_nonneg_right hm (abs_nonneg _)) (by norm_num)

theorem r_zero (hr : Nearest r) : r 0 = 0 := by
  exact_mod_cast hr.exact (F_int (n := 0) (by norm_num))

/-- Relative closeness: `y = x (1 + d)` with `|d| ≤ ε`. -/
def Rel (ε x y : ℚ) : Prop := |y - x| ≤ ε * |x|

theorem Rel.trans {ε δ x y z : ℚ} (hδ : 0 ≤ δ) (h1 : Rel ε x y) (h2 : Rel δ y z) : Rel (ε + δ + ε * δ) x z := by
  unfold Rel at *
  have a : |z - x| ≤ |z - y| + |y - x| := by
    have := abs_add_le (z - y) (y - x); rwa [show z - y + (y - x) = z - x by ring] at this
  have b : |y| ≤ |x| + ε * |x| := by
    have := abs_add_le (y - x) x
    rw [show y - x + x = y by ring] at this; linarith
  have c := mul_le_mul_of_nonneg_left b hδ
  nlinarith

theorem Rel.mul {ε x y : ℚ} (h : Rel ε x y) (q : ℚ) : Rel ε (x * q) (y * q) := by
  unfold Rel at *
  rw [← sub_mul, abs_mul, abs_mul, ← mul_assoc]
  exact mul_le_mul_of_nonneg_right h (abs_nonneg _)

/-- One rounded product of an integer and a constant near a power of two. -/
theorem scale_rel (hr : Nearest r) {c d : ℚ} {k : ℕ} (hk : k ≤ 100) (hc : r c = 1 / 2 ^ k * (1 + d))
    (hd : |d| ≤ 1 / 2 ^ 49) {m : Int} (hm : |m| ≤ 2 ^ 32) :
    Rel (|d| + 1 / 2 ^ 53 + |d| * (1 / 2 ^ 53)) (m * (1 / 2 ^ k)) (scale r c m) := by
  have h1 : Rel |d| (m * (1 / 2 ^ k) : ℚ) (m * (1 / 2 ^ k * (1 + d))) := by
    unfold Rel
    rw [show (m : ℚ) * (1 / 2 ^ k * (1 + d)) - m * (1 / 2 ^ k) = d * (m * (1 / 2 ^ k)) by ring, abs_mul]
  refine h1.trans (by norm_num) ?_
  rw [scale_eq hr c hm, hc]
  unfold Rel
  rcases eq_or_ne m 0 with h0 | h0
  · subst h0; simp [r_zero hr]
  have hm1 : (1 : ℚ) ≤ |(m : ℚ)| := by exact_mod_cast Int.one_le_abs h0
  have hd' := abs_le.1 hd
  have hd1 : (1 / 2 : ℚ) ≤ |1 + d| := by
    refine le_trans ?_ (le_abs_self _); norm_num at hd' ⊢; linarith
  have hp : (1 / 2 ^ 100 : ℚ) ≤ 1 / 2 ^ k := by
    apply one_div_le_one_div_of_le (by positivity)
    exact pow_le_pow_right₀ (by norm_num) hk
  have := hr.rel (m * (1 / 2 ^ k * (1 + d))) (by
    rw [abs_mul, abs_mul, abs_of_pos (by positivity : (0 : ℚ) < 1 / 2 ^ k)]
    have a : (1 / 2 ^ 100 * (1 / 2) : ℚ) ≤ 1 / 2 ^ k * |1 + d| := by
      apply mul_le_mul hp hd1 (by norm_num) (by positivity)
    have b : (1 * (1 / 2 ^ 100 * (1 / 2)) : ℚ) ≤ |(m : ℚ)| * (1 / 2 ^ k * |1 + d|) := by
      apply mul_le_mul hm1 a (by positivity) (by positivity)
    refine le_trans ?_ b
    have : (1 / 2 ^ 1000 : ℚ) ≤ 1 / 2 ^ 101 := by
      apply one_div_le_one_div_of_le (by positivity)
      exact pow_le_pow_right₀ (by norm_num) (by norm_num)
    refine le_trans this (le_of_eq ?_)
    norm_num)
  refine le_trans this (le_of_eq ?_)
  ring

/-- The rounded constant `π`. -/
theorem pi_rel : |((884279719003555 / 2 ^ 48 : ℚ) : ℝ) - Real.pi| ≤ 1 / 2 ^ 54 * Real.pi := by
  have h1 := Real.pi_gt_d20
  have h2 := Real.pi_lt_d20
  rw [abs_le]
  push_cast
  norm_num at *
  constructor <;> linarith

/-- Two rounded products, the second with the constant `π`. -/
theorem scale2_rel (hr : Nearest r) {c d q : ℚ} {k : ℕ} (hk : k ≤ 100) (hc : r c = 1 / 2 ^ k * (1 + d))
    (hd : |d| ≤ 1 / 2 ^ 52) (hq : r q = 884279719003555 / 2 ^ 48) {m : Int} (hm : |m| ≤ 2 ^ 32) :
    |((scale2 r c q m : ℚ) : ℝ) - m * (1 / 2 ^ k * Real.pi)| ≤ 1 / 2 ^ 50 * |(m * (1 / 2 ^ k * Real.pi) : ℝ)| := by
  have h := scale_rel hr hk hc (le_trans hd (by norm_num)) hm
  have h' : Rel (13 / 2 ^ 55) (m * (1 / 2 ^ k)) (scale r c m) := by
    refine le_trans h (mul_le_mul_of_nonneg_right ?_ (abs_nonneg _))
    norm_num at hd ⊢; linarith
  have h2 := h'.mul (884279719003555 / 2 ^ 48)
  have h3 : Rel (1 / 2 ^ 53) (scale r c m * (884279719003555 / 2 ^ 48)) (scale2 r c q m) := by
    unfold Rel scale2
    rw [hq]
    rcases eq_or_ne m 0 with h0 | h0
    · subst h0
      have : scale r c 0 = 0 := by
        unfold Rel at h'; simpa using h'
      simp [this, r_zero hr]
    have hm1 : (1 : ℚ) ≤ |(m : ℚ)| := by exact_mod_cast Int.one_le_abs h0
    have hp : (1 / 2 ^ 100 : ℚ) ≤ 1 / 2 ^ k := by
      apply one_div_le_one_div_of_le (by positivity)
      exact pow_le_pow_right₀ (by norm_num) hk
    have b : (1 * (1 / 2 ^ 100) : ℚ) ≤ |(m : ℚ) * (1 / 2 ^ k)| := by
      rw [abs_mul, abs_of_pos (by positivity : (0 : ℚ) < 1 / 2 ^ k)]
      exact mul_le_mul hm1 hp (by positivity) (by positivity)
    have hs : (1 / 2 ^ 101 : ℚ) ≤ |scale r c m| := by
      unfold Rel at h'
      have t := abs_add_le (m * (1 / 2 ^ k) - scale r c m) (scale r c m)
      rw [sub_add_cancel, abs_sub_comm] at t
      generalize |(m : ℚ) * (1 / 2 ^ k)| = X at *
      norm_num at *
      linarith
    have := hr.rel (scale r c m * (884279719003555 / 2 ^ 48)) (by
      rw [abs_mul, abs_of_pos (by norm_num : (0 : ℚ) < 884279719003555 / 2 ^ 48)]
      have e : (1 / 2 ^ 1000 : ℚ) ≤ 1 / 2 ^ 101 := by
        apply one_div_le_one_div_of_le (by positivity)
        exact pow_le_pow_right₀ (by norm_num) (by norm_num)
      refine le_trans e ?_
      norm_num at hs ⊢
      linarith)
    refine le_trans this (le_of_eq ?_)
    ring
  have h4 := h2.trans (by norm_num) h3
  have h5 : Rel (69 / 2 ^ 57) (m * (1 / 2 ^ k) * (884279719003555 / 2 ^ 48)) (scale2 r c q m) := by
    refine le_trans h4 (mul_le_mul_of_nonneg_right ?_ (abs_nonneg _))
    norm_num
  unfold Rel at h5
  have h6 : |((scale2 r c q m : ℚ) : ℝ) - m * (1 / 2 ^ k) * ((884279719003555 / 2 ^ 48 : ℚ) : ℝ)|
      ≤ 69 / 2 ^ 57 * (|(m * (1 / 2 ^ k) : ℝ)| * ((884279719003555 / 2 ^ 48 : ℚ) : ℝ)) := by
    rw [abs_mul, abs_of_pos (by norm_num : (0 : ℚ) < 884279719003555 / 2 ^ 48)] at h5
    have h5' := (Rat.cast_le (K := ℝ)).2 h5
    push_cast at h5' ⊢
    exact h5'
  have hp := pi_rel
  have h7 : |((m * (1 / 2 ^ k) : ℝ)) * ((884279719003555 / 2 ^ 48 : ℚ) : ℝ) - m * (1 / 2 ^ k * Real.pi)|
      ≤ |(m * (1 / 2 ^ k) : ℝ)| * (1 / 2 ^ 54 * Real.pi) := by
    rw [show ((m * (1 / 2 ^ k) : ℝ)) * ((884279719003555 / 2 ^ 48 : ℚ) : ℝ) - m * (1 / 2 ^ k * Real.pi)
      = (m * (1 / 2 ^ k)) * (((884279719003555 / 2 ^ 48 : ℚ) : ℝ) - Real.pi) by ring, abs_mul]
    exact mul_le_mul_of_nonneg_left hp (abs_nonneg _)
  have h8 : ((884279719003555 / 2 ^ 48 : ℚ) : ℝ) ≤ (1 + 1 / 2 ^ 54) * Real.pi := by
    have := (abs_le.1 hp).2; linarith
  have t := abs_add_le (((scale2 r c q m : ℚ) : ℝ) - m * (1 / 2 ^ k) * ((884279719003555 / 2 ^ 48 : ℚ) : ℝ))
    ((m * (1 / 2 ^ k)) * ((884279719003555 / 2 ^ 48 : ℚ) : ℝ) - m * (1 / 2 ^ k * Real.pi))
  rw [sub_add_sub_cancel] at t
  refine le_trans t (le_trans (add_le_add h6 h7) ?_)
  rw [← mul_assoc (m : ℝ) (1 / 2 ^ k), abs_mul (_ * _) Real.pi, abs_of_pos Real.pi_pos]
  have hX := abs_nonneg (m * (1 / 2 ^ k) : ℝ)
  generalize |(m * (1 / 2 ^ k) : ℝ)| = X at *
  have a := mul_le_mul_of_nonneg_left h8 hX
  have hXp : 0 ≤ X * Real.pi := mul_nonneg hX Real.pi_pos.le
  calc 69 / 2 ^ 57 * (X * ((884279719003555 / 2 ^ 48 : ℚ) : ℝ)) + X * (1 / 2 ^ 54 * Real.pi)
      ≤ 69 / 2 ^ 57 * (X * ((1 + 1 / 2 ^ 54) * Real.pi)) + X * (1 / 2 ^ 54 * Real.pi) := by gcongr
    _ = (69 / 2 ^ 57 * (1 + 1 / 2 ^ 54) + 1 / 2 ^ 54) * (X * Real.pi) := by ring
    _ ≤ 1 / 2 ^ 50 * (X * Real.pi) := by
        apply mul_le_mul_of_nonneg_right _ hXp
        norm_num

/-- If a `double` is nearer to `x` than `y`, then `x` is not rounded to `y`. -/
theorem ne_of_nearer (hr : Nearest r) {x y f : ℚ} (hf : F f) (h : |f - x| < |y - x|) : r x ≠ y := by
  intro e
  have := hr.near x f hf
  rw [e] at this
  linarith

theorem bracket {m : Int} (h0 : 0 < m) (hm : m ≤ 2 ^ 32) :
    ∃ j : ℕ, j ≤ 32 ∧ (2 ^ j : Int) ≤ m ∧ m < 2 ^ (j + 1) := by
  obtain ⟨n, rfl⟩ : ∃ n : ℕ, m = n := ⟨m.toNat, by omega⟩
  have hn : n ≠ 0 := by omega
  refine ⟨Nat.log 2 n, ?_, ?_, ?_⟩
  · have : n ≤ 2 ^ 32 := by exact_mod_cast hm
    calc Nat.log 2 n ≤ Nat.log 2 (2 ^ 32) := Nat.log_mono_right this
      _ = 32 := Nat.log_pow (by norm_num) 32
  · exact_mod_cast Nat.pow_log_le_self 2 hn
  · exact_mod_cast Nat.lt_pow_succ_log_self (by norm_num) n

theorem never_pos (hr : Nearest r) {d : ℚ} {k : ℕ} (hk : k ≤ 100)
    (hd : d = -(1 / 2 ^ 53) ∨ d = -(1 / 2 ^ 52) ∨ d = 1 / 2 ^ 49) {m : Int} (h0 : 0 < m) (hm : m ≤ 2 ^ 32) :
    r (m * (1 / 2 ^ k * (1 + d))) ≠ m * (1 / 2 ^ k) := by
  obtain ⟨j, hj, h1, h2⟩ := bracket h0 hm
  have q1 : (2 ^ j : ℚ) ≤ m := by exact_mod_cast h1
  have q2 : (m : ℚ) < 2 ^ (j + 1) := by exact_mod_cast h2
  have hp : (0 : ℚ) < 1 / 2 ^ k := by positivity
  have hm0 : (0 : ℚ) < m := by exact_mod_cast h0
  -- the neighbours of the exact value
  have hb : ∀ s : Int, |s| ≤ 1 → F ((m + s * (2 ^ j / 2 ^ 52)) * (1 / 2 ^ k)) := by
    intro s hs
    have e : ((m : ℚ) + s * (2 ^ j / 2 ^ 52)) * (1 / 2 ^ k)
        = ((m * 2 ^ (52 - j) + s : Int) : ℚ) * (2 : ℚ) ^ ((j : Int) - 52 - k) := by
      rw [zpow_sub₀ (by norm_num), zpow_sub₀ (by norm_num), zpow_natCast, zpow_natCast]
      push_cast
      have : (2 : ℚ) ^ (52 - j) = 2 ^ 52 / 2 ^ j := by
        rw [eq_div_iff (by positivity), ← pow_add, show 52 - j + j = 52 by omega]
      rw [this, show (4503599627370496 : ℚ) = 2 ^ 52 by norm_num]
      field_simp
    rw [e]
    refine F_of_le ?_ (by omega)
    have a : m * 2 ^ (52 - j) ≤ 2 ^ 53 - 1 := by
      have : m * 2 ^ (52 - j) < 2 ^ (j + 1) * 2 ^ (52 - j) := mul_lt_mul_of_pos_right h2 (by positivity)
      rw [← pow_add, show j + 1 + (52 - j) = 53 by omega] at this
      omega
    have b : 1 ≤ m * 2 ^ (52 - j) := by
      have : (0 : Int) < m * 2 ^ (52 - j) := by positivity
      omega
    rw [abs_le] at hs ⊢
    constructor <;> omega
  have hu : (2 : ℚ) ^ (j + 1) = 2 * 2 ^ j := by ring
  rw [hu] at q2
  have hj0 : (0 : ℚ) < 2 ^ j := by positivity
  generalize hU : (2 : ℚ) ^ j = U at *
  rcases hd with rfl | rfl | rfl
  · rcases eq_or_lt_of_le q1 with e | l
    · refine ne_of_nearer hr (f := m * (1 / 2 ^ k * (1 + -(1 / 2 ^ 53)))) ?_ ?_
      · refine ⟨2 ^ 53 - 1, (j : Int) - 53 - k, by norm_num, by omega, ?_⟩
        rw [zpow_sub₀ (by norm_num), zpow_sub₀ (by norm_num), zpow_natCast, zpow_natCast, hU, ← e,
          show (2 : ℚ) ^ (53 : Int) = 2 ^ 53 by norm_cast]
        push_cast
        field_simp
        norm_num
      · rw [sub_self, abs_zero, abs_pos]
        rw [← mul_sub]
        refine mul_ne_zero hm0.ne' ?_
        rw [show (1 : ℚ) / 2 ^ k - 1 / 2 ^ k * (1 + -(1 / 2 ^ 53)) = 1 / 2 ^ k * (1 / 2 ^ 53) by ring]
        positivity
    · refine ne_of_nearer hr (hb (-1) (by norm_num)) ?_
      rw [show (m : ℚ) * (1 / 2 ^ k) - m * (1 / 2 ^ k * (1 + -(1 / 2 ^ 53))) = m / 2 ^ 53 * (1 / 2 ^ k) by ring,
        show ((m : ℚ) + ((-1 : Int) : ℚ) * (U / 2 ^ 52)) * (1 / 2 ^ k) - m * (1 / 2 ^ k * (1 + -(1 / 2 ^ 53)))
          = -((U / 2 ^ 52 - m / 2 ^ 53) * (1 / 2 ^ k)) by push_cast; ring, abs_neg, abs_mul, abs_mul]
      refine mul_lt_mul_of_pos_right ?_ (abs_pos.2 hp.ne')
      rw [abs_of_pos (by positivity : (0 : ℚ) < m / 2 ^ 53), abs_lt]
      constructor <;> linarith
  · refine ne_of_nearer hr (hb (-1) (by norm_num)) ?_
    rw [show (m : ℚ) * (1 / 2 ^ k) - m * (1 / 2 ^ k * (1 + -(1 / 2 ^ 52))) = m / 2 ^ 52 * (1 / 2 ^ k) by ring,
      show ((m : ℚ) + ((-1 : Int) : ℚ) * (U / 2 ^ 52)) * (1 / 2 ^ k) - m * (1 / 2 ^ k * (1 + -(1 / 2 ^ 52)))
        = (m / 2 ^ 52 - U / 2 ^ 52) * (1 / 2 ^ k) by push_cast; ring, abs_mul, abs_mul]
    refine mul_lt_mul_of_pos_right ?_ (abs_pos.2 hp.ne')
    rw [abs_of_pos (by positivity : (0 : ℚ) < m / 2 ^ 52), abs_lt]
    constructor <;> linarith
  · refine ne_of_nearer hr (hb 1 (by norm_num)) ?_
    rw [show (m : ℚ) * (1 / 2 ^ k) - m * (1 / 2 ^ k * (1 + 1 / 2 ^ 49)) = -(m / 2 ^ 49 * (1 / 2 ^ k)) by ring,
      show ((m : ℚ) + ((1 : Int) : ℚ) * (U / 2 ^ 52)) * (1 / 2 ^ k) - m * (1 / 2 ^ k * (1 + 1 / 2 ^ 49))
        = -((m / 2 ^ 49 - U / 2 ^ 52) * (1 / 2 ^ k)) by push_cast; ring, abs_neg, abs_neg, abs_mul, abs_mul]
    refine mul_lt_mul_of_pos_right ?_ (abs_pos.2 hp.ne')
    rw [abs_of_pos (by positivity : (0 : ℚ) < m / 2 ^ 49), abs_lt]
    constructor <;> linarith

/-- With a constant that is not quite a power of two no field but zero is scaled exactly. -/
theorem never (hr : Nearest r) {c d : ℚ} {k : ℕ} (hk : k ≤ 100) (hc : r c = 1 / 2 ^ k * (1 + d))
    (hd : d = -(1 / 2 ^ 53) ∨ d = -(1 / 2 ^ 52) ∨ d = 1 / 2 ^ 49) {m : Int} (h0 : m ≠ 0) (hm : |m| ≤ 2 ^ 32) :
    scale r c m ≠ m * (1 / 2 ^ k) := by
  rw [scale_eq hr c hm, hc]
  rw [abs_le] at hm
  rcases lt_or_gt_of_ne h0 with h | h
  · have := never_pos hr.neg hk hd (m := -m) (by omega) (by omega)
    intro e
    apply this
    push_cast
    rw [show -(-(m : ℚ) * (1 / 2 ^ k * (1 + d))) = m * (1 / 2 ^ k * (1 + d)) by ring, e]
    ring
  · exact never_pos hr hk hd h hm.2

end Verif.Scale
