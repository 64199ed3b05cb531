import Verif.Spec.RealRounding
import Verif.Lemmas.Binary64
import Mathlib.Algebra.Order.Archimedean.Real.Basic
import Mathlib.Algebra.Order.Round
import Mathlib.Data.Set.Finite.Lemmas
import Mathlib.Order.Interval.Set.Infinite
import Mathlib.Data.Int.Interval
/-! Helper lemmas for the rounding of real numbers. -/
namespace Verif.Binary64

theorem two_zpow_posR (e : Int) : (0 : ℝ) < 2 ^ e := zpow_pos (by norm_num) e

/-- Half a place of the numbers below `2 ^ k`. -/
theorem NearestR.err {r : ℝ → ℝ} (hr : NearestR r) (k : Int) (hk : -1000 ≤ k) {x : ℝ} (hx : |x| ≤ 2 ^ k) :
    |r x - x| ≤ 2 ^ (k - 54) := by
  have p := two_zpow_posR (k - 53)
  set y := x / 2 ^ (k - 53) with hy
  have hxy : x = y * 2 ^ (k - 53) := by rw [hy]; field_simp
  have hyb : |y| ≤ 2 ^ 53 := by
    rw [hy, abs_div, abs_of_pos p, div_le_iff₀ p]
    refine le_trans hx (le_of_eq ?_)
    rw [show (2 : ℝ) ^ 53 = 2 ^ (53 : Int) by norm_cast, ← zpow_add₀ (by norm_num)]
    congr 1; omega
  have h1 := abs_sub_round y
  have hm : |round y| ≤ 2 ^ 53 := by
    have h2 : |(round y : ℝ)| ≤ 2 ^ 53 + 1 / 2 := by
      have : |(round y : ℝ)| ≤ |y| + |y - round y| := by
        have := abs_sub y (y - round y)
        rwa [sub_sub_cancel] at this
      linarith
    have h3 : ((|round y| : Int) : ℝ) < ((2 ^ 53 + 1 : Int) : ℝ) := by push_cast; linarith
    have h4 : |round y| < 2 ^ 53 + 1 := by exact_mod_cast h3
    omega
  have hF : F (round y * (2 : ℚ) ^ (k - 53)) := F_of_le hm (by omega)
  refine le_trans (hr.near x _ hF) ?_
  push_cast
  rw [hxy, ← sub_mul, abs_mul, abs_of_pos p, abs_sub_comm]
  have e : (2 : ℝ) ^ (k - 54) = 1 / 2 * 2 ^ (k - 53) := by
    rw [show k - 54 = (k - 53) - 1 by ring, zpow_sub₀ (by norm_num) (k - 53)]
    norm_num; ring
  rw [e]
  exact mul_le_mul_of_nonneg_right h1 p.le

theorem F_zero : F 0 := by simpa using F_int (n := 0) (by norm_num)

/-- Every double is a whole multiple of the least. -/
theorem F_least {f : ℚ} (h : F f) : ∃ k : Int, f = k * (2 : ℚ) ^ (-1074 : Int) := by
  obtain ⟨m, e, -, he, rfl⟩ := h
  obtain ⟨j, hj⟩ : ∃ j : ℕ, e + 1074 = j := ⟨(e + 1074).toNat, by omega⟩
  refine ⟨m * 2 ^ j, ?_⟩
  push_cast
  rw [mul_assoc, ← zpow_natCast (2 : ℚ) j, ← zpow_add₀ (by norm_num)]
  congr 2; omega

/-- There are roundings to nearest. -/
theorem exists_nearestR : ∃ r, NearestR r := by
  have key : ∀ x : ℝ, ∃ f : ℚ, F f ∧ ∀ g : ℚ, F g → |(f : ℝ) - x| ≤ |(g : ℝ) - x| := by
    intro x
    have p := two_zpow_posR (-1074)
    let S : Set Int := {k | F (k * (2 : ℚ) ^ (-1074 : Int)) ∧ |(k : ℝ) * 2 ^ (-1074 : Int) - x| ≤ |x|}
    have hfin : S.Finite := by
      refine (Set.finite_Icc (-⌈2 * |x| / 2 ^ (-1074 : Int)⌉) ⌈2 * |x| / 2 ^ (-1074 : Int)⌉).subset ?_
      rintro k ⟨-, hk⟩
      have h1 : |(k : ℝ) * 2 ^ (-1074 : Int)| ≤ 2 * |x| := by
        have := abs_sub_abs_le_abs_sub ((k : ℝ) * 2 ^ (-1074 : Int)) x
        linarith
      rw [abs_mul, abs_of_pos p, ← le_div_iff₀ p] at h1
      have h2 := h1.trans (Int.le_ceil _)
      have h3 : |k| ≤ ⌈2 * |x| / 2 ^ (-1074 : Int)⌉ := by exact_mod_cast h2
      exact ⟨(abs_le.1 h3).1, (abs_le.1 h3).2⟩
    have h0 : (0 : Int) ∈ S := ⟨by simpa using F_zero, by simp⟩
    obtain ⟨k, hk, hmin⟩ := Set.exists_min_image S (fun k : Int => |(k : ℝ) * 2 ^ (-1074 : Int) - x|) hfin ⟨0, h0⟩
    refine ⟨k * (2 : ℚ) ^ (-1074 : Int), hk.1, fun g hg => ?_⟩
    obtain ⟨j, rfl⟩ := F_least hg
    have cast : ∀ i : Int, (((i : ℚ) * (2 : ℚ) ^ (-1074 : Int) : ℚ) : ℝ) = (i : ℝ) * 2 ^ (-1074 : Int) := by
      intro i; rw [Rat.cast_mul, Rat.cast_intCast, Rat.cast_zpow, Rat.cast_ofNat]
    rw [cast, cast]
    by_cases hj : |(j : ℝ) * 2 ^ (-1074 : Int) - x| ≤ |x|
    · exact hmin j ⟨hg, hj⟩
    · push Not at hj
      exact hk.2.trans hj.le
  choose f h1 h2 using key
  exact ⟨fun x => f x, fun x => ⟨f x, h1 x, rfl⟩, fun x g hg => h2 x g hg⟩

/-- Differences that get no larger are exact. -/
theorem F_sub {x : ℚ} (hx : F x) (c : Int) (k : ℕ) (hb : |x| ≤ 2 ^ (53 + k)) (hd : |x - c * 2 ^ k| ≤ |x|) :
    F (x - c * 2 ^ k) := by
  obtain ⟨m, e, hm, he, rfl⟩ := hx
  rcases le_or_gt e k with h | h
  · obtain ⟨j, hj⟩ : ∃ j : ℕ, (k : Int) - e = j := ⟨((k : Int) - e).toNat, by omega⟩
    have p := two_zpow_pos e
    have e1 : (m : ℚ) * 2 ^ e - c * 2 ^ k = ((m - c * 2 ^ j : Int) : ℚ) * 2 ^ e := by
      have : (2 : ℚ) ^ k = 2 ^ j * 2 ^ e := by
        rw [← zpow_natCast, ← zpow_natCast, ← zpow_add₀ (by norm_num)]; congr 1; omega
      push_cast; rw [this]; ring
    rw [e1] at hd ⊢
    rw [abs_mul, abs_mul, abs_of_pos p] at hd
    have h2 : |((m - c * 2 ^ j : Int) : ℚ)| ≤ |(m : ℚ)| := le_of_mul_le_mul_right hd p
    have h3 : |m - c * 2 ^ j| ≤ |m| := by exact_mod_cast h2
    exact F_of_le (by omega) he
  · obtain ⟨j, hj⟩ : ∃ j : ℕ, e - k = j := ⟨(e - k).toNat, by omega⟩
    have p : (0 : ℚ) < 2 ^ k := by positivity
    have e0 : (m : ℚ) * 2 ^ e = ((m * 2 ^ j : Int) : ℚ) * 2 ^ k := by
      have : (2 : ℚ) ^ e = 2 ^ j * 2 ^ k := by
        rw [← zpow_natCast, ← zpow_natCast, ← zpow_add₀ (by norm_num)]; congr 1; omega
      push_cast; rw [this]; ring
    have e1 : (m : ℚ) * 2 ^ e - c * 2 ^ k = ((m * 2 ^ j - c : Int) : ℚ) * 2 ^ (k : Int) := by
      rw [e0, zpow_natCast]; push_cast; ring
    have h1 := hd.trans hb
    rw [e1, abs_mul, zpow_natCast, abs_of_pos p, pow_add] at h1
    have h2 := le_of_mul_le_mul_right h1 p
    rw [e1]
    exact F_of_le (by exact_mod_cast h2) (by omega)

end Verif.Binary64
