import Verif.Props.FloatQuat
import Mathlib.Analysis.SpecialFunctions.Trigonometric.Bounds
/-!
# C150: the exponential of a rotation vector in `double`s (common/math/quat.h)
-/
namespace Verif.Props.FloatExp
open Verif.Model.Lie Verif.Binary64 Verif.FQuat Verif.Spec.Lie Verif.Props.FloatQuat
open Verif.Props.Quat (toH C43_hamilton)

/-- A bound of the error below the normal numbers. -/
noncomputable def η : ℝ := 2 ^ (-1000 : Int)

theorem eta_pos : 0 < η := two_zpow_posR _

theorem u_pos : 0 < u := by unfold u; norm_num

theorem u_le : u ≤ 1 / 10 ^ 15 := by unfold u; norm_num

theorem eta_mul (k : ℕ) (hk : k ≤ 500) : η * 2 ^ k ≤ 1 / 2 ^ 250 := by
  unfold η
  rw [← zpow_natCast (2 : ℝ) k, ← zpow_add₀ (by norm_num), show (1 : ℝ) / 2 ^ 250 = 2 ^ (-250 : Int) by norm_num]
  exact zpow_le_zpow_right₀ (by norm_num) (by omega)

theorem eta_le : η ≤ 1 / 2 ^ 250 := by simpa using eta_mul 0 (by norm_num)

/-- The relative error. -/
theorem rel {r : ℝ → ℝ} (hr : NearestR r) (x : ℝ) : |r x - x| ≤ u * |x| + η := by
  rcases le_or_gt |x| (2 ^ (-1000 : Int)) with h | h
  · have := hr.err (-1000) (by norm_num) h
    have h2 : (2 : ℝ) ^ (-1000 - 54 : Int) ≤ η := zpow_le_zpow_right₀ (by norm_num) (by norm_num)
    have := mul_nonneg u_pos.le (abs_nonneg x)
    linarith
  · have hx : 0 < |x| := lt_trans (two_zpow_posR _) h
    obtain ⟨k, k1, k2⟩ := exists_mem_Ioc_zpow hx (by norm_num : (1 : ℝ) < 2)
    have hk : -1000 ≤ k + 1 := by
      by_contra hc
      have : (2 : ℝ) ^ (k + 1) ≤ 2 ^ (-1000 : Int) := zpow_le_zpow_right₀ (by norm_num) (by omega)
      linarith
    have e := hr.err (k + 1) hk k2
    have : (2 : ℝ) ^ (k + 1 - 54) = u * 2 ^ k := by
      rw [show k + 1 - 54 = k + (-53) by ring, zpow_add₀ (by norm_num)]
      unfold u; norm_num [mul_comm]
    rw [this] at e
    have h3 : u * 2 ^ k ≤ u * |x| := mul_le_mul_of_nonneg_left k1.le u_pos.le
    linarith [eta_pos]

theorem sq_step {r : ℝ → ℝ} (hr : NearestR r) (fma : Bool) {acc X a k l : ℝ} (hX : 0 ≤ X) (hk : 1 ≤ k) (hk' : k ≤ 10) (hl0 : 0 ≤ l)
    (hl : l ≤ 10) (h : |acc - X| ≤ k * u * X + l * η) :
    |term r fma acc 1 a a - (X + a * a)| ≤ (k + 3 / 2) * u * (X + a * a) + (l + 3) * η := by
  have ha : 0 ≤ a * a := mul_self_nonneg a
  have hu := u_pos
  have hu' := u_le
  have he := eta_pos
  have huX : 0 ≤ u * X := by positivity
  have hua : 0 ≤ u * (a * a) := by positivity
  have kX : k * u * X ≤ X / 100 := by nlinarith
  have ka : u * (a * a) ≤ a * a / 100 := by nlinarith
  have kuX : k * u * X = k * (u * X) := by ring
  have kua : u * (a * a) ≤ k * (u * (a * a)) := by nlinarith
  have le : l * η ≤ 10 * η := by nlinarith
  have ue : u * η ≤ η / 100 := by nlinarith
  have e3 : (k + 3 / 2) * u * (X + a * a) = k * (u * X) + k * (u * (a * a)) + 3 / 2 * (u * X) + 3 / 2 * (u * (a * a)) := by ring
  rw [e3]
  have hh := abs_le.1 h
  have fin : ∀ y : ℝ, |y - (X + a * a)| ≤ k * u * X + u * (a * a) + l * η + η →
      |r y - (X + a * a)| ≤ k * (u * X) + k * (u * (a * a)) + 3 / 2 * (u * X) + 3 / 2 * (u * (a * a)) + (l + 3) * η := by
    intro y hy
    have hy' := abs_le.1 hy
    have hya : |y| ≤ 101 / 100 * (X + a * a) + 11 * η := by
      rw [abs_le]; constructor <;> linarith [hy'.1, hy'.2]
    have g := abs_le.1 (rel hr y)
    have g2 : u * |y| ≤ 101 / 100 * (u * X) + 101 / 100 * (u * (a * a)) + 11 * (u * η) := by
      calc u * |y| ≤ u * (101 / 100 * (X + a * a) + 11 * η) := by gcongr
        _ = _ := by ring
    rw [abs_le]
    constructor <;> linarith [g.1, g.2, hy'.1, hy'.2]
  unfold term
  split
  · apply fin
    rw [one_mul, add_sub_add_right_eq_sub]
    linarith
  · apply fin
    have g := rel hr (a * a)
    rw [abs_of_nonneg ha] at g
    have g' := abs_le.1 g
    rw [one_mul, abs_le]
    constructor <;> linarith [g'.1, g'.2, hh.1, hh.2]

theorem sq3_err {r : ℝ → ℝ} (hr : NearestR r) (fma : Bool) (a b c : ℝ) :
    |sq3 r fma a b c - (a * a + b * b + c * c)| ≤ 4 * u * (a * a + b * b + c * c) + 7 * η := by
  have ha : 0 ≤ a * a := mul_self_nonneg a
  have hb : 0 ≤ b * b := mul_self_nonneg b
  have g := rel hr (a * a)
  rw [abs_of_nonneg ha] at g
  have e1 := sq_step hr fma (a := b) ha (k := 1) (l := 1) (by norm_num) (by norm_num) (by norm_num) (by norm_num)
    (by rw [one_mul, one_mul]; exact g)
  have e2 := sq_step hr fma (a := c) (by linarith) (by norm_num) (by norm_num) (by norm_num) (by norm_num) e1
  unfold sq3
  refine e2.trans (le_of_eq (by ring))

theorem sq4_err {r : ℝ → ℝ} (hr : NearestR r) (fma : Bool) (a b c d : ℝ) :
    |sq4 r fma a b c d - (a * a + b * b + c * c + d * d)| ≤ 11 / 2 * u * (a * a + b * b + c * c + d * d) + 10 * η := by
  have ha : 0 ≤ a * a := mul_self_nonneg a
  have hb : 0 ≤ b * b := mul_self_nonneg b
  have hc : 0 ≤ c * c := mul_self_nonneg c
  have e2 := sq_step hr fma (a := d) (by linarith) (by norm_num) (by norm_num) (by norm_num) (by norm_num) (sq3_err hr fma a b c)
  unfold sq4
  refine e2.trans (le_of_eq (by ring))

/-- The root of a sum of squares. -/
theorem root_err {r : ℝ → ℝ} (hr : NearestR r) {s q : ℝ} (hq : 1 / 2 ^ 120 ≤ q) (h : |s - q| ≤ 6 * u * q + 10 * η) :
    |r (Real.sqrt s) - Real.sqrt q| ≤ 9 * u * Real.sqrt q ∧ 1 / 2 ^ 60 ≤ Real.sqrt q := by
  have hu := u_pos
  have hu' := u_le
  have h20 : 1 / 2 ^ 60 ≤ Real.sqrt q := by
    apply Real.le_sqrt_of_sq_le
    refine le_trans (le_of_eq (by norm_num)) hq
  refine ⟨?_, h20⟩
  have hq0 : 0 < q := lt_of_lt_of_le (by norm_num) hq
  have e : 10 * η ≤ u * q := by
    have := eta_le
    have : u * (1 / 2 ^ 120) ≤ u * q := by gcongr
    have : 10 * (1 / 2 ^ 250 : ℝ) ≤ u * (1 / 2 ^ 120) := by unfold u; norm_num
    linarith
  have h' : |s - q| ≤ 7 * (u * q) := by linarith
  have uq : u * q ≤ q / 1000 := by nlinarith
  have hs0 : 0 ≤ s := by linarith [(abs_le.1 h').1]
  set b := Real.sqrt q with hb
  set a := Real.sqrt s with ha
  have a2 : a * a = s := Real.mul_self_sqrt hs0
  have b2 : b * b = q := Real.mul_self_sqrt hq0.le
  have a0 : 0 ≤ a := Real.sqrt_nonneg s
  have b0 : 0 < b := lt_of_lt_of_le (by norm_num) h20
  have d : |a - b| ≤ 7 * (u * b) := by
    have : |a - b| * (a + b) ≤ 7 * (u * b) * (a + b) := by
      rw [show |a - b| * (a + b) = |a - b| * |a + b| by rw [abs_of_pos (by linarith : 0 < a + b)], ← abs_mul,
        show (a - b) * (a + b) = s - q by rw [← a2, ← b2]; ring]
      refine h'.trans ?_
      rw [← b2]
      have : 0 ≤ u * b * a := by positivity
      nlinarith
    exact le_of_mul_le_mul_right this (by linarith)
  have ub : u * b ≤ b / 1000 := by nlinarith
  have g := rel hr a
  rw [abs_of_nonneg a0] at g
  have d' := abs_le.1 d
  have ua : u * a ≤ 3 / 2 * (u * b) := by
    have : a ≤ 3 / 2 * b := by linarith [d'.2]
    calc u * a ≤ u * (3 / 2 * b) := by gcongr
      _ = _ := by ring
  have e2 : η ≤ 1 / 2 * (u * b) := by
    have := eta_le
    have : u * (1 / 2 ^ 60) ≤ u * b := by gcongr
    have : (1 / 2 ^ 250 : ℝ) ≤ 1 / 2 * (u * (1 / 2 ^ 60)) := by unfold u; norm_num
    linarith
  have t := abs_add_le (r a - a) (a - b)
  rw [sub_add_sub_cancel] at t
  rw [show 9 * u * b = 9 * (u * b) by ring]
  linarith

/-- A quaternion close to one of length one. -/
theorem near_unit {e p : Quat} {c : ℝ} (hp : p.w ^ 2 + p.x ^ 2 + p.y ^ 2 + p.z ^ 2 = 1) (hc : 0 ≤ c) (hw : |e.w - p.w| ≤ c)
    (hx : |e.x - p.x| ≤ c) (hy : |e.y - p.y| ≤ c) (hz : |e.z - p.z| ≤ c) : |‖toH e‖ - 1| ≤ 2 * c := by
  have h1 : ‖toH p‖ = 1 := by
    have h := norm_toH_sq p
    rw [hp] at h
    have := norm_nonneg (toH p)
    nlinarith
  have h2 := norm_le_of (q := e.sub p) hc hw hx hy hz
  rw [(C43_hamilton e p 1).2.2.2.2.1] at h2
  have h3 := abs_norm_sub_norm_le (toH e) (toH p)
  rw [h1] at h3
  linarith

theorem quot {A m n x : ℝ} (hn : 0 < n) (hm : 0 < m) (hmn : |m - n| ≤ 9 * u * n) (hx : |x| ≤ n) :
    |A * x / m - A * x / n| ≤ |A| * (91 / 10 * u) ∧ |x| / m ≤ 101 / 100 := by
  have hu := u_pos
  have hu' := u_le
  have un : u * n ≤ n / 10000 := by nlinarith
  have h := abs_le.1 hmn
  have hnm : n ≤ 1001 / 1000 * m := by linarith [h.1]
  constructor
  · have e : A * x / m - A * x / n = A * (x / n) * ((n - m) / m) := by field_simp
    rw [e, abs_mul, abs_mul, mul_assoc]
    have b1 : |x / n| ≤ 1 := by rw [abs_div, abs_of_pos hn]; exact (div_le_one hn).2 hx
    have b2 : |(n - m) / m| ≤ 91 / 10 * u := by
      rw [abs_div, abs_of_pos hm, div_le_iff₀ hm, abs_sub_comm]
      refine hmn.trans ?_
      have : u * n ≤ u * (1001 / 1000 * m) := by gcongr
      have : 0 ≤ u * m := by positivity
      linarith
    have : |x / n| * |(n - m) / m| ≤ 1 * (91 / 10 * u) := mul_le_mul b1 b2 (abs_nonneg _) (by norm_num)
    rw [one_mul] at this
    exact mul_le_mul_of_nonneg_left this (abs_nonneg A)
  · rw [div_le_iff₀ hm]; linarith

/-- The elements that `normalize` computes. -/
theorem normalize_err {r : ℝ → ℝ} (hr : NearestR r) (fma : Bool) (q : Quat) (hq : 1 / 2 ^ 20 ≤ ‖toH q‖) :
    |(FQuat.normalize r fma q).w - q.w / ‖toH q‖| ≤ 11 * u ∧ |(FQuat.normalize r fma q).x - q.x / ‖toH q‖| ≤ 11 * u ∧
    |(FQuat.normalize r fma q).y - q.y / ‖toH q‖| ≤ 11 * u ∧ |(FQuat.normalize r fma q).z - q.z / ‖toH q‖| ≤ 11 * u := by
  have hu := u_pos
  have hu' := u_le
  have hsq := norm_toH_sq q
  have hq2 : 1 / 2 ^ 40 ≤ q.w * q.w + q.x * q.x + q.y * q.y + q.z * q.z := by
    have : (1 / 2 ^ 20) ^ 2 ≤ ‖toH q‖ ^ 2 := by gcongr
    rw [hsq] at this
    norm_num at this ⊢
    linarith
  have h4 := sq4_err hr fma q.w q.x q.y q.z
  set Q := q.w * q.w + q.x * q.x + q.y * q.y + q.z * q.z with hQ
  have hQ0 : 0 < Q := lt_of_lt_of_le (by norm_num) hq2
  have hnn : Real.sqrt Q = ‖toH q‖ := by
    rw [Real.sqrt_eq_iff_mul_self_eq hQ0.le (norm_nonneg _), ← sq, hsq, hQ]; ring
  obtain ⟨h5, h6⟩ := root_err hr ((by norm_num : (1 : ℝ) / 2 ^ 120 ≤ 1 / 2 ^ 40).trans hq2) (h4.trans (by nlinarith [mul_pos hu hQ0]))
  unfold FQuat.normalize
  simp only
  generalize r (Real.sqrt (sq4 r fma q.w q.x q.y q.z)) = m at *
  have n2 : Real.sqrt Q * Real.sqrt Q = Q := Real.mul_self_sqrt hQ0.le
  rw [hnn] at n2 h5 h6
  generalize ‖toH q‖ = n at *
  have hn : 0 < n := lt_of_lt_of_le (by norm_num) h6
  have un : u * n ≤ n / 10000 := by nlinarith
  have hm : 0 < m := by linarith [(abs_le.1 h5).1]
  have k : ∀ x : ℝ, x * x ≤ Q → |r (x / m) - x / n| ≤ 11 * u := by
    intro x hx
    have hxn : |x| ≤ n := by
      apply abs_le_of_sq_le_sq _ hn.le
      nlinarith
    obtain ⟨b1, b2⟩ := quot (A := 1) hn hm h5 hxn
    rw [one_mul, abs_one, one_mul] at b1
    have g := rel hr (x / m)
    rw [abs_div, abs_of_pos hm] at g
    have : u * (|x| / m) ≤ u * (101 / 100) := by gcongr
    have e2 : η ≤ 1 / 2 * u := by
      have := eta_le
      have : (1 / 2 ^ 250 : ℝ) ≤ 1 / 2 * u := by unfold u; norm_num
      linarith
    have t := abs_add_le (r (x / m) - x / m) (x / m - x / n)
    rw [sub_add_sub_cancel] at t
    linarith
  have s1 := mul_self_nonneg q.w
  have s2 := mul_self_nonneg q.x
  have s3 := mul_self_nonneg q.y
  have s4 := mul_self_nonneg q.z
  exact ⟨k _ (by linarith), k _ (by linarith), k _ (by linarith), k _ (by linarith)⟩

/-- **C150.** `normalize` in `double`s gives the length one up to `2 ^ -48`, for every quaternion that is not tiny. -/
theorem C150_normalize {r : ℝ → ℝ} (hr : NearestR r) (fma : Bool) (q : Quat) (hq : 1 / 2 ^ 20 ≤ ‖toH q‖) :
    |‖toH (FQuat.normalize r fma q)‖ - 1| ≤ 1 / 2 ^ 48 := by
  obtain ⟨h1, h2, h3, h4⟩ := normalize_err hr fma q hq
  have hsq := norm_toH_sq q
  have hn : 0 < ‖toH q‖ := lt_of_lt_of_le (by norm_num) hq
  generalize ‖toH q‖ = n at *
  have := near_unit (e := FQuat.normalize r fma q) (p := ⟨q.w / n, q.x / n, q.y / n, q.z / n⟩) (c := 11 * u) (by
      simp only [div_pow, ← add_div]
      rw [div_eq_one_iff_eq (by positivity), hsq]) (by have := u_pos; positivity) h1 h2 h3 h4
  refine this.trans ?_
  unfold u
  norm_num

/-- The limit between the two formulas. -/
theorem limit {r : ℝ → ℝ} (hr : NearestR r) : 1 / 2 ^ 18 ≤ r (4 / 10 ^ 6) ∧ r (4 / 10 ^ 6) ≤ 1 / 2 ^ 17 := by
  have h := abs_le.1 (rerr hr (x := 4 / 10 ^ 6) (by rw [abs_le]; norm_num))
  unfold u at h
  norm_num at h ⊢
  constructor <;> linarith [h.1, h.2]

/-- The first formula: the sine divided by the length. -/
theorem exp_first {r S : ℝ → ℝ} (hr : NearestR r) (hS : ∀ x, |S x - Real.sin x| ≤ 2 * u)
    (fma : Bool) (v : V3) (hv : ∀ k, |v k| ≤ 2 ^ 500) (m : ℝ) (hmd : r (Real.sqrt (sq3 r fma (v 0) (v 1) (v 2))) = m)
    (hlt : 1 / 2 ^ 18 ≤ m) :
    ∃ n, 0 < n ∧ n * n = v 0 * v 0 + v 1 * v 1 + v 2 * v 2 ∧ |m - n| ≤ 9 * u * n ∧
      ∀ k, |r (r (S (m / 2) / m) * v k) - Real.sin (m / 2) / n * v k| ≤ 14 * u := by
  have hu := u_pos
  have hu' := u_le
  have h3 := sq3_err hr fma (v 0) (v 1) (v 2)
  set Q := v 0 * v 0 + v 1 * v 1 + v 2 * v 2 with hQ
  have s1 := mul_self_nonneg (v 0)
  have s2 := mul_self_nonneg (v 1)
  have s3 := mul_self_nonneg (v 2)
  have hQn : 0 ≤ Q := by linarith
  have uQ : 0 ≤ u * Q := by positivity
  have hbig : 1 / 2 ^ 40 ≤ Q := by
    have g := abs_le.1 (rel hr (Real.sqrt (sq3 r fma (v 0) (v 1) (v 2))))
    rw [hmd] at g
    have a0 := Real.sqrt_nonneg (sq3 r fma (v 0) (v 1) (v 2))
    rw [abs_of_nonneg a0] at g
    have he := eta_le
    have b : (1 : ℝ) / 2 ^ 19 ≤ Real.sqrt (sq3 r fma (v 0) (v 1) (v 2)) := by
      by_contra hc
      push Not at hc
      have : u * Real.sqrt (sq3 r fma (v 0) (v 1) (v 2)) ≤ 1 / 10 ^ 15 * (1 / 2 ^ 19) := by gcongr
      norm_num at *
      linarith [g.2]
    have c : (1 / 2 ^ 19) ^ 2 ≤ sq3 r fma (v 0) (v 1) (v 2) := by
      have := Real.le_sqrt' (by norm_num : (0 : ℝ) < 1 / 2 ^ 19) |>.1 b
      exact this
    by_contra hc
    push Not at hc
    have := (abs_le.1 h3).2
    have : u * Q ≤ 1 / 10 ^ 15 * (1 / 2 ^ 40) := by gcongr
    norm_num at *
    linarith
  obtain ⟨h5, h6⟩ := root_err hr ((by norm_num : (1 : ℝ) / 2 ^ 120 ≤ 1 / 2 ^ 40).trans hbig) (h3.trans (by linarith [eta_pos]))
  have hQ0 : 0 < Q := lt_of_lt_of_le (by norm_num) hbig
  rw [hmd] at h5
  have n2 : Real.sqrt Q * Real.sqrt Q = Q := Real.mul_self_sqrt hQ0.le
  generalize Real.sqrt Q = n at *
  have hn : 0 < n := lt_of_lt_of_le (by norm_num) h6
  have un : u * n ≤ n / 10000 := by nlinarith
  have hm : 0 < m := by linarith [(abs_le.1 h5).1]
  have hSm := hS (m / 2)
  have hs1 : |Real.sin (m / 2)| ≤ 1 := Real.abs_sin_le_one _
  generalize S (m / 2) = σ at *
  generalize Real.sin (m / 2) = A at *
  have hσ : |σ| ≤ 101 / 100 := by
    have := abs_add_le (σ - A) A
    rw [sub_add_cancel] at this
    linarith
  have ηu : η ≤ 1 / 100 * u := by
    have := eta_le
    have : (1 / 2 ^ 250 : ℝ) ≤ 1 / 100 * u := by unfold u; norm_num
    linarith
  have k : ∀ x : ℝ, x * x ≤ Q → |x| ≤ 2 ^ 500 → |r (r (σ / m) * x) - A / n * x| ≤ 14 * u := by
    intro x hx hx5
    have hxn : |x| ≤ n := by
      apply abs_le_of_sq_le_sq _ hn.le
      nlinarith
    obtain ⟨b1, b2⟩ := quot (A := A) hn hm h5 hxn
    have b1' : |A * x / m - A * x / n| ≤ 91 / 10 * u := b1.trans (by nlinarith [abs_nonneg A])
    -- the sine
    have c1 : |σ * x / m - A * x / m| ≤ 202 / 100 * u := by
      rw [← sub_div, ← sub_mul, abs_div, abs_mul, abs_of_pos hm, mul_div_assoc]
      have := mul_le_mul hSm b2 (by positivity) (by positivity)
      linarith
    have c2 : |σ * x / m| ≤ 103 / 100 := by
      rw [abs_div, abs_mul, abs_of_pos hm, mul_div_assoc]
      have := mul_le_mul hσ b2 (by positivity) (by positivity)
      norm_num at this ⊢
      linarith
    -- the quotient
    have ηx : η * |x| ≤ 1 / 100 * u := by
      have h1 : η * |x| ≤ η * 2 ^ 500 := mul_le_mul_of_nonneg_left hx5 eta_pos.le
      have h2 := eta_mul 500 (by norm_num)
      have : (1 / 2 ^ 250 : ℝ) ≤ 1 / 100 * u := by unfold u; norm_num
      linarith
    have d1 : |r (σ / m) * x - σ * x / m| ≤ 105 / 100 * u := by
      rw [show σ * x / m = σ / m * x by ring, ← sub_mul, abs_mul]
      have g := rel hr (σ / m)
      have : |r (σ / m) - σ / m| * |x| ≤ (u * |σ / m| + η) * |x| := mul_le_mul_of_nonneg_right g (abs_nonneg x)
      have e : (u * |σ / m| + η) * |x| = u * |σ * x / m| + η * |x| := by
        rw [show σ * x / m = σ / m * x by ring, abs_mul]; ring
      have : u * |σ * x / m| ≤ u * (103 / 100) := by gcongr
      linarith
    have d2 : |r (σ / m) * x| ≤ 104 / 100 := by
      have := abs_add_le (r (σ / m) * x - σ * x / m) (σ * x / m)
      rw [sub_add_cancel] at this
      linarith
    have g := rel hr (r (σ / m) * x)
    have : u * |r (σ / m) * x| ≤ u * (104 / 100) := by gcongr
    have t1 := abs_add_le (r (r (σ / m) * x) - r (σ / m) * x) (r (σ / m) * x - σ * x / m)
    have t2 := abs_add_le (r (r (σ / m) * x) - σ * x / m) (σ * x / m - A * x / m)
    have t3 := abs_add_le (r (r (σ / m) * x) - A * x / m) (A * x / m - A * x / n)
    rw [sub_add_sub_cancel] at t1 t2 t3
    rw [show A / n * x = A * x / n by ring]
    linarith
  refine ⟨n, hn, n2, h5, fun k' => ?_⟩
  fin_cases k'
  · exact k (v 0) (by linarith) (hv 0)
  · exact k (v 1) (by linarith) (hv 1)
  · exact k (v 2) (by linarith) (hv 2)

/-- **C150.** The exponential in `double`s has the length one up to `2 ^ -48`, on both sides of the limit between its two formulas, for
every sine and cosine right to `2 ^ -52`: what `C150_compose` asks of its factors. -/
theorem C150_exp {r S C : ℝ → ℝ} (hr : NearestR r) (hS : ∀ x, |S x - Real.sin x| ≤ 1 / 2 ^ 52)
    (hC : ∀ x, |C x - Real.cos x| ≤ 1 / 2 ^ 52) (fma : Bool) (v : V3) (hv : ∀ k, |v k| ≤ 2 ^ 500) :
    |‖toH (FQuat.exp r S C fma v)‖ - 1| ≤ 1 / 2 ^ 48 := by
  have hu := u_pos
  have hu' := u_le
  have u2 : (1 : ℝ) / 2 ^ 52 = 2 * u := by unfold u; norm_num
  rw [u2] at hS hC
  obtain ⟨l1, l2⟩ := limit hr
  unfold FQuat.exp
  simp only
  split_ifs with hlt
  · generalize hmd : r (Real.sqrt (sq3 r fma (v 0) (v 1) (v 2))) = m at *
    obtain ⟨n, hn, n2, -, k⟩ := exp_first hr hS fma v hv m hmd (l1.trans hlt.le)
    have hcs := Real.sin_sq_add_cos_sq (m / 2)
    have hCm := hC (m / 2)
    generalize Real.sin (m / 2) = A at *
    have := near_unit (e := ⟨C (m / 2), r (r (S (m / 2) / m) * v 0), r (r (S (m / 2) / m) * v 1), r (r (S (m / 2) / m) * v 2)⟩)
      (p := ⟨Real.cos (m / 2), A / n * v 0, A / n * v 1, A / n * v 2⟩) (c := 14 * u) (by
        have e : (A / n) ^ 2 * (n * n) = A ^ 2 := by field_simp
        simp only
        linear_combination hcs + e - (A / n) ^ 2 * n2) (by positivity) (by simp only; linarith) (k 0) (k 1) (k 2)
    refine this.trans ?_
    unfold u
    norm_num
  · -- the series, normalised
    apply C150_normalize hr
    push Not at hlt
    have hN0 : 0 ≤ r (Real.sqrt (sq3 r fma (v 0) (v 1) (v 2))) := by
      obtain ⟨f, hf, hrf⟩ := hr.mem (Real.sqrt (sq3 r fma (v 0) (v 1) (v 2)))
      have a0 := Real.sqrt_nonneg (sq3 r fma (v 0) (v 1) (v 2))
      have h1 := hr.near (Real.sqrt (sq3 r fma (v 0) (v 1) (v 2))) 0 F_zero
      rw [Rat.cast_zero, zero_sub, abs_neg, abs_of_nonneg a0] at h1
      linarith [(abs_le.1 h1).1]
    generalize r (Real.sqrt (sq3 r fma (v 0) (v 1) (v 2))) = m at *
    have hc := Real.one_sub_sq_div_two_le_cos (x := m / 2)
    have hm : m ≤ 1 / 2 ^ 17 := hlt.trans l2
    have hm2 : (m / 2) ^ 2 ≤ 1 := by
      have : m / 2 ≤ 1 := by norm_num at hm ⊢; linarith
      have : 0 ≤ m / 2 := by linarith
      nlinarith
    have hCm := (abs_le.1 (hC (m / 2))).1
    have hw : 1 / 4 ≤ C (m / 2) := by linarith
    set q : Quat := ⟨C (m / 2), _, _, _⟩ with hq
    have h := norm_toH_sq q
    have h0 := norm_nonneg (toH q)
    have hw' : 1 / 4 ≤ q.w := hw
    have : 1 / 16 ≤ ‖toH q‖ ^ 2 := by
      rw [h]
      nlinarith [sq_nonneg q.x, sq_nonneg q.y, sq_nonneg q.z]
    by_contra hcon
    push Not at hcon
    have : ‖toH q‖ ^ 2 ≤ (1 / 2 ^ 20) ^ 2 := by gcongr
    norm_num at *
    linarith

/-- **C150.** The rotation that an integration of `n` increments accumulates, exponentials and products in `double`s: its length is within
`n / 2 ^ 46` of one, for all increments and up to `2 ^ 40` of them. -/
theorem C150_integrate {r S C : ℝ → ℝ} (hr : NearestR r) (hS : ∀ x, |S x - Real.sin x| ≤ 1 / 2 ^ 52)
    (hC : ∀ x, |C x - Real.cos x| ≤ 1 / 2 ^ 52) (fma : Bool) (vs : List V3) (hv : ∀ v ∈ vs, ∀ k, |v k| ≤ 2 ^ 500)
    (hn : vs.length ≤ 2 ^ 40) :
    |‖toH (vs.foldl (fun q v => FQuat.mul r fma q (FQuat.exp r S C fma v)) Quat.identity)‖ - 1| ≤ vs.length / 2 ^ 46 := by
  have := (C150_compose hr fma (vs.map (FQuat.exp r S C fma)) (by simpa using hn) (by
    intro e he
    obtain ⟨v, h1, rfl⟩ := List.mem_map.1 he
    exact C150_exp hr hS hC fma v (hv v h1))).2
  unfold compose at this
  rw [List.foldl_map, List.length_map] at this
  exact this

/-- There are such functions. -/
example : ∃ r S C : ℝ → ℝ, NearestR r ∧ (∀ x, |S x - Real.sin x| ≤ 1 / 2 ^ 52) ∧ (∀ x, |C x - Real.cos x| ≤ 1 / 2 ^ 52) ∧
    ∃ vs : List V3, vs.length = 2 ∧ ∀ v ∈ vs, ∀ k, |v k| ≤ 2 ^ 500 := by
  obtain ⟨r, hr⟩ := exists_nearestR
  refine ⟨r, fun x => r (Real.sin x), fun x => r (Real.cos x), hr, fun x => ?_, fun x => ?_, [![1, 2, 3], ![0, 1 / 10 ^ 7, 0]], rfl, ?_⟩
  · refine (rerr hr ((Real.abs_sin_le_one x).trans (by norm_num))).trans (by unfold u; norm_num)
  · refine (rerr hr ((Real.abs_cos_le_one x).trans (by norm_num))).trans (by unfold u; norm_num)
  · have b : (3 : ℝ) ≤ 2 ^ 500 := by
      calc (3 : ℝ) ≤ 2 ^ 2 := by norm_num
        _ ≤ 2 ^ 500 := pow_le_pow_right₀ (by norm_num) (by norm_num)
    intro v h k
    simp only [List.mem_cons, List.not_mem_nil, or_false] at h
    refine le_trans ?_ b
    rcases h with rfl | rfl <;> fin_cases k <;> norm_num [abs_le]

end Verif.Props.FloatExp
