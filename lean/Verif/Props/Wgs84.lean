import Verif.Model.Wgs84
import Verif.Props.LightTime
import Verif.Lemmas.Lie
import Verif.Props.QuatLog
import Mathlib.Analysis.SpecialFunctions.Trigonometric.ArctanDeriv
import Mathlib.Tactic.Linarith
import Mathlib.Tactic.FieldSimp
import Mathlib.Tactic.NormNum

/-!
C101 and C102: geodetic coordinates (`utils/wgs84.cxx`).
-/

namespace Verif.Props.Wgs84

open Verif.Model.Lie Verif.Model.Wgs84 Verif.Lemmas.Lie Verif.Props.Quat

theorem w3_0 (a b c : ℝ) : (![a, b, c] : V3) 0 = a := rfl
theorem w3_1 (a b c : ℝ) : (![a, b, c] : V3) 1 = b := rfl
theorem w3_2 (a b c : ℝ) : (![a, b, c] : V3) 2 = c := rfl

theorem A_pos : 0 < A := by unfold A; norm_num
theorem B_pos : 0 < B := by unfold B; norm_num

/-- The square of the eccentricity. -/
theorem E2_eq : E2 = 1 - B ^ 2 / A ^ 2 := by
  have := A_pos.ne'
  unfold E2 F
  field_simp
  ring

theorem E2_bounds : 0.00669437 < E2 ∧ E2 < 0.00669439 := by
  unfold E2 F A B
  norm_num

theorem E2_pos : 0 < E2 := by linarith [E2_bounds.1]

/-! ### Geometry of `lla2ecef` -/

/-- On the surface of the earth. -/
def OnEllipsoid (p : V3) : Prop := (p 0 ^ 2 + p 1 ^ 2) / A ^ 2 + p 2 ^ 2 / B ^ 2 = 1

/-- The direction up at a latitude and a longitude. -/
noncomputable def up (lat lon : ℝ) : V3 := ![Real.cos lat * Real.cos lon, Real.cos lat * Real.sin lon, Real.sin lat]

theorem up_unit (lat lon : ℝ) : dot (up lat lon) (up lat lon) = 1 := by
  simp only [dot, up, w3_0, w3_1, w3_2]
  linear_combination Real.cos lat ^ 2 * Real.sin_sq_add_cos_sq lon + Real.sin_sq_add_cos_sq lat

/-- The radicand. -/
theorem rad_pos (s : ℝ) (hs : s ^ 2 ≤ 1) : 0 < 1 - E2 * s * s := by
  nlinarith [E2_bounds.2, E2_pos]

theorem sin_sq_le (x : ℝ) : Real.sin x ^ 2 ≤ 1 := Real.sin_sq_le_one x

/-- Zero height is on the ellipsoid. -/
theorem C101_surface (lat lon : ℝ) : OnEllipsoid (lla2ecef ![lat, lon, 0]) := by
  have hr := rad_pos _ (sin_sq_le lat)
  have hq := Real.sq_sqrt hr.le
  have hq0 := Real.sqrt_pos.mpr hr
  have ha := A_pos.ne'
  have hb := B_pos.ne'
  unfold OnEllipsoid lla2ecef
  simp only [w3_0, w3_1, w3_2, add_zero]
  change ((A / √(1 - E2 * _ * _) * _ * _) ^ 2 + (A / √(1 - E2 * _ * _) * _ * _) ^ 2) / A ^ 2 +
    (A / √(1 - E2 * _ * _) * (1 - E2) * _) ^ 2 / B ^ 2 = 1
  have he : 1 - E2 = B ^ 2 / A ^ 2 := by rw [E2_eq]; ring
  have h1 : ((A / √(1 - E2 * Real.sin lat * Real.sin lat) * Real.cos lat * Real.cos lon) ^ 2 +
      (A / √(1 - E2 * Real.sin lat * Real.sin lat) * Real.cos lat * Real.sin lon) ^ 2) / A ^ 2 =
      Real.cos lat ^ 2 / (1 - E2 * Real.sin lat * Real.sin lat) := by
    have : (A / √(1 - E2 * Real.sin lat * Real.sin lat) * Real.cos lat * Real.cos lon) ^ 2 +
      (A / √(1 - E2 * Real.sin lat * Real.sin lat) * Real.cos lat * Real.sin lon) ^ 2 =
      A ^ 2 * Real.cos lat ^ 2 / (√(1 - E2 * Real.sin lat * Real.sin lat)) ^ 2 := by
      rw [mul_pow, mul_pow, mul_pow, mul_pow, div_pow]
      linear_combination (A ^ 2 / √(1 - E2 * Real.sin lat * Real.sin lat) ^ 2 * Real.cos lat ^ 2) *
        Real.sin_sq_add_cos_sq lon
    rw [this, hq]
    field_simp
  have h2 : (A / √(1 - E2 * Real.sin lat * Real.sin lat) * (1 - E2) * Real.sin lat) ^ 2 / B ^ 2 =
      (1 - E2) * Real.sin lat ^ 2 / (1 - E2 * Real.sin lat * Real.sin lat) := by
    rw [mul_pow, mul_pow, div_pow, hq, he]
    have h3 := hr.ne'
    field_simp
  rw [h1, h2, ← add_div, div_eq_one_iff_eq hr.ne']
  linear_combination Real.sin_sq_add_cos_sq lat

/-- Height is measured along the direction up. -/
theorem C101_height (lat lon h : ℝ) : lla2ecef ![lat, lon, h] = lla2ecef ![lat, lon, 0] + h • up lat lon := by
  unfold lla2ecef up
  apply vec_ext <;> simp only [w3_0, w3_1, w3_2, Pi.add_apply, Pi.smul_apply, smul_eq_mul] <;> ring

/-- Up is the outward normal of the ellipsoid: a positive multiple of the gradient. -/
theorem C101_normal (lat lon : ℝ) : ∃ k > 0, ∀ q : V3,
    k * dot (up lat lon) q = (lla2ecef ![lat, lon, 0] 0 * q 0 + lla2ecef ![lat, lon, 0] 1 * q 1) / A ^ 2 +
      lla2ecef ![lat, lon, 0] 2 * q 2 / B ^ 2 := by
  have hr := rad_pos _ (sin_sq_le lat)
  have hq0 := Real.sqrt_pos.mpr hr
  have ha := A_pos
  have hb := B_pos
  refine ⟨1 / (√(1 - E2 * Real.sin lat * Real.sin lat) * A), by positivity, fun q => ?_⟩
  have he : 1 - F * (2 - F) = B ^ 2 / A ^ 2 := by
    rw [← sub_eq_zero, show 1 - F * (2 - F) = 1 - E2 from rfl, E2_eq]; ring
  unfold lla2ecef up dot
  simp only [w3_0, w3_1, w3_2, add_zero, he]
  change _ = (A / √(1 - E2 * _ * _) * _ * _ * _ + A / √(1 - E2 * _ * _) * _ * _ * _) / A ^ 2 +
    A / √(1 - E2 * _ * _) * (B ^ 2 / A ^ 2) * _ * _ / B ^ 2
  have h0 := hq0.ne'
  have ha' := ha.ne'
  have hb' := hb.ne'
  field_simp

/-- The height of a point outside is its distance from the ellipsoid. -/
theorem C101_distance (lat lon h : ℝ) (q : V3) (hq : OnEllipsoid q) :
    h ≤ vnorm (lla2ecef ![lat, lon, h] - q) := by
  obtain ⟨k, hk, hn⟩ := C101_normal lat lon
  have hs := C101_surface lat lon
  have h1 := hn (lla2ecef ![lat, lon, 0])
  have h2 := hn q
  set p := lla2ecef ![lat, lon, 0] with hp
  have ha := A_pos
  have hb := B_pos
  unfold OnEllipsoid at hs hq
  have h3 : k * dot (up lat lon) q ≤ k * dot (up lat lon) p := by
    rw [h1, h2]
    have e1 : 0 ≤ ((p 0 - q 0) ^ 2 + (p 1 - q 1) ^ 2) / A ^ 2 + (p 2 - q 2) ^ 2 / B ^ 2 := by positivity
    have e2 : ((p 0 - q 0) ^ 2 + (p 1 - q 1) ^ 2) / A ^ 2 + (p 2 - q 2) ^ 2 / B ^ 2 =
        ((p 0 ^ 2 + p 1 ^ 2) / A ^ 2 + p 2 ^ 2 / B ^ 2) + ((q 0 ^ 2 + q 1 ^ 2) / A ^ 2 + q 2 ^ 2 / B ^ 2) -
        2 * ((p 0 * q 0 + p 1 * q 1) / A ^ 2 + p 2 * q 2 / B ^ 2) := by ring
    have e3 : (p 0 * p 0 + p 1 * p 1) / A ^ 2 + p 2 * p 2 / B ^ 2 = (p 0 ^ 2 + p 1 ^ 2) / A ^ 2 + p 2 ^ 2 / B ^ 2 := by
      ring
    rw [e3, hs]
    rw [e2, hs, hq] at e1
    linarith
  have h4 : dot (up lat lon) q ≤ dot (up lat lon) p := le_of_mul_le_mul_left h3 hk
  have hu := up_unit lat lon
  rw [C101_height, ← hp]
  have h5 : h ≤ dot (up lat lon) (p + h • up lat lon - q) := by
    have : dot (up lat lon) (p + h • up lat lon - q) =
        dot (up lat lon) p + h * dot (up lat lon) (up lat lon) - dot (up lat lon) q := by
      simp only [dot, Pi.add_apply, Pi.sub_apply, Pi.smul_apply, smul_eq_mul]; ring
    rw [this, hu]
    linarith
  refine h5.trans ?_
  set d := p + h • up lat lon - q
  unfold vnorm
  apply Real.le_sqrt_of_sq_le
  have hc : dot (up lat lon) d ^ 2 ≤ dot (up lat lon) (up lat lon) * dot d d := by
    simp only [dot]
    nlinarith [sq_nonneg (up lat lon 0 * d 1 - up lat lon 1 * d 0), sq_nonneg (up lat lon 0 * d 2 - up lat lon 2 * d 0),
      sq_nonneg (up lat lon 1 * d 2 - up lat lon 2 * d 1)]
  rw [hu, one_mul] at hc
  exact hc

/-! ### The iteration of `ecef2lla` -/

/-- Sine of the latitude for the height `z` of the centre of curvature above the point of the axis. -/
noncomputable def sn (r2 z : ℝ) : ℝ := z / √(r2 + z * z)

/-- Radius of curvature and its vertical offset. -/
noncomputable def rv (s : ℝ) : ℝ := A / √(1 - E2 * s * s)
noncomputable def gv (s : ℝ) : ℝ := rv s * E2 * s

theorem step_eq (r2 c z : ℝ) : llaStep r2 c z = (rv (sn r2 z), c + gv (sn r2 z)) := rfl

theorem sn_sq_le (r2 z : ℝ) (h : 0 ≤ r2) : sn r2 z ^ 2 ≤ 1 := by
  unfold sn
  rw [div_pow, Real.sq_sqrt (by nlinarith [mul_self_nonneg z])]
  apply div_le_one_of_le₀ <;> nlinarith [mul_self_nonneg z]

/-- The square root stays close to one. -/
theorem rad_ge (s : ℝ) (hs : s ^ 2 ≤ 1) : 0.9966 ≤ √(1 - E2 * s * s) ∧ √(1 - E2 * s * s) ≤ 1 := by
  constructor
  · apply Real.le_sqrt_of_sq_le
    nlinarith [E2_bounds.2, E2_pos]
  · apply Real.sqrt_le_one.mpr
    nlinarith [E2_pos, mul_self_nonneg s]

theorem AE2 : A * E2 ≤ 42698 ∧ 0 < A * E2 := by
  unfold E2 F A B
  norm_num

/-- The radicals of two latitudes. -/
theorem rad_sub (s u : ℝ) (hs : s ^ 2 ≤ 1) (hu : u ^ 2 ≤ 1) :
    |√(1 - E2 * s * s) - √(1 - E2 * u * u)| ≤ E2 * 1.0035 * |s - u| := by
  have h1 := rad_ge s hs
  have h2 := rad_ge u hu
  have e1 := Real.sq_sqrt (rad_pos s hs).le
  have e2 := Real.sq_sqrt (rad_pos u hu).le
  set d := √(1 - E2 * s * s)
  set e := √(1 - E2 * u * u)
  have hsum : 1.9932 ≤ d + e := by linarith [h1.1, h2.1]
  have hf : (d - e) * (d + e) = E2 * ((u - s) * (u + s)) := by linear_combination e1 - e2
  have habs : |d - e| * (d + e) = E2 * (|s - u| * |u + s|) := by
    have := congrArg abs hf
    rwa [abs_mul, abs_of_pos (show 0 < d + e by linarith), abs_mul, abs_mul, abs_of_pos E2_pos, abs_sub_comm u] at this
  have hus : |u + s| ≤ 2 := by
    refine (abs_add_le u s).trans ?_
    have a1 := abs_le_one_iff_mul_self_le_one.mpr (show u * u ≤ 1 by nlinarith)
    have a2 := abs_le_one_iff_mul_self_le_one.mpr (show s * s ≤ 1 by nlinarith)
    linarith
  have h0 := abs_nonneg (s - u)
  have h3 : |s - u| * |u + s| ≤ |s - u| * 2 := mul_le_mul_of_nonneg_left hus h0
  have h4 : |d - e| * 1.9932 ≤ |d - e| * (d + e) := mul_le_mul_of_nonneg_left hsum (abs_nonneg _)
  have h5 : E2 * (|s - u| * |u + s|) ≤ E2 * (|s - u| * 2) := mul_le_mul_of_nonneg_left h3 E2_pos.le
  have h6 : 0 ≤ E2 * |s - u| := mul_nonneg E2_pos.le h0
  nlinarith

theorem rv_bounds (s : ℝ) (hs : s ^ 2 ≤ 1) : A ≤ rv s ∧ rv s ≤ 6400000 := by
  have h := rad_ge s hs
  have hp : 0 < √(1 - E2 * s * s) := by linarith [h.1]
  unfold rv
  constructor
  · rw [le_div_iff₀ hp]
    nlinarith [A_pos, h.2]
  · rw [div_le_iff₀ hp]
    unfold A
    nlinarith [h.1]

/-- The radius of curvature depends little on the latitude. -/
theorem rv_lip (s u : ℝ) (hs : s ^ 2 ≤ 1) (hu : u ^ 2 ≤ 1) : |rv s - rv u| ≤ 43200 * |s - u| := by
  have h1 := rad_ge s hs
  have h2 := rad_ge u hu
  have hd := rad_sub s u hs hu
  unfold rv
  set d := √(1 - E2 * s * s)
  set e := √(1 - E2 * u * u)
  have hd0 : 0 < d := by linarith [h1.1]
  have he0 : 0 < e := by linarith [h2.1]
  have he : A / d - A / e = A * (e - d) / (d * e) := by field_simp
  have hde : 0.9932 ≤ d * e := by nlinarith [h1.1, h2.1]
  rw [he, abs_div, abs_mul, abs_of_pos A_pos, abs_of_pos (mul_pos hd0 he0), div_le_iff₀ (mul_pos hd0 he0), abs_sub_comm e]
  have h0 := abs_nonneg (s - u)
  have h3 : A * |d - e| ≤ A * (E2 * 1.0035 * |s - u|) := mul_le_mul_of_nonneg_left hd A_pos.le
  have h4 : A * (E2 * 1.0035 * |s - u|) ≤ 42698 * 1.0035 * |s - u| := by
    nlinarith [mul_le_mul_of_nonneg_right AE2.1 h0]
  have h5 : 43200 * |s - u| * 0.9932 ≤ 43200 * |s - u| * (d * e) := mul_le_mul_of_nonneg_left hde (by positivity)
  nlinarith

theorem gv_lip (s u : ℝ) (hs : s ^ 2 ≤ 1) (hu : u ^ 2 ≤ 1) : |gv s - gv u| ≤ 43200 * |s - u| := by
  have h1 := rv_bounds s hs
  have h2 := rv_lip s u hs hu
  have hu1 := abs_le_one_iff_mul_self_le_one.mpr (show u * u ≤ 1 by nlinarith)
  have he : gv s - gv u = E2 * (rv s * (s - u) + (rv s - rv u) * u) := by unfold gv; ring
  have h0 := abs_nonneg (s - u)
  have h3 : |rv s * (s - u) + (rv s - rv u) * u| ≤ 6400000 * |s - u| + 43200 * |s - u| * 1 := by
    refine (abs_add_le _ _).trans (add_le_add ?_ ?_)
    · rw [abs_mul, abs_of_pos (by linarith [A_pos])]
      exact mul_le_mul_of_nonneg_right h1.2 h0
    · rw [abs_mul]
      exact mul_le_mul h2 hu1 (abs_nonneg _) (by positivity)
  rw [he, abs_mul, abs_of_pos E2_pos]
  have h4 := mul_le_mul_of_nonneg_left h3 E2_pos.le
  nlinarith [E2_bounds.2]

theorem gv_le (s : ℝ) (hs : s ^ 2 ≤ 1) : |gv s| ≤ 43200 := by
  have h := gv_lip s 0 hs (by norm_num)
  have h0 : gv 0 = 0 := by unfold gv; ring
  rw [h0, sub_zero, sub_zero] at h
  have := abs_le_one_iff_mul_self_le_one.mpr (show s * s ≤ 1 by nlinarith)
  linarith

/-- Distance from the axis and height as a length. -/
noncomputable def len (r2 z : ℝ) : ℝ := √(r2 + z * z)

theorem len_sub (r2 z y : ℝ) (hr : 0 ≤ r2) : |len r2 z - len r2 y| ≤ |z - y| := by
  unfold len
  have hz : 0 ≤ r2 + z * z := by nlinarith [mul_self_nonneg z]
  have hy : 0 ≤ r2 + y * y := by nlinarith [mul_self_nonneg y]
  have h1 := Real.sq_sqrt hz
  have h2 := Real.sq_sqrt hy
  have hc : r2 + z * y ≤ √(r2 + z * z) * √(r2 + y * y) := by
    rw [← Real.sqrt_mul hz]
    apply Real.le_sqrt_of_sq_le
    nlinarith [mul_nonneg hr (sq_nonneg (z - y))]
  apply sq_le_sq.mp
  nlinarith

theorem sn_lip (r2 z y ρ : ℝ) (hr : 0 ≤ r2) (hρ : 0 < ρ) (hz : ρ ≤ len r2 z) (hy : ρ ≤ len r2 y) :
    |sn r2 z - sn r2 y| ≤ |z - y| / ρ := by
  have hz0 : 0 < len r2 z := by linarith
  have hy0 : 0 < len r2 y := by linarith
  have h1 : len r2 z ^ 2 = r2 + z * z := Real.sq_sqrt (by nlinarith [mul_self_nonneg z])
  have h2 : len r2 y ^ 2 = r2 + y * y := Real.sq_sqrt (by nlinarith [mul_self_nonneg y])
  change |z / len r2 z - y / len r2 y| ≤ _
  set a := len r2 z
  set b := len r2 y
  have hab : ρ * ρ ≤ a * b := mul_le_mul hz hy hρ.le hz0.le
  have habs : |z - y| / ρ = |(z - y) / ρ| := by rw [abs_div, abs_of_pos hρ]
  rw [habs]
  apply sq_le_sq.mp
  rw [div_pow, le_div_iff₀ (by positivity)]
  -- `(z / a - y / b)² + r2 (1 / a - 1 / b)² = ((z - y)² - (a - b)²) / (a b)`
  have key : (z / a - y / b) ^ 2 + r2 * (1 / a - 1 / b) ^ 2 = ((z - y) ^ 2 - (a - b) ^ 2) / (a * b) := by
    have ha' := hz0.ne'
    have hb' := hy0.ne'
    field_simp
    linear_combination (-b * b + a * b) * h1 + (a * b - a * a) * h2
  have h3 : (z / a - y / b) ^ 2 ≤ (z - y) ^ 2 / (a * b) := by
    have : ((z - y) ^ 2 - (a - b) ^ 2) / (a * b) ≤ (z - y) ^ 2 / (a * b) := by
      apply div_le_div_of_nonneg_right _ (by positivity)
      nlinarith [sq_nonneg (a - b)]
    have h4 : 0 ≤ r2 * (1 / a - 1 / b) ^ 2 := by positivity
    linarith
  rw [le_div_iff₀ (by positivity)] at h3
  nlinarith [sq_nonneg (z / a - y / b)]

/-- The iteration. -/
noncomputable def T (r2 c z : ℝ) : ℝ := c + gv (sn r2 z)

section iteration
variable {r2 c : ℝ} (hr : 0 ≤ r2) (hc : 6.3e6 ≤ len r2 c)

include hr in
theorem T_near (z : ℝ) : |T r2 c z - c| ≤ 43200 := by
  unfold T
  rw [add_sub_cancel_left]
  exact gv_le _ (sn_sq_le _ _ hr)

include hr hc in
theorem len_ge {z : ℝ} (hz : |z - c| ≤ 43200) : 6.25e6 ≤ len r2 z := by
  have h := len_sub r2 z c hr
  have := (abs_le.mp (h.trans hz)).1
  norm_num at hc ⊢
  linarith

include hr hc in
theorem sn_near {z y : ℝ} (hz : |z - c| ≤ 43200) (hy : |y - c| ≤ 43200) :
    43200 * |sn r2 z - sn r2 y| ≤ 0.007 * |z - y| := by
  have h := sn_lip r2 z y 6.25e6 hr (by norm_num) (len_ge hr hc hz) (len_ge hr hc hy)
  have h0 := abs_nonneg (z - y)
  norm_num at h ⊢
  linarith

include hr hc in
theorem T_lip {z y : ℝ} (hz : |z - c| ≤ 43200) (hy : |y - c| ≤ 43200) :
    |T r2 c z - T r2 c y| ≤ 0.007 * |z - y| := by
  unfold T
  rw [add_sub_add_left_eq_sub]
  exact (gv_lip _ _ (sn_sq_le _ _ hr) (sn_sq_le _ _ hr)).trans (sn_near hr hc hz hy)

theorem loop_succ (r2 c : ℝ) (n : ℕ) (z : ℝ) : llaLoop r2 c (n + 1) z =
    if |T r2 c z - z| ≥ 1e-4 then llaLoop r2 c n (T r2 c z) else some (T r2 c z, rv (sn r2 z)) := rfl

include hr hc in
theorem loop_ends (k : ℕ) : ∀ (n : ℕ) (z : ℝ), k < n → |z - c| ≤ 43200 → |T r2 c z - z| * 0.007 ^ k < 1e-4 →
    ∃ s, llaLoop r2 c n z = some s := by
  induction k with
  | zero =>
    intro n z hn hz hd
    obtain ⟨m, rfl⟩ : ∃ m, n = m + 1 := ⟨n - 1, by omega⟩
    rw [loop_succ, if_neg (by rw [pow_zero, mul_one] at hd; exact not_le.mpr hd)]
    exact ⟨_, rfl⟩
  | succ k ih =>
    intro n z hn hz hd
    obtain ⟨m, rfl⟩ : ∃ m, n = m + 1 := ⟨n - 1, by omega⟩
    rw [loop_succ]
    split_ifs with h
    · apply ih m _ (by omega) (T_near hr z)
      have := T_lip hr hc (T_near (c := c) hr z) hz
      have h7 : (0 : ℝ) ≤ 0.007 ^ k := by positivity
      calc |T r2 c (T r2 c z) - T r2 c z| * 0.007 ^ k ≤ 0.007 * |T r2 c z - z| * 0.007 ^ k :=
            mul_le_mul_of_nonneg_right this h7
        _ = |T r2 c z - z| * 0.007 ^ (k + 1) := by rw [pow_succ]; ring
        _ < 1e-4 := hd
    · exact ⟨_, rfl⟩

include hr in
theorem loop_result : ∀ (n : ℕ) (z : ℝ) (s : ℝ × ℝ), |z - c| ≤ 43200 → llaLoop r2 c n z = some s →
    ∃ zk, |zk - c| ≤ 43200 ∧ s.1 = T r2 c zk ∧ s.2 = rv (sn r2 zk) ∧ |s.1 - zk| < 1e-4 := by
  intro n
  induction n with
  | zero => intro z s _ h; cases h
  | succ n ih =>
    intro z s hz h
    rw [loop_succ] at h
    split_ifs at h with hd
    · exact ih _ _ (T_near hr z) h
    · cases h
      exact ⟨z, hz, rfl, rfl, not_le.mp hd⟩

end iteration

theorem len_axis (p : V3) : len (p 0 * p 0 + p 1 * p 1) (p 2) = vnorm p := rfl

theorem r2_nonneg (p : V3) : 0 ≤ p 0 * p 0 + p 1 * p 1 := by nlinarith [mul_self_nonneg (p 0), mul_self_nonneg (p 1)]

theorem ne_zero_of_far {p : V3} (hp : 6.3e6 ≤ vnorm p) : p ≠ 0 := by
  rintro rfl
  have : vnorm (0 : V3) = 0 := by simp [vnorm, sqNorm, dot]
  rw [this] at hp
  norm_num at hp

theorem loop_some (p : V3) (hp : 6.3e6 ≤ vnorm p) (n : ℕ) (hn : 6 ≤ n) :
    ∃ s, llaLoop (p 0 * p 0 + p 1 * p 1) (p 2) n (p 2) = some s := by
  have hr := r2_nonneg p
  refine loop_ends hr (by rw [len_axis]; exact hp) 5 n (p 2) (by omega) (by norm_num) ?_
  have := T_near (r2 := p 0 * p 0 + p 1 * p 1) (c := p 2) hr (p 2)
  norm_num
  linarith

/-- The loop ends within six iterations, for every point farther from the centre of the earth than 6300 km. -/
theorem C102_ends (p : V3) (hp : 6.3e6 ≤ vnorm p) (n : ℕ) (hn : 6 ≤ n) : ∃ l, ecef2lla n p = some l := by
  obtain ⟨s, hs⟩ := loop_some p hp n hn
  unfold ecef2lla
  simp only [if_neg (ne_zero_of_far hp), hs]
  exact ⟨_, rfl⟩

theorem vnorm_le_sum (a : V3) : vnorm a ≤ |a 0| + |a 1| + |a 2| := by
  unfold vnorm
  apply Real.sqrt_le_iff.mpr
  refine ⟨by positivity, ?_⟩
  unfold sqNorm dot
  have h0 := abs_mul_abs_self (a 0)
  have h1 := abs_mul_abs_self (a 1)
  have h2 := abs_mul_abs_self (a 2)
  nlinarith [mul_nonneg (abs_nonneg (a 0)) (abs_nonneg (a 1)), mul_nonneg (abs_nonneg (a 0)) (abs_nonneg (a 2)),
    mul_nonneg (abs_nonneg (a 1)) (abs_nonneg (a 2))]

theorem lla2ecef_eq (lat lon h : ℝ) : lla2ecef ![lat, lon, h] =
    ![(rv (Real.sin lat) + h) * Real.cos lat * Real.cos lon, (rv (Real.sin lat) + h) * Real.cos lat * Real.sin lon,
      (rv (Real.sin lat) + h) * Real.sin lat - gv (Real.sin lat)] := by
  unfold lla2ecef
  simp only [w3_0, w3_1, w3_2]
  change ![(rv _ + h) * _ * _, (rv _ + h) * _ * _, (rv _ * (1 - E2) + h) * _] = _
  unfold gv
  congr 1
  congr 1
  ring_nf

/-- Sine and cosine of the latitude computed by the code. -/
theorem arctan_lat (r2 z : ℝ) (hr : 0 < r2) :
    Real.sin (Real.arctan (z / √r2)) = sn r2 z ∧ Real.cos (Real.arctan (z / √r2)) = √r2 / len r2 z := by
  have h0 := Real.sqrt_pos.mpr hr
  have h1 : √(1 + (z / √r2) ^ 2) = len r2 z / √r2 := by
    unfold len
    rw [← Real.sqrt_div (by nlinarith [mul_self_nonneg z]), div_pow, Real.sq_sqrt hr.le]
    congr 1
    field_simp
  have h2 : 0 < len r2 z := Real.sqrt_pos.mpr (by nlinarith [mul_self_nonneg z])
  constructor
  · rw [Real.sin_arctan, h1]
    change _ = z / len r2 z
    field_simp
  · rw [Real.cos_arctan, h1]
    field_simp

/-- Near the axis. -/
theorem polar_sn {r2 y σ : ℝ} (hr : 0 ≤ r2) (hr2 : r2 ≤ 1e-12) (hσ : σ = 1 ∨ σ = -1) (hy : 6e6 ≤ σ * y) :
    |σ - sn r2 y| ≤ 1e-12 ∧ |σ * len r2 y - y| ≤ 1e-12 := by
  have hs : σ * σ = 1 := by rcases hσ with h | h <;> rw [h] <;> norm_num
  have h1 : len r2 y ^ 2 = r2 + y * y := Real.sq_sqrt (by nlinarith [mul_self_nonneg y])
  have h2 : σ * y ≤ len r2 y := by
    apply Real.le_sqrt_of_sq_le
    nlinarith
  norm_num at hy hr2 ⊢
  have hd : 0 ≤ len r2 y - σ * y := by linarith
  have hsmall : len r2 y - σ * y ≤ 1e-12 := by
    have : (len r2 y - σ * y) * (len r2 y + σ * y) = r2 := by
      have : (σ * y) * (σ * y) = y * y := by linear_combination y * y * hs
      linear_combination h1 - this
    norm_num
    nlinarith
  have ha : |σ| = 1 := by rcases hσ with h | h <;> rw [h] <;> norm_num
  have hb : |σ * len r2 y - y| ≤ 1 / 1000000000000 := by
    have : σ * len r2 y - y = σ * (len r2 y - σ * y) := by linear_combination y * hs
    rw [this, abs_mul, ha, one_mul, abs_of_nonneg hd]
    norm_num at hsmall
    linarith
  refine ⟨?_, hb⟩
  have hl : 0 < len r2 y := by linarith
  have : σ - sn r2 y = (σ * len r2 y - y) / len r2 y := by
    change σ - y / len r2 y = _
    field_simp
  rw [this, abs_div, abs_of_pos hl, div_le_iff₀ hl]
  refine hb.trans ?_
  nlinarith

/-- The third coordinate near the axis. -/
theorem polar_height {r2 c z zk σ : ℝ} (hr : 0 ≤ r2) (hr2 : r2 ≤ 1e-12) (hσ : σ = 1 ∨ σ = -1) (hc : 6.2e6 ≤ σ * c)
    (hzk : |zk - c| ≤ 43200) (hz : |z - c| ≤ 43200) (he : z = c + gv (sn r2 zk)) :
    |(rv σ + (len r2 z - rv (sn r2 zk))) * σ - gv σ - c| ≤ 1e-7 := by
  have hσabs : |σ| = 1 := by rcases hσ with h | h <;> rw [h] <;> norm_num
  have hσ1 : σ ^ 2 ≤ 1 := by rcases hσ with h | h <;> rw [h] <;> norm_num
  have hmove : ∀ y, |y - c| ≤ 43200 → 6e6 ≤ σ * y := by
    intro y hy
    have h1 : |σ * (y - c)| ≤ 43200 := by rw [abs_mul, hσabs, one_mul]; exact hy
    have h2 := (abs_le.mp h1).1
    norm_num at hc ⊢
    linarith
  obtain ⟨k1, -⟩ := polar_sn hr hr2 hσ (hmove zk hzk)
  obtain ⟨-, k2⟩ := polar_sn hr hr2 hσ (hmove z hz)
  have hV := rv_lip σ _ hσ1 (sn_sq_le r2 zk hr)
  have hG := gv_lip σ _ hσ1 (sn_sq_le r2 zk hr)
  have e2 : (rv σ + (len r2 z - rv (sn r2 zk))) * σ - gv σ - c =
      σ * (rv σ - rv (sn r2 zk)) + (σ * len r2 z - z) - (gv σ - gv (sn r2 zk)) := by
    linear_combination he
  have x2 : |σ * (rv σ - rv (sn r2 zk)) + (σ * len r2 z - z) - (gv σ - gv (sn r2 zk))| ≤
      43200 * 1e-12 + 1e-12 + 43200 * 1e-12 := by
    refine (abs_sub _ _).trans (add_le_add ((abs_add_le _ _).trans (add_le_add ?_ k2)) ?_)
    · rw [abs_mul, hσabs, one_mul]
      exact hV.trans (mul_le_mul_of_nonneg_left k1 (by norm_num))
    · exact hG.trans (mul_le_mul_of_nonneg_left k1 (by norm_num))
  rw [e2]
  norm_num at x2 ⊢
  linarith

theorem polar_big {r2 c : ℝ} (hr : 0 ≤ r2) (hr2 : r2 ≤ 1e-12) (hc : 6.3e6 ≤ len r2 c) : 6.2e6 ≤ |c| := by
  have h5 : len r2 c ^ 2 = r2 + c * c := Real.sq_sqrt (by nlinarith [mul_self_nonneg c])
  have h6 := abs_mul_abs_self c
  norm_num at hc hr2 ⊢
  nlinarith [abs_nonneg c]

theorem polar_xy {a b : ℝ} (h : a * a + b * b ≤ 1e-12) : |0 - a| ≤ 1e-6 ∧ |0 - b| ≤ 1e-6 := by
  norm_num at h
  constructor
  · rw [zero_sub, abs_neg]
    apply abs_le_of_sq_le_sq _ (by norm_num)
    norm_num
    nlinarith [mul_self_nonneg b]
  · rw [zero_sub, abs_neg]
    apply abs_le_of_sq_le_sq _ (by norm_num)
    norm_num
    nlinarith [mul_self_nonneg a]

/-- The claim: for every point outside of the core of the earth the coordinates found belong to a point within ten
micrometres. -/
theorem C102_roundtrip (p : V3) (hp : 6.3e6 ≤ vnorm p) (n : ℕ) (l : V3) (hl : ecef2lla n p = some l) :
    vnorm (lla2ecef l - p) ≤ 1e-5 := by
  have hr := r2_nonneg p
  have hc : 6.3e6 ≤ len (p 0 * p 0 + p 1 * p 1) (p 2) := hp
  unfold ecef2lla at hl
  simp only [if_neg (ne_zero_of_far hp)] at hl
  obtain ⟨s, hs, hl⟩ := Option.map_eq_some_iff.mp hl
  obtain ⟨zk, hzk, h1, h2, h3⟩ := loop_result hr n (p 2) s (by norm_num) hs
  set r2 := p 0 * p 0 + p 1 * p 1 with hr2
  have hz : |s.1 - p 2| ≤ 43200 := by rw [h1]; exact T_near hr zk
  have hlen := len_ge hr hc hz
  have hlen0 : 0 < len r2 s.1 := lt_of_lt_of_le (by norm_num) hlen
  have hsn := sn_near hr hc hz hzk
  have hv : |rv (sn r2 s.1) - rv (sn r2 zk)| ≤ 7e-7 := by
    have := rv_lip _ _ (sn_sq_le r2 s.1 hr) (sn_sq_le r2 zk hr)
    norm_num at this hsn h3 ⊢
    linarith
  have hg : |gv (sn r2 s.1) - gv (sn r2 zk)| ≤ 7e-7 := by
    have := gv_lip _ _ (sn_sq_le r2 s.1 hr) (sn_sq_le r2 zk hr)
    norm_num at this hsn h3 ⊢
    linarith
  have hcz : s.1 = p 2 + gv (sn r2 zk) := h1
  refine (vnorm_le_sum _).trans ?_
  by_cases hbig : r2 > 1e-12
  · rw [if_pos hbig] at hl
    have hr0 : 0 < r2 := lt_trans (by norm_num) hbig
    have hq := Real.sqrt_pos.mpr hr0
    obtain ⟨ha, hb⟩ := arctan_lat r2 s.1 hr0
    obtain ⟨hx, hy⟩ := atan2_spec (y := p 1) (x := p 0) hq (by rw [Real.mul_self_sqrt hr])
    rw [← hl, lla2ecef_eq, ha, hb, h2]
    simp only [Pi.sub_apply, w3_0, w3_1, w3_2]
    change |(_ + (len r2 s.1 - _)) * _ * _ - _| + |(_ + (len r2 s.1 - _)) * _ * _ - _| +
      |(_ + (len r2 s.1 - _)) * _ - _ - _| ≤ _
    set L := len r2 s.1
    set V := rv (sn r2 s.1)
    set v := rv (sn r2 zk)
    have e0 : (V + (L - v)) * (√r2 / L) * Real.cos (atan2 (p 1) (p 0)) - p 0 = (V - v) * (p 0 / L) := by
      rw [show (V + (L - v)) * (√r2 / L) * Real.cos (atan2 (p 1) (p 0)) =
        (V + (L - v)) / L * (√r2 * Real.cos (atan2 (p 1) (p 0))) by ring, hx]
      field_simp
      ring
    have e1 : (V + (L - v)) * (√r2 / L) * Real.sin (atan2 (p 1) (p 0)) - p 1 = (V - v) * (p 1 / L) := by
      rw [show (V + (L - v)) * (√r2 / L) * Real.sin (atan2 (p 1) (p 0)) =
        (V + (L - v)) / L * (√r2 * Real.sin (atan2 (p 1) (p 0))) by ring, hy]
      field_simp
      ring
    have e2 : (V + (L - v)) * sn r2 s.1 - gv (sn r2 s.1) - p 2 =
        (V - v) * sn r2 s.1 - (gv (sn r2 s.1) - gv (sn r2 zk)) := by
      have : L * sn r2 s.1 = s.1 := by
        change L * (s.1 / L) = s.1
        field_simp
      linear_combination this + hcz
    have hsq : L ^ 2 = r2 + s.1 * s.1 := Real.sq_sqrt (by nlinarith [mul_self_nonneg s.1])
    have b0 : |p 0 / L| ≤ 1 := by
      rw [abs_div, abs_of_pos hlen0, div_le_one hlen0]
      apply Real.abs_le_sqrt
      nlinarith [mul_self_nonneg s.1, mul_self_nonneg (p 1)]
    have b1 : |p 1 / L| ≤ 1 := by
      rw [abs_div, abs_of_pos hlen0, div_le_one hlen0]
      apply Real.abs_le_sqrt
      nlinarith [mul_self_nonneg s.1, mul_self_nonneg (p 0)]
    have b2 : |sn r2 s.1| ≤ 1 := by
      rw [← sq_le_one_iff_abs_le_one]
      exact sn_sq_le _ _ hr
    rw [e0, e1, e2]
    have c0 : |(V - v) * (p 0 / L)| ≤ 7e-7 * 1 := by
      rw [abs_mul]; exact mul_le_mul hv b0 (abs_nonneg _) (by norm_num)
    have c1 : |(V - v) * (p 1 / L)| ≤ 7e-7 * 1 := by
      rw [abs_mul]; exact mul_le_mul hv b1 (abs_nonneg _) (by norm_num)
    have c2 : |(V - v) * sn r2 s.1 - (gv (sn r2 s.1) - gv (sn r2 zk))| ≤ 7e-7 * 1 + 7e-7 := by
      refine (abs_sub _ _).trans (add_le_add ?_ hg)
      rw [abs_mul]; exact mul_le_mul hv b2 (abs_nonneg _) (by norm_num)
    norm_num at c0 c1 c2 ⊢
    linarith
  · have hsmall : r2 ≤ 1e-12 := not_lt.mp hbig
    rw [if_neg hbig] at hl
    have hbig2 := polar_big hr hsmall hc
    obtain ⟨x0, x1⟩ := polar_xy (a := p 0) (b := p 1) hsmall
    by_cases h0 : p 2 > 0
    · rw [if_pos h0] at hl
      rw [abs_of_pos h0] at hbig2
      have x2 := polar_height hr hsmall (Or.inl rfl) (by rwa [one_mul]) hzk hz hcz
      rw [← hl, lla2ecef_eq, Real.sin_pi_div_two, Real.cos_pi_div_two, h2]
      simp only [Pi.sub_apply, w3_0, w3_1, w3_2, mul_zero, zero_mul]
      change _ + _ + |(_ + (len r2 s.1 - _)) * _ - _ - _| ≤ _
      norm_num at x0 x1 x2 ⊢
      linarith
    · rw [if_neg h0] at hl
      rw [abs_of_nonpos (not_lt.mp h0)] at hbig2
      have x2 := polar_height hr hsmall (Or.inr rfl) (by rwa [neg_one_mul]) hzk hz hcz
      rw [← hl, lla2ecef_eq, neg_div, Real.sin_neg, Real.cos_neg, Real.sin_pi_div_two, Real.cos_pi_div_two, h2]
      simp only [Pi.sub_apply, w3_0, w3_1, w3_2, mul_zero, zero_mul]
      change _ + _ + |(_ + (len r2 s.1 - _)) * _ - _ - _| ≤ _
      linarith

/-! ### The other direction -/

/-- The latitude depends little on the height of the centre of curvature. -/
theorem arctan_lip {r2 c : ℝ} (hr : 0 < r2) (hc : 6.3e6 ≤ len r2 c) {z y : ℝ} (hz : |z - c| ≤ 43200)
    (hy : |y - c| ≤ 43200) : |Real.arctan (z / √r2) - Real.arctan (y / √r2)| ≤ |z - y| / 6.25e6 := by
  have hq := Real.sqrt_pos.mpr hr
  have hd : ∀ t ∈ Metric.closedBall c (43200 : ℝ), HasDerivWithinAt (fun t => Real.arctan (t / √r2))
      (1 / (1 + (t / √r2) ^ 2) * (1 / √r2)) (Metric.closedBall c 43200) t := fun t _ =>
    ((hasDerivAt_id t).div_const _).arctan.hasDerivWithinAt
  have hb : ∀ t ∈ Metric.closedBall c (43200 : ℝ), ‖1 / (1 + (t / √r2) ^ 2) * (1 / √r2)‖ ≤ 1 / 6.25e6 := by
    intro t ht
    rw [Metric.mem_closedBall, Real.dist_eq] at ht
    have hl := len_ge hr.le hc ht
    have h0 : 0 < len r2 t := lt_of_lt_of_le (by norm_num) hl
    have h1 : len r2 t ^ 2 = r2 + t * t := Real.sq_sqrt (by nlinarith [mul_self_nonneg t])
    have h2 : √r2 ≤ len r2 t := Real.sqrt_le_sqrt (by nlinarith [mul_self_nonneg t])
    have h3 := Real.sq_sqrt hr.le
    have he : 1 / (1 + (t / √r2) ^ 2) * (1 / √r2) = √r2 / len r2 t ^ 2 := by
      have h4 : 0 < r2 + t * t := by nlinarith [mul_self_nonneg t]
      have h5 : 1 + t ^ 2 / r2 = (r2 + t * t) / r2 := by field_simp
      rw [h1, div_pow, h3, h5, one_div_div, div_mul_div_comm, mul_one, div_eq_div_iff (by positivity) (by positivity)]
      linear_combination -(r2 + t * t) * h3
    rw [he, Real.norm_of_nonneg (by positivity), div_le_div_iff₀ (by positivity) (by norm_num)]
    norm_num at hl ⊢
    nlinarith
  have := Convex.norm_image_sub_le_of_norm_hasDerivWithin_le hd hb (convex_closedBall c 43200)
    (show y ∈ Metric.closedBall c (43200 : ℝ) by rwa [Metric.mem_closedBall, Real.dist_eq])
    (show z ∈ Metric.closedBall c (43200 : ℝ) by rwa [Metric.mem_closedBall, Real.dist_eq])
  rw [Real.norm_eq_abs, Real.norm_eq_abs] at this
  refine this.trans (le_of_eq ?_)
  ring

/-- Coordinates of a point that is not within a micrometre of the axis and not deep in the earth are found again:
latitude to a picoradian, longitude exactly, height to two micrometres. -/
theorem C102_inverse (lat lon h : ℝ) (hlat1 : -(Real.pi / 2) < lat) (hlat2 : lat < Real.pi / 2) (hlon1 : -Real.pi < lon)
    (hlon2 : lon ≤ Real.pi) (hh : -3e4 ≤ h) (n : ℕ) (hn : 6 ≤ n)
    (hax : 1e-12 < (lla2ecef ![lat, lon, h] 0) ^ 2 + (lla2ecef ![lat, lon, h] 1) ^ 2) :
    ∃ l, ecef2lla n (lla2ecef ![lat, lon, h]) = some l ∧ |l 0 - lat| ≤ 1e-12 ∧ l 1 = lon ∧ |l 2 - h| ≤ 2e-6 := by
  have hcos : 0 < Real.cos lat := Real.cos_pos_of_mem_Ioo ⟨hlat1, hlat2⟩
  have hs1 := sin_sq_le lat
  have hV := rv_bounds _ hs1
  have hsc := Real.sin_sq_add_cos_sq lat
  have hR : 6.34e6 ≤ rv (Real.sin lat) + h := by
    have := hV.1
    unfold A at this
    norm_num at hh ⊢
    linarith
  have hR0 : 0 < rv (Real.sin lat) + h := lt_of_lt_of_le (by norm_num) hR
  set p := lla2ecef ![lat, lon, h] with hp
  set R := rv (Real.sin lat) + h with hRdef
  have p0 : p 0 = R * Real.cos lat * Real.cos lon := by rw [hp, lla2ecef_eq]; rfl
  have p1 : p 1 = R * Real.cos lat * Real.sin lon := by rw [hp, lla2ecef_eq]; rfl
  have p2 : p 2 = R * Real.sin lat - gv (Real.sin lat) := by rw [hp, lla2ecef_eq]; rfl
  have hr2 : p 0 * p 0 + p 1 * p 1 = (R * Real.cos lat) ^ 2 := by
    rw [p0, p1]
    linear_combination (R * Real.cos lat) ^ 2 * Real.sin_sq_add_cos_sq lon
  have hsq : √(p 0 * p 0 + p 1 * p 1) = R * Real.cos lat := by rw [hr2, Real.sqrt_sq (by positivity)]
  have hr := r2_nonneg p
  have hrpos : 0 < p 0 * p 0 + p 1 * p 1 := by rw [hr2]; positivity
  have hlenz : len (p 0 * p 0 + p 1 * p 1) (R * Real.sin lat) = R := by
    unfold len
    rw [hr2, show (R * Real.cos lat) ^ 2 + R * Real.sin lat * (R * Real.sin lat) = R ^ 2 by
      linear_combination R ^ 2 * hsc, Real.sqrt_sq hR0.le]
  have hsn : sn (p 0 * p 0 + p 1 * p 1) (R * Real.sin lat) = Real.sin lat := by
    change R * Real.sin lat / len _ _ = _
    rw [hlenz]
    field_simp
  have hzc : |R * Real.sin lat - p 2| ≤ 43200 := by
    rw [p2, sub_sub_cancel]
    exact gv_le _ hs1
  have hc : 6.3e6 ≤ len (p 0 * p 0 + p 1 * p 1) (p 2) := by
    have := len_sub (p 0 * p 0 + p 1 * p 1) (p 2) (R * Real.sin lat) hr
    rw [hlenz, abs_sub_comm (p 2)] at this
    have := (abs_le.mp (this.trans hzc)).1
    unfold A at hV
    norm_num at hh ⊢
    linarith [hV.1]
  have hfix : T (p 0 * p 0 + p 1 * p 1) (p 2) (R * Real.sin lat) = R * Real.sin lat := by
    unfold T
    rw [hsn, p2]
    ring
  have hfar : 6.3e6 ≤ vnorm p := hc
  obtain ⟨s, hs⟩ := loop_some p hfar n hn
  obtain ⟨zk, hzk, h1, h2, h3⟩ := loop_result hr n (p 2) s (by norm_num) hs
  have hz : |s.1 - p 2| ≤ 43200 := by rw [h1]; exact T_near hr zk
  have hlip := T_lip hr hc hzk hzc
  rw [hfix, ← h1] at hlip
  have htri : |zk - R * Real.sin lat| ≤ |s.1 - zk| + |s.1 - R * Real.sin lat| := by
    have := abs_sub_le zk s.1 (R * Real.sin lat)
    rwa [abs_sub_comm zk s.1] at this
  have hz1 : |s.1 - R * Real.sin lat| ≤ 8e-7 := by
    norm_num at h3 hlip ⊢
    linarith
  have hz2 : |zk - R * Real.sin lat| ≤ 1.1e-4 := by
    norm_num at h3 hz1 ⊢
    linarith
  have hbig : p 0 * p 0 + p 1 * p 1 > 1e-12 := by
    have : p 0 * p 0 + p 1 * p 1 = p 0 ^ 2 + p 1 ^ 2 := by ring
    rw [this]
    exact hax
  refine ⟨![Real.arctan (s.1 / √(p 0 * p 0 + p 1 * p 1)), atan2 (p 1) (p 0), √(p 0 * p 0 + p 1 * p 1 + s.1 * s.1) - s.2],
    ?_, ?_, ?_, ?_⟩
  · unfold ecef2lla
    simp only [if_neg (ne_zero_of_far hfar), hs, Option.map_some, if_pos hbig]
  · have ha := arctan_lip hrpos hc hz hzc
    have he : Real.arctan (R * Real.sin lat / √(p 0 * p 0 + p 1 * p 1)) = lat := by
      rw [hsq, mul_div_mul_left _ _ hR0.ne', ← Real.tan_eq_sin_div_cos, Real.arctan_tan hlat1 hlat2]
    rw [he] at ha
    simp only [w3_0]
    refine ha.trans ?_
    rw [div_le_iff₀ (by norm_num)]
    norm_num at hz1 ⊢
    linarith
  · simp only [w3_1]
    rw [p0, p1]
    exact atan2_polar (by positivity) hlon1 hlon2
  · simp only [w3_2]
    change |len _ s.1 - s.2 - h| ≤ _
    have e1 := len_sub (p 0 * p 0 + p 1 * p 1) s.1 (R * Real.sin lat) hr
    have e2 := (rv_lip _ _ (sn_sq_le (p 0 * p 0 + p 1 * p 1) zk hr)
      (sn_sq_le (p 0 * p 0 + p 1 * p 1) (R * Real.sin lat) hr)).trans (sn_near hr hc hzk hzc)
    rw [hlenz] at e1
    rw [hsn, ← h2] at e2
    have e3 : len (p 0 * p 0 + p 1 * p 1) s.1 - s.2 - h =
        (len (p 0 * p 0 + p 1 * p 1) s.1 - R) - (s.2 - rv (Real.sin lat)) := by rw [hRdef]; ring
    rw [e3]
    refine (abs_sub _ _).trans ?_
    norm_num at hz1 hz2 ⊢
    linarith

/-- A place in Provo, at 1387 m. -/
example : -(Real.pi / 2) < (0.7 : ℝ) ∧ (0.7 : ℝ) < Real.pi / 2 ∧ -Real.pi < (-1.9 : ℝ) ∧ (-1.9 : ℝ) ≤ Real.pi ∧
    (-3e4 : ℝ) ≤ 1387 := by
  have := Real.pi_gt_three
  refine ⟨?_, ?_, ?_, ?_, ?_⟩ <;> norm_num <;> linarith

/-- At the centre of the earth there is no answer, and for every point the number of iterations allowed does not
change it. -/
theorem C102_stable (p : V3) (n m : ℕ) (l : V3) (hl : ecef2lla n p = some l) (hnm : n ≤ m) : ecef2lla m p = some l := by
  have hloop : ∀ (r2 c : ℝ) (n m : ℕ) (z : ℝ) (s : ℝ × ℝ), n ≤ m → llaLoop r2 c n z = some s →
      llaLoop r2 c m z = some s := by
    intro r2 c n
    induction n with
    | zero => intro m z s _ h; cases h
    | succ n ih =>
      intro m z s hm h
      obtain ⟨m, rfl⟩ : ∃ k, m = k + 1 := ⟨m - 1, by omega⟩
      rw [loop_succ] at h ⊢
      split_ifs at h ⊢ with hd
      · exact ih m _ _ (by omega) h
      · exact h
  unfold ecef2lla at hl ⊢
  simp only at hl ⊢
  split_ifs at hl ⊢ with h0 <;>
  · obtain ⟨s, hs, hl⟩ := Option.map_eq_some_iff.mp hl
    rw [hloop _ _ n m _ s hnm hs, ← hl]
    rfl

end Verif.Props.Wgs84
