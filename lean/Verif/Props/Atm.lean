import Verif.Props.Ned
import Mathlib.Analysis.SpecialFunctions.Trigonometric.Bounds
import Mathlib.Analysis.Complex.ExponentialBounds

/-!
C105 and C106: the delays of the troposphere and of the ionosphere (`common/satellite/atm_correction.cxx`).
-/

namespace Verif.Props.Atm

open Verif.Model.Lie Verif.Model.Wgs84 Verif.Lemmas.Lie Verif.Props.Quat Verif.Props.Wgs84

/-! ### Troposphere -/

/-- The delay in the zenith. -/
noncomputable def zenith (lat height : ℝ) : ℝ := tropo lat height (Real.pi / 2)

theorem tropo_eq {lat height el : ℝ} (h1 : -100 ≤ height) (h2 : height ≤ 10000) (h3 : 0 < el) :
    tropo lat height el = zenith lat height / Real.sin el := by
  have hp := Real.pi_pos
  unfold zenith tropo
  rw [if_neg (by push Not; norm_num; exact ⟨h1, h2, h3⟩), if_neg (by push Not; norm_num; exact ⟨h1, h2, by positivity⟩)]
  simp only [Real.cos_pi_div_two_sub, sub_self, Real.cos_zero, div_one]
  rw [add_div]

theorem temp_bounds {h : ℝ} (h0 : 0 ≤ h) (h1 : h ≤ 10000) :
    223.16 ≤ 15 - 6.5E-3 * h + 273.16 ∧ 15 - 6.5E-3 * h + 273.16 ≤ 288.16 := by
  norm_num
  constructor <;> linarith

theorem exp_bound {T : ℝ} (h1 : 223.16 ≤ T) (h2 : T ≤ 288.16) : Real.exp ((17.15 * T - 4684) / (T - 38.45)) ≤ 2.82 := by
  have h0 : 0 < T - 38.45 := by norm_num at h1 ⊢; linarith
  have hle : (17.15 * T - 4684) / (T - 38.45) ≤ 1 + 0.0335 := by
    rw [div_le_iff₀ h0]
    norm_num at h2 ⊢
    linarith
  refine (Real.exp_le_exp.mpr hle).trans ?_
  rw [Real.exp_add]
  have e1 := Real.exp_one_lt_d9
  have e2 : Real.exp (0.0335 : ℝ) ≤ 1.035 := by
    have := Real.one_sub_le_exp_neg (0.0335 : ℝ)
    rw [Real.exp_neg] at this
    have h3 : (0 : ℝ) < Real.exp 0.0335 := Real.exp_pos _
    rw [le_inv_comm₀ (by norm_num) h3] at this
    refine this.trans ?_
    norm_num
  have e3 : (0 : ℝ) < Real.exp 0.0335 := Real.exp_pos _
  norm_num at e1 e2 ⊢
  nlinarith

/-- The delay in the zenith is between half a metre and two and a half metres. -/
theorem C105_zenith (lat height : ℝ) (h1 : -100 ≤ height) (h2 : height ≤ 10000) :
    0.49 ≤ zenith lat height ∧ zenith lat height ≤ 2.5 := by
  have hp := Real.pi_pos
  unfold zenith tropo
  rw [if_neg (by push Not; norm_num; exact ⟨h1, h2, by positivity⟩)]
  simp only [sub_self, Real.cos_zero, div_one]
  have hh0 : 0 ≤ max height 0 := le_max_right _ _
  have hh1 : max height 0 ≤ 10000 := max_le h2 (by norm_num)
  generalize max height 0 = h at hh0 hh1
  obtain ⟨t1, t2⟩ := temp_bounds hh0 hh1
  generalize 15 - 6.5E-3 * h + 273.16 = T at t1 t2
  have he := exp_bound t1 t2
  have he0 := Real.exp_pos ((17.15 * T - 4684) / (T - 38.45))
  generalize Real.exp ((17.15 * T - 4684) / (T - 38.45)) = e at he he0
  have hb0 : 0.77443 ≤ 1 - 2.2557E-5 * h := by norm_num; linarith
  have hb1 : 1 - 2.2557E-5 * h ≤ 1 := by norm_num; linarith
  have hpr1 : (1 - 2.2557E-5 * h) ^ (5.2568 : ℝ) ≤ 1 :=
    Real.rpow_le_one (le_trans (by norm_num) hb0) hb1 (by norm_num)
  have hpr0 : 0.2157 ≤ (1 - 2.2557E-5 * h) ^ (5.2568 : ℝ) := by
    have s1 : (0.77443 : ℝ) ^ (5.2568 : ℝ) ≤ (1 - 2.2557E-5 * h) ^ (5.2568 : ℝ) :=
      Real.rpow_le_rpow (by norm_num) hb0 (by norm_num)
    have s2 : (0.77443 : ℝ) ^ ((6 : ℕ) : ℝ) ≤ (0.77443 : ℝ) ^ (5.2568 : ℝ) :=
      Real.rpow_le_rpow_of_exponent_ge (by norm_num) (by norm_num) (by norm_num)
    rw [Real.rpow_natCast] at s2
    refine le_trans ?_ (s2.trans s1)
    norm_num
  generalize (1 - 2.2557E-5 * h) ^ (5.2568 : ℝ) = pr at hpr0 hpr1
  have hc1 := Real.cos_le_one (2 * lat)
  have hc2 := Real.neg_one_le_cos (2 * lat)
  generalize Real.cos (2 * lat) = c at hc1 hc2
  have hD0 : 0.9945 ≤ 1 - 0.00266 * c - 0.00028 * h / 1E3 := by norm_num at *; linarith
  have hD1 : 1 - 0.00266 * c - 0.00028 * h / 1E3 ≤ 1.00266 := by norm_num at *; linarith
  generalize 1 - 0.00266 * c - 0.00028 * h / 1E3 = D at hD0 hD1
  have hDpos : 0 < D := lt_of_lt_of_le (by norm_num) hD0
  have hTpos : 0 < T := lt_of_lt_of_le (by norm_num) t1
  have hT1 : 1255 / T ≤ 5.63 := by rw [div_le_iff₀ hTpos]; norm_num at t1 ⊢; linarith
  have hT0 : 0 ≤ 1255 / T := by positivity
  have hwet0 : 0 ≤ 0.002277 * (1255 / T + 0.05) * (6.108 * 0.7 * e) := by positivity
  have hwet1 : 0.002277 * (1255 / T + 0.05) * (6.108 * 0.7 * e) ≤ 0.158 := by
    have : (1255 / T + 0.05) * e ≤ 5.68 * 2.82 :=
      mul_le_mul (by norm_num at hT1 ⊢; linarith) he he0.le (by norm_num)
    norm_num at this ⊢
    linarith
  have hdry0 : 0.49 ≤ 0.0022768 * (1013.25 * pr) / D := by
    rw [le_div_iff₀ hDpos]
    norm_num at *
    linarith
  have hdry1 : 0.0022768 * (1013.25 * pr) / D ≤ 2.33 := by
    rw [div_le_iff₀ hDpos]
    norm_num at *
    linarith
  constructor
  · linarith
  · norm_num at hdry1 hwet1 ⊢
    linarith

/-- The delay in any direction above the horizon is that in the zenith divided by the sine of the elevation: it is
positive and smaller for a higher satellite. -/
theorem C105_slant (lat height : ℝ) (h1 : -100 ≤ height) (h2 : height ≤ 10000) :
    (∀ el, 0 < el → el ≤ Real.pi / 2 → 0.49 ≤ tropo lat height el) ∧
    (∀ e1 e2, 0 < e1 → e1 < e2 → e2 ≤ Real.pi / 2 → tropo lat height e2 < tropo lat height e1) ∧
    (∀ el, 0 < el → el ≤ Real.pi / 2 → tropo lat height el ≤ 4 / el) := by
  obtain ⟨z1, z2⟩ := C105_zenith lat height h1 h2
  have hp := Real.pi_pos
  have hz : 0 < zenith lat height := lt_of_lt_of_le (by norm_num) z1
  refine ⟨?_, ?_, ?_⟩
  · intro el h3 h4
    rw [tropo_eq h1 h2 h3]
    have hs := Real.sin_pos_of_pos_of_lt_pi h3 (by linarith)
    rw [le_div_iff₀ hs]
    nlinarith [Real.sin_le_one el]
  · intro e1 e2 h3 h4 h5
    rw [tropo_eq h1 h2 h3, tropo_eq h1 h2 (h3.trans h4)]
    have hs := Real.sin_pos_of_pos_of_lt_pi h3 (by linarith)
    have hlt := Real.sin_lt_sin_of_lt_of_le_pi_div_two (by linarith) h5 h4
    exact div_lt_div_of_pos_left hz hs hlt
  · intro el h3 h4
    rw [tropo_eq h1 h2 h3]
    have hs := Real.sin_pos_of_pos_of_lt_pi h3 (by linarith)
    have hj := Real.mul_le_sin h3.le h4
    rw [div_le_div_iff₀ hs h3]
    have hpi := Real.pi_lt_d2
    have : 2 / Real.pi * el ≥ 0.63 * el := by
      apply mul_le_mul_of_nonneg_right _ h3.le
      rw [le_div_iff₀ hp]
      norm_num at hpi ⊢
      linarith
    norm_num at this z2 ⊢
    nlinarith

/-- The delay is never negative. -/
theorem C105_nonneg (lat height el : ℝ) (hel : el ≤ Real.pi / 2) : 0 ≤ tropo lat height el := by
  by_cases h : height < -100 ∨ 1E4 < height ∨ el ≤ 0
  · unfold tropo
    rw [if_pos h]
  · push Not at h
    obtain ⟨h1, h2, h3⟩ := h
    have := (C105_slant lat height h1 (by norm_num at h2; exact h2)).1 el h3 hel
    linarith

/-- C105, full statement: the delay is bounded over the elevations above the horizon, and does not jump with the
height. -/
def C105_statement : Prop :=
  (∃ M : ℝ, ∀ lat height el : ℝ, 0 < el → el ≤ Real.pi / 2 → tropo lat height el ≤ M) ∧
  ∀ lat el : ℝ, 0 < el → el ≤ Real.pi / 2 → Continuous fun height => tropo lat height el

/-- Near the horizon the delay exceeds every bound, although it is zero at the horizon. -/
theorem C105_horizon_violated (lat height : ℝ) (h1 : -100 ≤ height) (h2 : height ≤ 10000) (M : ℝ) :
    tropo lat height 0 = 0 ∧ ∃ el, 0 < el ∧ el ≤ Real.pi / 2 ∧ M < tropo lat height el := by
  refine ⟨?_, ?_⟩
  · unfold tropo
    rw [if_pos (by simp)]
  · have hp := Real.pi_gt_three
    obtain ⟨z1, -⟩ := C105_zenith lat height h1 h2
    refine ⟨0.49 / (|M| + 1), by positivity, ?_, ?_⟩
    · rw [div_le_iff₀ (by positivity)]
      norm_num
      nlinarith [abs_nonneg M]
    · have h3 : 0 < 0.49 / (|M| + 1) := by positivity
      have h4 : 0.49 / (|M| + 1) ≤ 0.49 := div_le_self (by norm_num) (by linarith [abs_nonneg M])
      rw [tropo_eq h1 h2 h3]
      have hs := Real.sin_pos_of_pos_of_lt_pi h3 (by norm_num at h4 ⊢; linarith)
      have hs2 := Real.sin_lt h3
      rw [lt_div_iff₀ hs]
      have hm : (|M| + 1) * (0.49 / (|M| + 1)) = 0.49 := by field_simp
      calc M * Real.sin (0.49 / (|M| + 1)) ≤ |M| * Real.sin (0.49 / (|M| + 1)) :=
            mul_le_mul_of_nonneg_right (le_abs_self M) hs.le
        _ ≤ (|M| + 1) * Real.sin (0.49 / (|M| + 1)) := by nlinarith
        _ < (|M| + 1) * (0.49 / (|M| + 1)) := mul_lt_mul_of_pos_left hs2 (by positivity)
        _ = 0.49 := hm
        _ ≤ _ := z1

/-- Ten kilometres up, the delay jumps by at least half a metre. -/
theorem C105_jump_violated (lat el d : ℝ) (h3 : 0 < el) (h4 : el ≤ Real.pi / 2) (hd : 0 < d) :
    0.49 ≤ tropo lat 10000 el ∧ tropo lat (10000 + d) el = 0 := by
  refine ⟨(C105_slant lat 10000 (by norm_num) le_rfl).1 el h3 h4, ?_⟩
  unfold tropo
  rw [if_pos]
  right; left
  norm_num
  exact hd

theorem C105_statement_false : ¬ C105_statement := by
  rintro ⟨⟨M, hM⟩, -⟩
  obtain ⟨-, el, h1, h2, h3⟩ := C105_horizon_violated 0 0 (by norm_num) (by norm_num) M
  exact absurd (hM 0 0 el h1 h2) (not_le.mpr h3)

/-! ### Ionosphere -/

theorem slant_bounds {el : ℝ} (h0 : 0 ≤ el) (h1 : el ≤ Real.pi / 2) : 1 ≤ slant el ∧ slant el ≤ 3.383 := by
  have hp := Real.pi_pos
  have hu0 : 0 ≤ el / Real.pi := by positivity
  have hu1 : el / Real.pi ≤ 1 / 2 := by rw [div_le_iff₀ hp]; linarith
  unfold slant
  generalize el / Real.pi = u at hu0 hu1
  have h2 : 0 ≤ 0.53 - u := by norm_num; linarith
  have h3 : 0.53 - u ≤ 0.53 := by linarith
  have h4 : (0.53 - u) ^ 3 ≤ 0.53 ^ 3 := pow_le_pow_left₀ h2 h3 3
  have h5 : 0 ≤ (0.53 - u) ^ 3 := pow_nonneg h2 3
  constructor
  · linarith
  · norm_num at h4 ⊢
    linarith

theorem clamp_bounds (x : ℝ) : |clamp x (-0.416) 0.416| ≤ 0.416 := by
  unfold clamp
  split_ifs with h1 h2
  · rw [abs_of_nonneg (by norm_num)]
  · rw [abs_of_nonpos (by norm_num)]; norm_num
  · exact abs_le.mpr ⟨by linarith, by linarith⟩

theorem mag_bounds (lat lon az el : ℝ) : |pierceMag lat lon az el| ≤ 0.48 := by
  unfold pierceMag
  refine (abs_add_le _ _).trans ?_
  have h1 : |pierceLat lat az el| ≤ 0.416 := clamp_bounds _
  have h2 : |0.064 * Real.cos ((pierceLon lat lon az el - 1.617) * Real.pi)| ≤ 0.064 := by
    rw [abs_mul, abs_of_nonneg (by norm_num)]
    have := Real.abs_cos_le_one ((pierceLon lat lon az el - 1.617) * Real.pi)
    norm_num
    linarith
  norm_num at h1 h2 ⊢
  linarith

theorem amp_bounds {m : ℝ} (h : |m| ≤ 0.48) : 0 ≤ amp m ∧ amp m ≤ 1.2e-8 := by
  refine ⟨le_max_right _ _, max_le ?_ (by norm_num)⟩
  obtain ⟨h1, h2⟩ := abs_le.mp h
  norm_num at h1 h2 ⊢
  nlinarith [mul_nonneg (mul_self_nonneg (m + 27 / 500)) (sub_nonneg.mpr h2),
    mul_nonneg (mul_self_nonneg (m)) (sub_nonneg.mpr h2), mul_self_nonneg (m + 27 / 500)]

theorem series_bounds {x : ℝ} (h : |x| ≤ 1.57) : 0 ≤ 1 - x * x / 2 + x * x * (x * x) / 24 ∧
    1 - x * x / 2 + x * x * (x * x) / 24 ≤ 1 := by
  have h1 : x * x ≤ 2.4649 := by
    have := abs_le.mp h
    norm_num at this ⊢
    nlinarith
  have h0 := mul_self_nonneg x
  generalize x * x = y at h0 h1
  norm_num at h1
  constructor <;> nlinarith

/-- For every place, time and direction above the horizon the delay is at least one and a half metres, as the code has it
for the night, and at most 17.3 m. -/
theorem C106_bounds (tow lat lon az el : ℝ) (h0 : 0 ≤ el) (h1 : el ≤ Real.pi / 2) :
    1.49 ≤ iono tow lat lon az el ∧ iono tow lat lon az el ≤ 17.3 := by
  obtain ⟨s1, s2⟩ := slant_bounds h0 h1
  obtain ⟨a1, a2⟩ := amp_bounds (mag_bounds lat lon az el)
  unfold iono cLight
  simp only
  generalize 2 * Real.pi * (localTime tow (pierceLon lat lon az el) - 50400) / period (pierceMag lat lon az el) = x
  generalize amp (pierceMag lat lon az el) = a at a1 a2
  generalize slant el = f at s1 s2
  split_ifs with hx
  · obtain ⟨x1, x2⟩ := series_bounds hx
    generalize (1 : ℝ) - x * x / 2 + x * x * (x * x) / 24 = c at x1 x2
    have k1 : a * c ≤ 1.2e-8 * 1 := mul_le_mul a2 x2 x1 (by norm_num)
    have k0 : 0 ≤ a * c := mul_nonneg a1 x1
    generalize a * c = k at k0 k1
    norm_num at s1 s2 k1 ⊢
    constructor <;> nlinarith
  · norm_num at s1 s2 ⊢
    constructor <;> linarith

/-- No denominator vanishes above the horizon: the earth-centred angle is between 0 and 0.103 semicircles, the cosine of
the latitude of the pierce point is positive and the period is at least 20 hours. -/
theorem C106_defined (lat lon az el : ℝ) (h0 : 0 ≤ el) (h1 : el ≤ Real.pi / 2) :
    0 < el / Real.pi + 0.11 ∧ 0 < earthAngle el ∧ earthAngle el ≤ 0.103 ∧
    0 < Real.cos (pierceLat lat az el * Real.pi) ∧ 72000 ≤ period (pierceMag lat lon az el) := by
  have hp := Real.pi_pos
  have hu0 : 0 ≤ el / Real.pi := by positivity
  have hu1 : el / Real.pi ≤ 1 / 2 := by rw [div_le_iff₀ hp]; linarith
  have hd : 0 < el / Real.pi + 0.11 := by positivity
  refine ⟨hd, ?_, ?_, ?_, le_max_right _ _⟩
  · unfold earthAngle
    rw [sub_pos, lt_div_iff₀ hd]
    norm_num
    linarith
  · unfold earthAngle
    rw [sub_le_iff_le_add, div_le_iff₀ hd]
    norm_num
    linarith
  · apply Real.cos_pos_of_mem_Ioo
    have h := abs_le.mp (show |pierceLat lat az el| ≤ 0.416 from clamp_bounds _)
    norm_num at h
    constructor <;> nlinarith

/-- Local time is a time of the day, and a day later it is the same. -/
theorem C106_day (tow lam : ℝ) : 0 ≤ localTime tow lam ∧ localTime tow lam < 86400 ∧
    localTime (tow + 86400) lam = localTime tow lam ∧ localTime tow (lam + 2) = localTime tow lam := by
  have key : ∀ t : ℝ, 0 ≤ t - ⌊t / 86400⌋ * 86400 ∧ t - ⌊t / 86400⌋ * 86400 < 86400 ∧
      (t + 86400) - ⌊(t + 86400) / 86400⌋ * 86400 = t - ⌊t / 86400⌋ * 86400 := by
    intro t
    have h1 := Int.floor_le (t / 86400)
    have h2 := Int.lt_floor_add_one (t / 86400)
    rw [le_div_iff₀ (by norm_num)] at h1
    rw [div_lt_iff₀ (by norm_num)] at h2
    refine ⟨by linarith, by linarith, ?_⟩
    rw [show (t + 86400) / 86400 = t / 86400 + (1 : ℤ) by push_cast; ring, Int.floor_add_intCast]
    push_cast
    ring
  unfold localTime
  simp only
  refine ⟨(key _).1, (key _).2.1, ?_, ?_⟩
  · rw [show 43200 * lam + (tow + 86400) + 18 = (43200 * lam + tow + 18) + 86400 by ring, (key _).2.2]
  · rw [show 43200 * (lam + 2) + tow + 18 = (43200 * lam + tow + 18) + 86400 by ring, (key _).2.2]

/-- The delay is the same a day later, and the same for two descriptions of one longitude. -/
theorem C106_periodic (tow lat lon az el : ℝ) :
    iono (tow + 86400) lat lon az el = iono tow lat lon az el ∧
    iono tow lat (lon + 2 * Real.pi) az el = iono tow lat lon az el := by
  have hp := Real.pi_pos
  have hlon : pierceLon lat (lon + 2 * Real.pi) az el = pierceLon lat lon az el + 2 := by
    unfold pierceLon
    rw [add_div, mul_div_assoc, div_self hp.ne']
    ring
  have hmag : pierceMag lat (lon + 2 * Real.pi) az el = pierceMag lat lon az el := by
    unfold pierceMag
    rw [hlon, show (pierceLon lat lon az el + 2 - 1.617) * Real.pi = (pierceLon lat lon az el - 1.617) * Real.pi + 2 * Real.pi
      by ring, Real.cos_add_two_pi]
  constructor
  · unfold iono
    simp only [(C106_day tow (pierceLon lat lon az el)).2.2.1]
  · unfold iono
    simp only [hmag, hlon, (C106_day tow (pierceLon lat lon az el)).2.2.2]

/-- C106, full statement: the slant delay is bounded for every direction. -/
def C106_statement : Prop :=
  ∀ tow lat lon az el : ℝ, -(Real.pi / 2) ≤ el → el ≤ Real.pi / 2 → iono tow lat lon az el ≤ 17.3

/-- There is no guard for satellites below the horizon, as there is for the troposphere: for a satellite at the nadir the
delay is more than 27 m at any place and time. -/
theorem C106_below_violated (tow lat lon az : ℝ) : 27 < iono tow lat lon az (-(Real.pi / 2)) := by
  have hp := Real.pi_pos
  have hs : slant (-(Real.pi / 2)) = 1 + 16 * 1.03 ^ 3 := by
    unfold slant
    rw [show -(Real.pi / 2) / Real.pi = -(1 / 2) by field_simp]
    norm_num
  obtain ⟨a1, -⟩ := amp_bounds (mag_bounds lat lon az (-(Real.pi / 2)))
  unfold iono cLight
  simp only [hs]
  generalize 2 * Real.pi * (localTime tow (pierceLon lat lon az (-(Real.pi / 2))) - 50400) /
    period (pierceMag lat lon az (-(Real.pi / 2))) = x
  generalize amp (pierceMag lat lon az (-(Real.pi / 2))) = a at a1
  split_ifs with hx
  · obtain ⟨x1, -⟩ := series_bounds hx
    generalize (1 : ℝ) - x * x / 2 + x * x * (x * x) / 24 = c at x1
    have k0 : 0 ≤ a * c := mul_nonneg a1 x1
    generalize a * c = k at k0
    norm_num
    linarith
  · norm_num

theorem C106_statement_false : ¬ C106_statement := by
  intro h
  have hp := Real.pi_pos
  have h1 := h 0 0 0 0 (-(Real.pi / 2)) le_rfl (by linarith)
  have h2 := C106_below_violated 0 0 0 0
  norm_num at h1
  linarith

/-- For a receiver at the surface of the earth and a satellite above its horizon the correction has a value, and both
delays are in their ranges. -/
theorem C106_correction (n : ℕ) (hn : 6 ≤ n) (tow : ℝ) (rec sat : V3) (hfar : 6.3e6 ≤ vnorm rec) (hne : sat ≠ rec) :
    ∃ i t az el, atm n tow rec sat = some (i, t) ∧ getAzEl n rec sat = some (az, el) ∧ 0 ≤ t ∧
      (0 ≤ el → 1.49 ≤ i ∧ i ≤ 17.3) := by
  obtain ⟨l, hl⟩ := C102_ends rec hfar n hn
  obtain ⟨q, hq, -, -, -⟩ := Ned.C103_frame l
  have hg : ∃ az el, getAzEl n rec sat = some (az, el) := by
    unfold getAzEl dqEcef2ned
    rw [hl]
    simp only [Option.bind_eq_bind, Option.bind_some, hq, Option.map_some]
    exact ⟨_, _, rfl⟩
  obtain ⟨az, el, hg⟩ := hg
  obtain ⟨l', hl', -, -, he2, -, -⟩ := Ned.C104_direction n rec sat az el hne hg
  refine ⟨_, _, az, el, ?_, hg, C105_nonneg (l 0) (l 2) el he2, fun he => C106_bounds tow (l 0) (l 1) az el he he2⟩
  unfold atm
  rw [hg, hl]
  rfl

/-- A receiver on the equator and a satellite above it. -/
example : 6.3e6 ≤ vnorm ![6378137, 0, 0] ∧ (![2.6e7, 1e7, 1e6] : V3) ≠ ![6378137, 0, 0] := by
  constructor
  · unfold vnorm sqNorm dot
    apply Real.le_sqrt_of_sq_le
    simp
    norm_num
  · intro h
    have := congrFun h 1
    simp at this
    norm_num at this

end Verif.Props.Atm
