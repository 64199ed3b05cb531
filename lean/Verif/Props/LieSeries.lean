import Verif.Lemmas.TrigSeries
import Verif.Props.So3
import Mathlib.Analysis.SpecialFunctions.Trigonometric.ArctanDeriv
/-!
# C112: near the identity the series continue the closed forms

Below a threshold of the angle the exponentials, logarithms and their Jacobians use polynomials instead of quotients that would be
`0 / 0`.
-/
namespace Verif.Props.LieSeries

open Verif.Model.Lie Verif.Spec.Lie Verif.Lemmas.Lie Verif.Lemmas.TrigSeries Verif.Props.Quat Verif.Props.DQuat Verif.Props.So3 Real

/-- C112 for the coefficients `a`, `b`, `c` of all exponentials (so3.h, se3.h, quat.h, dquat.h): the polynomials are too large by at
most the next term, at every angle. -/
theorem C112_abc (n : ℝ) (hn : 0 < n) :
    (0 ≤ (abcTaylor (n * n)).1 - sin n / n ∧ (abcTaylor (n * n)).1 - sin n / n ≤ n ^ 6 / 5040) ∧
    (0 ≤ (abcTaylor (n * n)).2.1 - (1 - cos n) / n ^ 2 ∧ (abcTaylor (n * n)).2.1 - (1 - cos n) / n ^ 2 ≤ n ^ 6 / 40320) ∧
    (0 ≤ (abcTaylor (n * n)).2.2 - (1 - sin n / n) / n ^ 2 ∧
      (abcTaylor (n * n)).2.2 - (1 - sin n / n) / n ^ 2 ≤ n ^ 6 / 362880) := by
  have h5 := s5 hn.le
  have h7 := s7 hn.le
  have h9 := s9 hn.le
  have g6 := k6 hn.le
  have g8 := k8 hn.le
  unfold S9 at h9
  unfold S7 at h7 h9
  unfold S5 S3 at h5 h7 h9
  unfold K8 at g8
  unfold K6 K4 K2 at g6 g8
  have ea : (abcTaylor (n * n)).1 - sin n / n = (n - n ^ 3 / 6 + n ^ 5 / 120 - sin n) / n := by
    unfold abcTaylor; field_simp
  have eb : (abcTaylor (n * n)).2.1 - (1 - cos n) / n ^ 2 = (cos n - (1 - n ^ 2 / 2 + n ^ 4 / 24 - n ^ 6 / 720)) / n ^ 2 := by
    unfold abcTaylor; field_simp; ring
  have ec : (abcTaylor (n * n)).2.2 - (1 - sin n / n) / n ^ 2 =
      (sin n - (n - n ^ 3 / 6 + n ^ 5 / 120 - n ^ 7 / 5040)) / n ^ 3 := by
    unfold abcTaylor; field_simp; ring
  refine ⟨⟨?_, ?_⟩, ⟨?_, ?_⟩, ?_, ?_⟩
  · rw [ea]; exact div_nonneg (by linarith) hn.le
  · rw [ea, div_le_iff₀ hn]
    have : n ^ 6 / 5040 * n = n ^ 7 / 5040 := by ring
    linarith
  · rw [eb]; exact div_nonneg (by linarith) (by positivity)
  · rw [eb, div_le_iff₀ (by positivity)]
    have : n ^ 6 / 40320 * n ^ 2 = n ^ 8 / 40320 := by ring
    linarith
  · rw [ec]; exact div_nonneg (by linarith) (by positivity)
  · rw [ec, div_le_iff₀ (by positivity)]
    have : n ^ 6 / 362880 * n ^ 3 = n ^ 9 / 362880 := by ring
    linarith

/-- C112 for `C1` and `C2` of the Jacobians of the rigid motions (se3.h, dquat.h). -/
theorem C112_c12 (n : ℝ) (hn : 0 < n) (k : ℝ × ℝ × ℝ) :
    |(SE3.c12 True k (n * n)).1 - (sin n / n - 2 * ((1 - cos n) / n ^ 2)) / n ^ 2| ≤ n ^ 6 / 362880 ∧
    |(SE3.c12 True k (n * n)).2 - ((1 - cos n) / n ^ 2 - 3 * ((1 - sin n / n) / n ^ 2)) / n ^ 2| ≤ n ^ 6 / 3628800 ∧
    SE3.c12 False (abcTrig (n * n) n) (n * n) = ((sin n / n - 2 * ((1 - cos n) / n ^ 2)) / n ^ 2,
      ((1 - cos n) / n ^ 2 - 3 * ((1 - sin n / n) / n ^ 2)) / n ^ 2) := by
  have h7 := s7 hn.le
  have h9 := s9 hn.le
  have h11 := s11 hn.le
  have g8 := k8 hn.le
  have g10 := k10 hn.le
  unfold S11 at h11
  unfold S9 at h9 h11
  unfold S7 at h7 h9 h11
  unfold S5 S3 at h7 h9 h11
  unfold K10 at g10
  unfold K8 at g8 g10
  unfold K6 K4 K2 at g8 g10
  have p9 : 0 < n ^ 9 := by positivity
  have p10 : 0 < n ^ 10 := by positivity
  have p11 : 0 < n ^ 11 := by positivity
  have e1 : (SE3.c12 True k (n * n)).1 - (sin n / n - 2 * ((1 - cos n) / n ^ 2)) / n ^ 2 =
      (n ^ 4 * (-1 / 12 + n ^ 2 / 180 - n ^ 4 / 6720) - n * sin n + 2 - 2 * cos n) / n ^ 4 := by
    unfold SE3.c12; rw [if_pos trivial]; field_simp; ring
  have e2 : (SE3.c12 True k (n * n)).2 - ((1 - cos n) / n ^ 2 - 3 * ((1 - sin n / n) / n ^ 2)) / n ^ 2 =
      (n ^ 5 * (-1 / 60 + n ^ 2 / 1260 - n ^ 4 / 60480) - 3 * sin n + n * cos n + 2 * n) / n ^ 5 := by
    unfold SE3.c12; rw [if_pos trivial]; field_simp; ring
  refine ⟨?_, ?_, ?_⟩
  · rw [e1, abs_div, abs_of_pos (by positivity : (0 : ℝ) < n ^ 4), div_le_iff₀ (by positivity)]
    have m1 := mul_le_mul_of_nonneg_left h7 hn.le
    have m2 := mul_le_mul_of_nonneg_left h9 hn.le
    rw [abs_le]
    constructor
    · nlinarith
    · nlinarith
  · rw [e2, abs_div, abs_of_pos (by positivity : (0 : ℝ) < n ^ 5), div_le_iff₀ (by positivity)]
    have m1 := mul_le_mul_of_nonneg_left g8 hn.le
    have m2 := mul_le_mul_of_nonneg_left g10 hn.le
    rw [abs_le]
    constructor
    · nlinarith
    · nlinarith
  · unfold SE3.c12 abcTrig
    rw [if_neg (by simp)]
    simp only [← sq]

/-- C112 for the factors of the exponentials of quaternions and dual quaternions (quat.h 172, dquat.h 186-191). -/
theorem C112_expCoeffs (n : ℝ) (hn : 0 < n) :
    let t : ℝ × ℝ := (0.5 - 1 / 48 * (n * n) + 1 / 3840 * (n * n * (n * n)), -1 / 24 + 1 / 960 * (n * n) - 1 / 107520 * (n * n * (n * n)))
    |t.1 - sin (n / 2) / n| ≤ n ^ 6 / 645120 ∧
    |t.2 - (cos (n / 2) / 2 - sin (n / 2) / n) / n ^ 2| ≤ n ^ 6 / 20643840 ∧
    ∀ ct, n * n ≤ 4e-6 → DQuat.expCoeffs (n * n) n ct = t := by
  have hx : 0 ≤ n / 2 := by positivity
  have h5 := s5 hx
  have h7 := s7 hx
  have h9 := s9 hx
  have g6 := k6 hx
  have g8 := k8 hx
  unfold S9 at h9
  unfold S7 at h7 h9
  unfold S5 S3 at h5 h7 h9
  unfold K8 at g8
  unfold K6 K4 K2 at g6 g8
  intro t
  have p7 : 0 < n ^ 7 := by positivity
  have p9 : 0 < n ^ 9 := by positivity
  have e1 : t.1 - sin (n / 2) / n = (n / 2 - (n / 2) ^ 3 / 6 + (n / 2) ^ 5 / 120 - sin (n / 2)) / n := by
    simp only [t]; field_simp; ring
  have e2 : t.2 - (cos (n / 2) / 2 - sin (n / 2) / n) / n ^ 2 =
      (n ^ 3 * (-1 / 24 + n ^ 2 / 960 - n ^ 4 / 107520) - n * cos (n / 2) / 2 + sin (n / 2)) / n ^ 3 := by
    simp only [t]; field_simp; ring
  refine ⟨?_, ?_, ?_⟩
  · rw [e1, abs_div, abs_of_pos hn, div_le_iff₀ hn, abs_le]
    constructor <;> nlinarith
  · rw [e2, abs_div, abs_of_pos (by positivity : (0 : ℝ) < n ^ 3), div_le_iff₀ (by positivity), abs_le]
    have m1 := mul_le_mul_of_nonneg_left g6 hn.le
    have m2 := mul_le_mul_of_nonneg_left g8 hn.le
    constructor <;> nlinarith
  · intro ct h
    unfold DQuat.expCoeffs
    rw [if_neg (not_lt.2 h)]

theorem logE_series {n : ℝ} (h0 : 0 < n) (hn1 : n < 1) :
    |1 / 12 + n * n * (1 / 720 + n * n * (1 / 30240)) - ((1 - cos n) / n ^ 2 * 0.5 - (1 - sin n / n) / n ^ 2) / (sin n / n)|
      ≤ n ^ 6 / 400000 := by
  have h7 := s7 h0.le
  have h9 := s9 h0.le
  have g8 := k8 h0.le
  have g10 := k10 h0.le
  have g3 := s3 h0.le
  unfold S9 at h9
  unfold S7 at h7 h9
  unfold S5 at h7 h9
  unfold S3 at h7 h9 g3
  unfold K10 at g10
  unfold K8 at g8 g10
  unfold K6 K4 K2 at g8 g10
  have p3 : 0 < n ^ 3 := by positivity
  have hm : n ^ 2 ≤ 1 := by nlinarith
  have hs : n * (5 / 6) ≤ sin n := by nlinarith
  have hs0 : 0 < sin n := lt_of_lt_of_le (by positivity) hs
  have hT : 0 ≤ 1 - n ^ 2 / 12 - n ^ 4 / 720 - n ^ 6 / 30240 := by nlinarith [pow_le_one₀ h0.le hn1.le (n := 4), pow_le_one₀ h0.le hn1.le (n := 6)]
  have e1 : 1 / 12 + n * n * (1 / 720 + n * n * (1 / 30240)) -
      ((1 - cos n) / n ^ 2 * 0.5 - (1 - sin n / n) / n ^ 2) / (sin n / n) =
      (n / 2 + n * cos n / 2 - sin n * (1 - n ^ 2 / 12 - n ^ 4 / 720 - n ^ 6 / 30240)) / (n ^ 2 * sin n) := by
    field_simp; ring
  have u : n / 2 + n * cos n / 2 - sin n * (1 - n ^ 2 / 12 - n ^ 4 / 720 - n ^ 6 / 30240) ≤ n ^ 9 / 518400 := by
    have m1 := mul_le_mul_of_nonneg_left g8 h0.le
    have m2 := mul_le_mul_of_nonneg_right h7 hT
    have : n / 2 + n * (1 - n ^ 2 / 2 + n ^ 4 / 24 - n ^ 6 / 720 + n ^ 8 / 40320) / 2
        - (n - n ^ 3 / 6 + n ^ 5 / 120 - n ^ 7 / 5040) * (1 - n ^ 2 / 12 - n ^ 4 / 720 - n ^ 6 / 30240)
        = n ^ 9 / 518400 - n ^ 13 / 152409600 := by ring
    have : 0 < n ^ 13 := by positivity
    linarith
  have l : -(n ^ 9 / 1209600) ≤ n / 2 + n * cos n / 2 - sin n * (1 - n ^ 2 / 12 - n ^ 4 / 720 - n ^ 6 / 30240) + n ^ 13 / 365783040 := by
    have m1 := mul_le_mul_of_nonneg_left g10 h0.le
    have m2 := mul_le_mul_of_nonneg_right h9 hT
    have : n / 2 + n * (1 - n ^ 2 / 2 + n ^ 4 / 24 - n ^ 6 / 720 + n ^ 8 / 40320 - n ^ 10 / 3628800) / 2
        - (n - n ^ 3 / 6 + n ^ 5 / 120 - n ^ 7 / 5040 + n ^ 9 / 362880) * (1 - n ^ 2 / 12 - n ^ 4 / 720 - n ^ 6 / 30240)
        = -(n ^ 9 / 1209600) + n ^ 11 / 10886400 - n ^ 13 / 365783040 + n ^ 15 / 10973491200 := by ring
    have : 0 < n ^ 11 := by positivity
    have : 0 < n ^ 15 := by positivity
    linarith
  have q13 : n ^ 13 ≤ n ^ 9 := pow_le_pow_of_le_one h0.le hn1.le (by norm_num)
  have q9 : 0 < n ^ 9 := by positivity
  rw [e1, abs_div, abs_of_pos (by positivity : (0 : ℝ) < n ^ 2 * sin n), div_le_iff₀ (by positivity)]
  have hb : n ^ 9 / 480000 ≤ n ^ 6 / 400000 * (n ^ 2 * sin n) := by
    have := mul_le_mul_of_nonneg_left hs (by positivity : 0 ≤ n ^ 6 / 400000 * n ^ 2)
    have e : n ^ 6 / 400000 * n ^ 2 * (n * (5 / 6)) = n ^ 9 / 480000 := by ring
    linarith
  refine le_trans ?_ hb
  rw [abs_le]
  constructor <;> linarith

/-- C112 for the coefficient of `SE3::log` (se3.h 206-218): below `1e-4` the polynomial differs from the quotient by a multiple of the
sixth power. -/
theorem C112_logE (w : V3) (h0 : 0 < vnorm w) (h : vnorm w < 1e-4) :
    ∃ e, SE3.logE w = some e ∧
      |e - ((1 - cos (vnorm w)) / vnorm w ^ 2 * 0.5 - (1 - sin (vnorm w) / vnorm w) / vnorm w ^ 2) / (sin (vnorm w) / vnorm w)|
        ≤ vnorm w ^ 6 / 400000 := by
  refine ⟨1 / 12 + vnorm w * vnorm w * (1 / 720 + vnorm w * vnorm w * (1 / 30240)), ?_, ?_⟩
  · unfold SE3.logE
    dsimp only
    rw [if_pos (by rw [sqrt_sqNorm]; exact h), sqNorm_eq]
  exact logE_series h0 (lt_trans h (by norm_num))

/-- C112 for the factor of `SO3::log` (so3.h 129-137): `1/2 - (trace - 3) / 12` against `θ / (2 sin θ)` for a rotation by `θ`. -/
theorem C112_so3_log (θ : ℝ) (h0 : 0 < θ) (h : θ ≤ 1) :
    |1 / 2 - ((1 + 2 * cos θ) - 3) / 12 - θ / (2 * sin θ)| ≤ θ ^ 4 / 40 := by
  have a5 := s5 h0.le
  have a7 := s7 h0.le
  have b5 := s5 (by positivity : 0 ≤ 2 * θ)
  have b7 := s7 (by positivity : 0 ≤ 2 * θ)
  have a3 := s3 h0.le
  rw [sin_two_mul] at b5 b7
  unfold S7 at a7 b7
  unfold S5 at a5 b5 a7 b7
  unfold S3 at a3 a5 b5 a7 b7
  have p3 : 0 < θ ^ 3 := by positivity
  have hm : θ ^ 2 ≤ 1 := by nlinarith
  have hs : θ * (5 / 6) ≤ sin θ := by nlinarith
  have hs0 : 0 < sin θ := lt_of_lt_of_le (by positivity) hs
  have e1 : 1 / 2 - ((1 + 2 * cos θ) - 3) / 12 - θ / (2 * sin θ) =
      (4 / 3 * sin θ - 2 * sin θ * cos θ / 6 - θ) / (2 * sin θ) := by
    field_simp; ring
  have q5 : 0 < θ ^ 5 := by positivity
  have q7 : θ ^ 7 ≤ θ ^ 5 := pow_le_pow_of_le_one h0.le h (by norm_num)
  rw [e1, abs_div, abs_of_pos (by positivity : (0 : ℝ) < 2 * sin θ), div_le_iff₀ (by positivity)]
  have hb : θ ^ 5 / 24 ≤ θ ^ 4 / 40 * (2 * sin θ) := by
    have := mul_le_mul_of_nonneg_left hs (by positivity : 0 ≤ θ ^ 4 / 40 * 2)
    have e : θ ^ 4 / 40 * 2 * (θ * (5 / 6)) = θ ^ 5 / 24 := by ring
    linarith
  refine le_trans ?_ hb
  have q7' : 0 < θ ^ 7 := by positivity
  rw [abs_le]
  constructor
  · nlinarith
  · nlinarith

theorem atan2_arctan {y x : ℝ} (hx : 0 < x) : atan2 y x = arctan (y / x) := by
  have hr : 0 < x / cos (arctan (y / x)) := div_pos hx (cos_arctan_pos _)
  have h := atan2_polar hr (θ := arctan (y / x)) (by linarith [neg_pi_div_two_lt_arctan (y / x), pi_pos])
    (by linarith [arctan_lt_pi_div_two (y / x), pi_pos])
  have h1 : x / cos (arctan (y / x)) * cos (arctan (y / x)) = x := by
    field_simp [(cos_arctan_pos (y / x)).ne']
  have h2 : x / cos (arctan (y / x)) * sin (arctan (y / x)) = y := by
    have ht := tan_arctan (y / x)
    rw [tan_eq_sin_div_cos] at ht
    have hc := (cos_arctan_pos (y / x)).ne'
    field_simp at ht ⊢
    linarith
  rw [h1, h2] at h
  exact h

theorem arctan_le5 {t : ℝ} (ht : 0 ≤ t) : arctan t ≤ t - t ^ 3 / 3 + t ^ 5 / 5 := by
  refine le_of_deriv (f' := fun x => 1 / (1 + x ^ 2)) (g := fun t => t - t ^ 3 / 3 + t ^ 5 / 5)
    (g' := fun x => 1 - x ^ 2 + x ^ 4) hasDerivAt_arctan (fun x => ?_) (by simp) (fun x hx => ?_) ht
  · have := ((hasDerivAt_id x).sub (pow_deriv 2 3 x)).add (pow_deriv 4 5 x)
    exact this.congr_deriv (by push_cast; ring)
  · rw [div_le_iff₀ (by positivity)]
    nlinarith [sq_nonneg (x ^ 3)]

theorem arctan_ge7 {t : ℝ} (ht : 0 ≤ t) : t - t ^ 3 / 3 + t ^ 5 / 5 - t ^ 7 / 7 ≤ arctan t := by
  refine le_of_deriv (g' := fun x => 1 / (1 + x ^ 2)) (f := fun t => t - t ^ 3 / 3 + t ^ 5 / 5 - t ^ 7 / 7)
    (f' := fun x => 1 - x ^ 2 + x ^ 4 - x ^ 6) (fun x => ?_) hasDerivAt_arctan (by simp) (fun x hx => ?_) ht
  · have := (((hasDerivAt_id x).sub (pow_deriv 2 3 x)).add (pow_deriv 4 5 x)).sub (pow_deriv 6 7 x)
    exact this.congr_deriv (by push_cast; ring)
  · rw [le_div_iff₀ (by positivity)]
    nlinarith [sq_nonneg (x ^ 4)]

/-- C112 for the factor of `Quat::log` (quat.h 228-235) with a positive real part. -/
theorem C112_quat_log (n w : ℝ) (hn : 0 < n) (hw : 0 < w) :
    0 ≤ 2 * (1 / w - n * n / (3 * (w * w * w)) + n * n * (n * n) / (5 * (w * w * w * w * w))) - 2 * atan2 n w / n ∧
    2 * (1 / w - n * n / (3 * (w * w * w)) + n * n * (n * n) / (5 * (w * w * w * w * w))) - 2 * atan2 n w / n
      ≤ 2 / 7 * n ^ 6 / w ^ 7 := by
  have ht : 0 ≤ n / w := by positivity
  have h1 := arctan_le5 ht
  have h2 := arctan_ge7 ht
  rw [atan2_arctan hw]
  have e : 2 * (1 / w - n * n / (3 * (w * w * w)) + n * n * (n * n) / (5 * (w * w * w * w * w))) - 2 * arctan (n / w) / n =
      2 / n * (n / w - (n / w) ^ 3 / 3 + (n / w) ^ 5 / 5 - arctan (n / w)) := by
    generalize arctan (n / w) = A
    field_simp
  rw [e]
  refine ⟨mul_nonneg (by positivity) (by linarith), ?_⟩
  have : 2 / n * (n / w - (n / w) ^ 3 / 3 + (n / w) ^ 5 / 5 - arctan (n / w)) ≤ 2 / n * ((n / w) ^ 7 / 7) :=
    mul_le_mul_of_nonneg_left (by linarith) (by positivity)
  refine this.trans (le_of_eq ?_)
  field_simp

/-- C112 for `DQuat::log` (dquat.h 290-306), violated: below the threshold the factor of the rotation is too small by more than a
quarter of the square of the sine of half the angle, since the first term of its series is `1` and not `1 / w`; the factor of the
coupling of rotation and translation has a polynomial with value about `5/24` where the closed form has about `-2/3`. -/
theorem C112_dquat_log_violated (p : DQuat) (hq : UnitQ p.r) (hw : 0 < p.r.w) (h0 : 0 < sqNorm p.r.bar) (h : sqNorm p.r.bar ≤ 1e-8) :
    ∃ a c, p.log = ⟨(2 * a) • p.r.bar, (2 : ℝ) • (a • p.d.bar + (dot p.r.bar p.d.bar * c - p.d.w) • p.r.bar)⟩ ∧
      sqNorm p.r.bar / 4 ≤ atan2 (vnorm p.r.bar) p.r.w / vnorm p.r.bar - a ∧
      atan2 (vnorm p.r.bar) p.r.w / vnorm p.r.bar - a ≤ sqNorm p.r.bar ∧
      0.7 ≤ c - (p.r.w - atan2 (vnorm p.r.bar) p.r.w / vnorm p.r.bar) / sqNorm p.r.bar := by
  have hn0 : 0 < vnorm p.r.bar := Real.sqrt_pos.2 h0
  have hu : vnorm p.r.bar * vnorm p.r.bar + p.r.w * p.r.w = 1 := by
    rw [bar_norm_sq]
    have := hq
    unfold UnitQ at this
    linarith
  have hbig : ¬ (sqNorm p.r.bar > 1e-8) := not_lt.2 h
  unfold DQuat.log
  simp only [hbig, if_false]
  refine ⟨_, _, rfl, ?_⟩
  rw [sqNorm_eq] at h ⊢
  rw [atan2_arctan hw]
  have h5 := arctan_le5 (by positivity : 0 ≤ vnorm p.r.bar / p.r.w)
  have h7 := arctan_ge7 (by positivity : 0 ≤ vnorm p.r.bar / p.r.w)
  generalize arctan (vnorm p.r.bar / p.r.w) = A at *
  generalize vnorm p.r.bar = n at *
  generalize p.r.w = w at *
  clear hq h0 hbig
  have hw1 : w ≤ 1 := by nlinarith
  have hw9 : 0.999 ≤ w := by
    by_contra hcon
    push Not at hcon
    norm_num at h hcon
    nlinarith
  obtain ⟨z, hz⟩ : ∃ z, z = 1 / w := ⟨_, rfl⟩
  have hzw : w * z = 1 := by rw [hz]; field_simp
  have hz0 : 0 < z := by rw [hz]; positivity
  have hz1 : 1 ≤ z := by nlinarith
  have hz2 : z ≤ 1.0011 := by norm_num at hw9 ⊢; nlinarith
  have ez : n / w = n * z := by rw [hz]; ring
  rw [ez] at h5 h7
  have a5 : A / n ≤ z - n ^ 2 * z ^ 3 / 3 + n ^ 4 * z ^ 5 / 5 := by
    rw [div_le_iff₀ hn0]
    calc A ≤ _ := h5
      _ = _ := by ring
  have a7 : z - n ^ 2 * z ^ 3 / 3 + n ^ 4 * z ^ 5 / 5 - n ^ 6 * z ^ 7 / 7 ≤ A / n := by
    rw [le_div_iff₀ hn0]
    calc _ = n * z - (n * z) ^ 3 / 3 + (n * z) ^ 5 / 5 - (n * z) ^ 7 / 7 := by ring
      _ ≤ A := h7
  generalize A / n = B at *
  have e3 : 1 / (3 * (w * w * w)) = z ^ 3 / 3 := by rw [hz]; field_simp
  have e5 : 1 / (5 * (w * w * w * (w * w))) = z ^ 5 / 5 := by rw [hz]; field_simp
  rw [e3, e5]
  obtain ⟨m, hm⟩ : ∃ m, m = n * n := ⟨_, rfl⟩
  have m0 : 0 < m := by rw [hm]; positivity
  have f2 : n ^ 2 = m := by rw [hm]; ring
  have f4 : n ^ 4 = m * m := by rw [hm]; ring
  have f6 : n ^ 6 = m * m * m := by rw [hm]; ring
  rw [f2, f4] at a5
  rw [f2, f4, f6] at a7
  rw [← hm] at h hu ⊢
  have z3 : z ^ 3 ≤ 1.01 := by
    calc z ^ 3 ≤ (1.0011 : ℝ) ^ 3 := pow_le_pow_left₀ hz0.le hz2 3
      _ ≤ 1.01 := by norm_num
  have z7 : z ^ 7 ≤ 1.01 := by
    calc z ^ 7 ≤ (1.0011 : ℝ) ^ 7 := pow_le_pow_left₀ hz0.le hz2 7
      _ ≤ 1.01 := by norm_num
  have z5 : z ^ 5 ≤ 1.01 := by
    calc z ^ 5 ≤ (1.0011 : ℝ) ^ 5 := pow_le_pow_left₀ hz0.le hz2 5
      _ ≤ 1.01 := by norm_num
  have hz1' : (z - 1) * (1 + w) = m * z := by linear_combination (w + 1) * hzw - z * hu
  have q1 : m / 2 ≤ z - 1 := by nlinarith
  have q2 : z - 1 ≤ m := by norm_num at hw9 hz2; nlinarith
  have mm : m * m ≤ m * 1e-8 := mul_le_mul_of_nonneg_left h m0.le
  have mmm : m * m * m ≤ m * 1e-8 := by
    have : m * m * m ≤ m * m * 1 := mul_le_mul_of_nonneg_left (le_trans h (by norm_num)) (by positivity)
    linarith
  have p5 : 0 ≤ m * m * z ^ 5 := by positivity
  have p5' : m * m * z ^ 5 ≤ m * m * 1.01 := mul_le_mul_of_nonneg_left z5 (by positivity)
  have p7 : m * m * m * z ^ 7 ≤ m * m * m * 1.01 := mul_le_mul_of_nonneg_left z7 (by positivity)
  norm_num at h z3 z5 z7 hz2 hw9 mm mmm p5' p7 ⊢
  refine ⟨by linarith, by linarith, ?_⟩
  have hdiv : (w - B) / m ≤ - (66 / 100) := by
    rw [div_le_iff₀ m0]
    have hwz : w = z - m * z := by linear_combination z * hu - w * hzw
    have : m * z ^ 3 ≤ m * (101 / 100) := mul_le_mul_of_nonneg_left z3 m0.le
    have mz : m * 1 ≤ m * z := mul_le_mul_of_nonneg_left hz1 m0.le
    linarith
  have c0 : 1 / 5 ≤ 5 / 24 - 379 / 1920 * m + 46073 / 322560 * (m * m) - 127431 / 1146880 * (m * m * m) := by
    have : 0 < m * m := by positivity
    linarith
  linarith

/-- The hypotheses of C112 hold for a rotation by about 160 microradians. -/
example : UnitQ (DQuat.mk ⟨624999999 / 625000001, 50000 / 625000001, 0, 0⟩ ⟨0, 1, 0, 0⟩).r ∧
    0 < sqNorm (Quat.bar ⟨624999999 / 625000001, 50000 / 625000001, 0, 0⟩) ∧
    sqNorm (Quat.bar ⟨624999999 / 625000001, 50000 / 625000001, 0, 0⟩) ≤ 1e-8 := by
  refine ⟨?_, ?_, ?_⟩ <;> simp [UnitQ, sqNorm_at, Quat.bar] <;> norm_num

end Verif.Props.LieSeries
