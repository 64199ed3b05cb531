import Verif.Props.Wgs84
import Verif.Props.DQuat
import Verif.Props.QuatExp
import Verif.Props.EkfModels
import Verif.Lemmas.LieCurve

/-!
C103 and C104: the local north, east, down frame (`utils/wgs84.cxx` 79-144) and azimuth and elevation
(`common/satellite/azel.cxx`).
-/

namespace Verif.Props.Ned

open Verif.Model.Lie Verif.Model.Wgs84 Verif.Lemmas.Lie Verif.Lemmas.LieCurve Verif.Props.Quat Verif.Props.Wgs84 Matrix

/-! ### Specification: the directions at a place -/

/-- North and east (and, in `Props.Wgs84`, up) at the latitude `φ` and longitude `lon`. -/
noncomputable def north (φ lon : ℝ) : V3 := ![-Real.sin φ * Real.cos lon, -Real.sin φ * Real.sin lon, Real.cos φ]
noncomputable def east (lon : ℝ) : V3 := ![-Real.sin lon, Real.cos lon, 0]

/-- The scalar product. -/
def dp (a b : V3) : ℝ := a 0 * b 0 + a 1 * b 1 + a 2 * b 2

/-- The radius of curvature of the meridian. -/
noncomputable def meridian (φ : ℝ) : ℝ := A * (1 - E2) / (1 - E2 * Real.sin φ ^ 2) / √(1 - E2 * Real.sin φ ^ 2)

theorem ez_unit : Verif.Spec.Lie.inner (![0, 0, 1] : V3) ![0, 0, 1] = 1 := by
  simp [Verif.Spec.Lie.inner, Fin.sum_univ_three]
theorem ey_unit : Verif.Spec.Lie.inner (![0, 1, 0] : V3) ![0, 1, 0] = 1 := by
  simp [Verif.Spec.Lie.inner, Fin.sum_univ_three]

theorem rota_otimes (p q : Quat) (hp : UnitQ p) (hq : UnitQ q) (v : V3) : (p.otimes q).rota v = p.rota (q.rota v) := by
  rw [rota_eq, rota_eq, rota_eq, R_mul p q hp hq, transpose_mul, mulVec_mulVec]

/-- The quaternion of `q_e2n`: the columns of its rotation are north, east and down. -/
theorem C103_frame (l : V3) : ∃ q, qE2n l = some q ∧ UnitQ q ∧
    (∀ a b c : ℝ, q.rota ![a, b, c] = a • north (l 0) (l 1) + b • east (l 1) - c • up (l 0) (l 1)) ∧
    ∀ v, q.rotp v = ![dp v (north (l 0) (l 1)), dp v (east (l 1)), -dp v (up (l 0) (l 1))] := by
  obtain ⟨q1, e1, u1, r1, -⟩ := C45_axis_angle ![0, 0, 1] ez_unit (l 1)
  obtain ⟨q2, e2, u2, r2, -⟩ := C45_axis_angle ![0, 1, 0] ey_unit (-Real.pi / 2 - l 0)
  have hu := EkfModels.otimes_unit u1 u2
  have hc : Real.cos (-Real.pi / 2 - l 0) = -Real.sin (l 0) := by
    rw [show -Real.pi / 2 - l 0 = -(l 0 + Real.pi / 2) by ring, Real.cos_neg, Real.cos_add_pi_div_two]
  have hs : Real.sin (-Real.pi / 2 - l 0) = -Real.cos (l 0) := by
    rw [show -Real.pi / 2 - l 0 = -(l 0 + Real.pi / 2) by ring, Real.sin_neg, Real.sin_add_pi_div_two]
  have hr : ∀ a b c : ℝ, (q1.otimes q2).rota ![a, b, c] =
      a • north (l 0) (l 1) + b • east (l 1) - c • up (l 0) (l 1) := by
    intro a b c
    rw [rota_otimes _ _ u1 u2, r1, r2]
    unfold Verif.Spec.Lie.turn
    rw [hc, hs]
    have h1 := Real.sin_sq_add_cos_sq (l 0)
    apply vec_ext <;>
      simp [Verif.Spec.Lie.vprod, Verif.Spec.Lie.inner, Fin.sum_univ_three, north, east, up] <;> ring
  refine ⟨q1.otimes q2, ?_, hu, hr, ?_⟩
  · unfold qE2n
    rw [e1, e2]
    rfl
  · intro v
    have h := hr (dp v (north (l 0) (l 1))) (dp v (east (l 1))) (-dp v (up (l 0) (l 1)))
    have h2 : (q1.otimes q2).rota ![dp v (north (l 0) (l 1)), dp v (east (l 1)), -dp v (up (l 0) (l 1))] = v := by
      rw [h]
      have h1 := Real.sin_sq_add_cos_sq (l 0)
      have h3 := Real.sin_sq_add_cos_sq (l 1)
      apply vec_ext <;> simp [dp, north, east, up]
      · linear_combination (v 0 * Real.cos (l 1) ^ 2 + v 1 * Real.cos (l 1) * Real.sin (l 1)) * h1 + v 0 * h3
      · linear_combination (v 1 * Real.sin (l 1) ^ 2 + v 0 * Real.cos (l 1) * Real.sin (l 1)) * h1 + v 1 * h3
      · linear_combination v 2 * h1
    rw [← h2, rotp_rota _ hu, h2]

/-- North, east and up are the directions in which latitude, longitude and height grow, and the lengths of the steps are
those of the curvatures of the earth. -/
theorem C103_directions (φ lon h : ℝ) :
    HasVecDeriv (fun t : ℝ => lla2ecef ![φ + t, lon, h]) ((meridian φ + h) • north φ lon) ∧
    HasVecDeriv (fun t : ℝ => lla2ecef ![φ, lon + t, h]) (((rv (Real.sin φ) + h) * Real.cos φ) • east lon) ∧
    HasVecDeriv (fun t : ℝ => lla2ecef ![φ, lon, h + t]) (up φ lon) := by
  have hA := A_pos
  have hs1 := sin_sq_le φ
  have hE := E2_bounds
  have hpos : 0 < 1 - E2 * Real.sin φ ^ 2 := by nlinarith [hE.1, hE.2, sq_nonneg (Real.sin φ)]
  set w := √(1 - E2 * Real.sin φ ^ 2) with hw
  have hw0 : 0 < w := Real.sqrt_pos.mpr hpos
  have hw2 : w ^ 2 = 1 - E2 * Real.sin φ ^ 2 := Real.sq_sqrt hpos.le
  have hsin : HasDerivAt (fun t : ℝ => Real.sin (φ + t)) (Real.cos φ) 0 := by
    have := ((hasDerivAt_id (0 : ℝ)).const_add φ).sin
    simpa using this
  have hcos : HasDerivAt (fun t : ℝ => Real.cos (φ + t)) (-Real.sin φ) 0 := by
    have := ((hasDerivAt_id (0 : ℝ)).const_add φ).cos
    simpa using this
  have hsl : HasDerivAt (fun t : ℝ => Real.sin (lon + t)) (Real.cos lon) 0 := by
    have := ((hasDerivAt_id (0 : ℝ)).const_add lon).sin
    simpa using this
  have hcl : HasDerivAt (fun t : ℝ => Real.cos (lon + t)) (-Real.sin lon) 0 := by
    have := ((hasDerivAt_id (0 : ℝ)).const_add lon).cos
    simpa using this
  have hq : HasDerivAt (fun t : ℝ => √(1 - E2 * Real.sin (φ + t) * Real.sin (φ + t)))
      (-(E2 * Real.sin φ * Real.cos φ) / w) 0 := by
    have h1 := ((hsin.const_mul E2).mul hsin).const_sub 1
    have h2 : (1 : ℝ) - E2 * Real.sin (φ + 0) * Real.sin (φ + 0) ≠ 0 := by
      rw [add_zero, mul_assoc, ← sq]
      exact hpos.ne'
    have h3 := h1.sqrt h2
    refine h3.congr_deriv ?_
    simp only [add_zero, Pi.mul_apply]
    rw [mul_assoc E2 (Real.sin φ) (Real.sin φ), ← sq, ← hw]
    field_simp
    ring
  have hv : HasDerivAt (fun t : ℝ => A / √(1 - E2 * Real.sin (φ + t) * Real.sin (φ + t)))
      (A * E2 * Real.sin φ * Real.cos φ / w ^ 3) 0 := by
    have h2 : √((1 : ℝ) - E2 * Real.sin (φ + 0) * Real.sin (φ + 0)) ≠ 0 := by
      rw [add_zero, mul_assoc, ← sq]
      exact hw0.ne'
    refine ((hasDerivAt_const (0 : ℝ) A).div hq h2).congr_deriv ?_
    simp only [add_zero]
    rw [mul_assoc E2 (Real.sin φ) (Real.sin φ), ← sq, ← hw]
    field_simp
    ring
  have hrv : rv (Real.sin φ) = A / w := by
    rw [hw]; unfold rv
    congr 2
    ring
  have hm : meridian φ = A * (1 - E2) / w ^ 3 := by
    unfold meridian
    rw [← hw, ← hw2]
    field_simp
  have hv0 : A / √(1 - E2 * Real.sin φ * Real.sin φ) = A / w := by
    rw [mul_assoc E2 (Real.sin φ) (Real.sin φ), ← sq]
  refine ⟨?_, ?_, ?_⟩
  · intro i
    fin_cases i
    · change HasDerivAt (fun t : ℝ => (A / √(1 - E2 * Real.sin (φ + t) * Real.sin (φ + t)) + h) * Real.cos (φ + t) *
        Real.cos lon) _ 0
      refine (((hv.add_const h).mul hcos).mul_const (Real.cos lon)).congr_deriv ?_
      simp only [add_zero, hv0]
      change _ = (meridian φ + h) * (-Real.sin φ * Real.cos lon)
      rw [hm]
      have hsc := Real.sin_sq_add_cos_sq φ
      have : A * E2 * Real.sin φ * Real.cos φ / w ^ 3 * Real.cos φ = A * Real.sin φ * (E2 * Real.cos φ ^ 2) / w ^ 3 := by
        ring
      rw [this, show A / w = A * w ^ 2 / w ^ 3 by field_simp, hw2]
      field_simp
      linear_combination A * E2 * Real.sin φ * Real.cos lon * hsc
    · change HasDerivAt (fun t : ℝ => (A / √(1 - E2 * Real.sin (φ + t) * Real.sin (φ + t)) + h) * Real.cos (φ + t) *
        Real.sin lon) _ 0
      refine (((hv.add_const h).mul hcos).mul_const (Real.sin lon)).congr_deriv ?_
      simp only [add_zero, hv0]
      change _ = (meridian φ + h) * (-Real.sin φ * Real.sin lon)
      rw [hm]
      have hsc := Real.sin_sq_add_cos_sq φ
      have : A * E2 * Real.sin φ * Real.cos φ / w ^ 3 * Real.cos φ = A * Real.sin φ * (E2 * Real.cos φ ^ 2) / w ^ 3 := by
        ring
      rw [this, show A / w = A * w ^ 2 / w ^ 3 by field_simp, hw2]
      field_simp
      linear_combination A * E2 * Real.sin φ * Real.sin lon * hsc
    · change HasDerivAt (fun t : ℝ => (A / √(1 - E2 * Real.sin (φ + t) * Real.sin (φ + t)) * (1 - E2) + h) *
        Real.sin (φ + t)) _ 0
      refine (((hv.mul_const (1 - E2)).add_const h).mul hsin).congr_deriv ?_
      simp only [add_zero, hv0]
      change _ = (meridian φ + h) * Real.cos φ
      rw [hm]
      rw [show A / w = A * w ^ 2 / w ^ 3 by field_simp, hw2]
      field_simp
      ring
  · intro i
    fin_cases i
    · change HasDerivAt (fun t : ℝ => (A / √(1 - E2 * Real.sin φ * Real.sin φ) + h) * Real.cos φ * Real.cos (lon + t)) _ 0
      refine (hcl.const_mul _).congr_deriv ?_
      rw [hv0, ← hrv]
      rfl
    · change HasDerivAt (fun t : ℝ => (A / √(1 - E2 * Real.sin φ * Real.sin φ) + h) * Real.cos φ * Real.sin (lon + t)) _ 0
      refine (hsl.const_mul _).congr_deriv ?_
      rw [hv0, ← hrv]
      rfl
    · change HasDerivAt (fun _ : ℝ => (A / √(1 - E2 * Real.sin φ * Real.sin φ) * (1 - E2) + h) * Real.sin φ)
        ((rv (Real.sin φ) + h) * Real.cos φ * 0) 0
      rw [mul_zero]
      exact hasDerivAt_const _ _
  · intro i
    have ht : HasDerivAt (fun t : ℝ => h + t) 1 0 := (hasDerivAt_id (0 : ℝ)).const_add h
    fin_cases i
    · refine (((ht.const_add (A / √(1 - E2 * Real.sin φ * Real.sin φ))).mul_const (Real.cos φ)).mul_const
        (Real.cos lon)).congr_deriv ?_
      change _ = Real.cos φ * Real.cos lon
      ring
    · refine (((ht.const_add (A / √(1 - E2 * Real.sin φ * Real.sin φ))).mul_const (Real.cos φ)).mul_const
        (Real.sin lon)).congr_deriv ?_
      change _ = Real.cos φ * Real.sin lon
      ring
    · refine ((ht.const_add (A / √(1 - E2 * Real.sin φ * Real.sin φ) * (1 - E2))).mul_const (Real.sin φ)).congr_deriv ?_
      change _ = Real.sin φ
      ring

theorem ofQT_unit (q : Quat) (t : V3) (hu : UnitQ q) : DQuat.UnitD (DQuat.ofQT q t) ∧ (DQuat.ofQT q t).translation = t := by
  have h := DQuat.C46_translation q t ⟨q, ⟨0, 0, 0, 0⟩⟩ hu ⟨hu, by simp⟩
  exact ⟨h.1, h.2.2.1⟩

/-- The local coordinates of a place are the components of the way from the origin. -/
theorem C103_local (l0 l : V3) : lla2ned l0 l = some
    ![dp (lla2ecef l - lla2ecef l0) (north (l0 0) (l0 1)), dp (lla2ecef l - lla2ecef l0) (east (l0 1)),
      -dp (lla2ecef l - lla2ecef l0) (up (l0 0) (l0 1))] := by
  obtain ⟨q, hq, hu, -, hr⟩ := C103_frame l0
  unfold lla2ned
  rw [hq]
  simp only [Option.map_some, DQuat.transformp]
  rw [(ofQT_unit q _ hu).2, ← hr]
  rfl

/-- The place with the local coordinates `(a, b, c)`. -/
noncomputable def place (l0 : V3) (a b c : ℝ) : V3 :=
  lla2ecef l0 + (a • north (l0 0) (l0 1) + b • east (l0 1) - c • up (l0 0) (l0 1))

theorem ned2lla_eq (n : ℕ) (l0 : V3) (a b c : ℝ) : ned2lla n l0 ![a, b, c] = ecef2lla n (place l0 a b c) := by
  obtain ⟨q, hq, hu, hr, -⟩ := C103_frame l0
  unfold ned2lla place
  rw [hq]
  simp only [Option.bind_some, DQuat.transforma]
  rw [(ofQT_unit q _ hu).2, ← hr, add_comm]
  rfl

/-- The place of the local coordinates of a place is that place: back and forth gives what `ecef2lla` gives for the
position, which C102 bounds. -/
theorem C103_back (n : ℕ) (l0 l p : V3) (h : lla2ned l0 l = some p) : ned2lla n l0 p = ecef2lla n (lla2ecef l) := by
  obtain ⟨q, hq, hu, -, -⟩ := C103_frame l0
  unfold lla2ned at h
  unfold ned2lla
  rw [hq] at h ⊢
  simp only [Option.map_some, Option.some.injEq] at h
  simp only [Option.bind_some]
  rw [← h, (DQuat.C46_transform _ (ofQT_unit q (lla2ecef l0) hu).1).1]

theorem vnorm_rotp (q : Quat) (hq : UnitQ q) (v : V3) : vnorm (q.rotp v) = vnorm v := by
  rw [← DQuat.vnorm_rota q hq (q.rotp v), rota_rotp q hq]

/-- Local coordinates of a place outside the earth's core are found again to a hundredth of a millimetre. -/
theorem C103_forth (n : ℕ) (hn : 6 ≤ n) (l0 : V3) (a b c : ℝ) (hfar : 6.3e6 ≤ vnorm (place l0 a b c)) :
    ∃ l p, ned2lla n l0 ![a, b, c] = some l ∧ lla2ned l0 l = some p ∧ vnorm (p - ![a, b, c]) ≤ 1e-5 := by
  obtain ⟨q, hq, hu, hr, -⟩ := C103_frame l0
  obtain ⟨l, hl⟩ := C102_ends (place l0 a b c) hfar n hn
  have hd := C102_roundtrip (place l0 a b c) hfar n l hl
  refine ⟨l, q.rotp (lla2ecef l - lla2ecef l0), by rw [ned2lla_eq, hl], ?_, ?_⟩
  · unfold lla2ned
    rw [hq]
    simp only [Option.map_some, DQuat.transformp]
    rw [(ofQT_unit q _ hu).2]
    rfl
  · have e : q.rotp (lla2ecef l - lla2ecef l0) - ![a, b, c] = q.rotp (lla2ecef l - place l0 a b c) := by
      have h1 : place l0 a b c = lla2ecef l0 + q.rota ![a, b, c] := by rw [hr]; rfl
      have h2 : lla2ecef l - place l0 a b c = (lla2ecef l - lla2ecef l0) - q.rota ![a, b, c] := by rw [h1]; abel
      rw [h2, rotp_eq q (_ - q.rota _), Matrix.mulVec_sub, ← rotp_eq, ← rotp_eq, rotp_rota q hu]
    rw [e, vnorm_rotp q hu]
    exact hd

/-- Ten kilometres up at latitude and longitude zero. -/
example : 6.3e6 ≤ vnorm (place ![0, 0, 0] 0 0 (-10000)) := by
  have e : place ![0, 0, 0] 0 0 (-10000) = ![6388137, 0, 0] := by
    apply vec_ext <;> simp [place, lla2ecef, north, east, up, A]
    norm_num
  rw [e]
  unfold vnorm sqNorm dot
  apply Real.le_sqrt_of_sq_le
  simp
  norm_num

/-! ### Azimuth and elevation -/

/-- The direction with an azimuth and an elevation. -/
noncomputable def direction (φ lon az el : ℝ) : V3 :=
  (Real.cos el * Real.cos az) • north φ lon + (Real.cos el * Real.sin az) • east lon + Real.sin el • up φ lon

theorem normalized_unit {v : V3} (h : v ≠ 0) : 0 < vnorm v ∧ normalized v = (vnorm v)⁻¹ • v ∧ vnorm (normalized v) = 1 := by
  have hs : 0 < sqNorm v := by
    by_contra hc
    apply h
    have h0 : v 0 * v 0 + v 1 * v 1 + v 2 * v 2 ≤ 0 := not_lt.mp hc
    apply vec_ext
    · exact mul_self_eq_zero.mp (by nlinarith [mul_self_nonneg (v 0), mul_self_nonneg (v 1), mul_self_nonneg (v 2)])
    · exact mul_self_eq_zero.mp (by nlinarith [mul_self_nonneg (v 0), mul_self_nonneg (v 1), mul_self_nonneg (v 2)])
    · exact mul_self_eq_zero.mp (by nlinarith [mul_self_nonneg (v 0), mul_self_nonneg (v 1), mul_self_nonneg (v 2)])
  have hp : 0 < vnorm v := Real.sqrt_pos.mpr hs
  have hn : normalized v = (vnorm v)⁻¹ • v := if_pos hs
  refine ⟨hp, hn, ?_⟩
  rw [hn, LightTime.vnorm_eq, WithLp.toLp_smul, _root_.norm_smul, ← LightTime.vnorm_eq, norm_inv,
    Real.norm_of_nonneg hp.le, inv_mul_cancel₀ hp.ne']

/-- A unit vector in the local frame. -/
theorem polar_local (n : V3) (h : vnorm n = 1) :
    let az := atan2 (n 1) (n 0)
    let el := atan2 (-n 2) (√(n 1 * n 1 + n 0 * n 0))
    n = ![Real.cos el * Real.cos az, Real.cos el * Real.sin az, -Real.sin el] ∧ -(Real.pi / 2) ≤ el ∧ el ≤ Real.pi / 2 ∧
      -Real.pi < az ∧ az ≤ Real.pi := by
  intro az el
  have h1 : n 0 * n 0 + n 1 * n 1 + n 2 * n 2 = 1 := by rw [← norm_sq, h, one_mul]
  have hr0 : 0 ≤ n 1 * n 1 + n 0 * n 0 := by nlinarith [mul_self_nonneg (n 0), mul_self_nonneg (n 1)]
  have hr := Real.mul_self_sqrt hr0
  have hel := atan2_spec (y := -n 2) (x := √(n 1 * n 1 + n 0 * n 0)) one_pos (by rw [hr]; linarith)
  rw [one_mul, one_mul] at hel
  have hb : -(Real.pi / 2) ≤ el ∧ el ≤ Real.pi / 2 := by
    have := Complex.abs_arg_le_pi_div_two_iff.mpr (show 0 ≤ (⟨√(n 1 * n 1 + n 0 * n 0), -n 2⟩ : ℂ).re from Real.sqrt_nonneg _)
    exact abs_le.mp this
  refine ⟨?_, hb.1, hb.2, Complex.neg_pi_lt_arg _, Complex.arg_le_pi _⟩
  rcases hr0.lt_or_eq with hpos | hzero
  · have haz := atan2_spec (y := n 1) (x := n 0) (Real.sqrt_pos.mpr hpos) (by rw [hr]; ring)
    rw [← hel.1] at haz
    apply vec_ext
    · exact haz.1.symm
    · exact haz.2.symm
    · change n 2 = -Real.sin el
      rw [show Real.sin el = -n 2 from hel.2, neg_neg]
  · have h0 : n 0 = 0 := mul_self_eq_zero.mp (by nlinarith [mul_self_nonneg (n 0), mul_self_nonneg (n 1)])
    have h1 : n 1 = 0 := mul_self_eq_zero.mp (by nlinarith [mul_self_nonneg (n 0), mul_self_nonneg (n 1)])
    have hc : Real.cos el = 0 := by
      rw [show Real.cos el = _ from hel.1, ← hzero, Real.sqrt_zero]
    apply vec_ext
    · change n 0 = Real.cos el * _
      rw [h0, hc, zero_mul]
    · change n 1 = Real.cos el * _
      rw [h1, hc, zero_mul]
    · change n 2 = -Real.sin el
      rw [show Real.sin el = -n 2 from hel.2, neg_neg]

/-- The azimuth and the elevation of a satellite give back the direction to it, in the frame of the receiver's place, and
are in their ranges. -/
theorem C104_direction (n : ℕ) (rec sat : V3) (az el : ℝ) (hne : sat ≠ rec) (h : getAzEl n rec sat = some (az, el)) :
    ∃ l, ecef2lla n rec = some l ∧ sat - rec = vnorm (sat - rec) • direction (l 0) (l 1) az el ∧
      -(Real.pi / 2) ≤ el ∧ el ≤ Real.pi / 2 ∧ -Real.pi < az ∧ az ≤ Real.pi := by
  unfold getAzEl at h
  obtain ⟨d, hd, hz⟩ := Option.map_eq_some_iff.mp h
  unfold dqEcef2ned at hd
  obtain ⟨l, hl, hd⟩ := Option.bind_eq_some_iff.mp hd
  obtain ⟨q, hq, hu, hr, -⟩ := C103_frame l
  rw [hq] at hd
  simp only [Option.bind_eq_bind, Option.bind_some, Option.some.injEq] at hd
  have hdr : d.r = q := by rw [← hd]; rfl
  rw [hdr] at hz
  obtain ⟨h0, h1, h2⟩ := normalized_unit (sub_ne_zero.mpr hne)
  have hp := polar_local (q.rotp (normalized (sat - rec))) (by rw [vnorm_rotp q hu, h2])
  unfold azelIn at hz
  simp only [Prod.mk.injEq] at hz
  simp only [hz.1, hz.2] at hp
  refine ⟨l, hl, ?_, hp.2⟩
  have h3 := congrArg q.rota hp.1
  rw [rota_rotp q hu, hr, h1] at h3
  have h4 : sat - rec = vnorm (sat - rec) • ((vnorm (sat - rec))⁻¹ • (sat - rec)) := by
    rw [smul_smul, mul_inv_cancel₀ h0.ne', one_smul]
  rw [h3, neg_smul, sub_neg_eq_add] at h4
  exact h4

/-- Every direction below the zenith and above the nadir is measured: the azimuth and the elevation with which a satellite
was placed are returned. -/
theorem C104_measured (n : ℕ) (rec l : V3) (hl : ecef2lla n rec = some l) (s az el : ℝ) (hs : 0 < s)
    (h1 : -(Real.pi / 2) < el) (h2 : el < Real.pi / 2) (h3 : -Real.pi < az) (h4 : az ≤ Real.pi) :
    getAzEl n rec (rec + s • direction (l 0) (l 1) az el) = some (az, el) := by
  obtain ⟨q, hq, hu, hr, -⟩ := C103_frame l
  have hc := Real.cos_pos_of_mem_Ioo ⟨h1, h2⟩
  have hd : direction (l 0) (l 1) az el = q.rota ![Real.cos el * Real.cos az, Real.cos el * Real.sin az, -Real.sin el] := by
    rw [hr]
    unfold direction
    rw [neg_smul, sub_neg_eq_add]
  have hone : vnorm (direction (l 0) (l 1) az el) = 1 := by
    rw [hd, DQuat.vnorm_rota q hu]
    unfold vnorm sqNorm dot
    rw [w3_0, w3_1, w3_2, Real.sqrt_eq_one]
    linear_combination Real.cos el ^ 2 * Real.sin_sq_add_cos_sq az + Real.sin_sq_add_cos_sq el
  have hnorm : normalized (s • direction (l 0) (l 1) az el) = direction (l 0) (l 1) az el := by
    have hv : vnorm (s • direction (l 0) (l 1) az el) = s := by
      rw [LightTime.vnorm_eq, WithLp.toLp_smul, _root_.norm_smul, ← LightTime.vnorm_eq, Real.norm_of_nonneg hs.le, hone, mul_one]
    have hne : s • direction (l 0) (l 1) az el ≠ 0 := by
      intro h
      rw [h] at hv
      rw [show vnorm (0 : V3) = 0 by simp [vnorm, sqNorm, dot]] at hv
      exact hs.ne hv
    rw [(normalized_unit hne).2.1, hv, smul_smul, inv_mul_cancel₀ hs.ne', one_smul]
  unfold getAzEl dqEcef2ned
  rw [hl]
  simp only [Option.bind_eq_bind, Option.bind_some, hq, Option.map_some, Option.some.injEq, add_sub_cancel_left]
  change azelIn q _ = _
  unfold azelIn
  rw [hnorm, hd, rotp_rota q hu]
  simp only [w3_0, w3_1, w3_2, neg_neg]
  have hz : √(Real.cos el * Real.sin az * (Real.cos el * Real.sin az) + Real.cos el * Real.cos az * (Real.cos el * Real.cos az)) =
      Real.cos el := by
    rw [show Real.cos el * Real.sin az * (Real.cos el * Real.sin az) + Real.cos el * Real.cos az * (Real.cos el * Real.cos az) =
      Real.cos el ^ 2 by linear_combination Real.cos el ^ 2 * Real.sin_sq_add_cos_sq az, Real.sqrt_sq hc.le]
  rw [hz, atan2_polar hc h3 h4]
  have := atan2_polar (r := 1) (θ := el) one_pos (by linarith [Real.pi_pos]) (by linarith [Real.pi_pos])
  rw [one_mul, one_mul] at this
  rw [this]

/-- A satellite is above the horizon, the plane normal to the ellipsoid's normal, exactly when its elevation is
positive. -/
theorem C104_horizon (n : ℕ) (rec sat l : V3) (az el : ℝ) (hne : sat ≠ rec) (hl : ecef2lla n rec = some l)
    (h : getAzEl n rec sat = some (az, el)) : 0 < el ↔ 0 < dp (sat - rec) (up (l 0) (l 1)) := by
  obtain ⟨l', hl', hd, h1, h2, -, -⟩ := C104_direction n rec sat az el hne h
  rw [hl] at hl'
  cases hl'
  have h0 := (normalized_unit (sub_ne_zero.mpr hne)).1
  have hk : dp (sat - rec) (up (l 0) (l 1)) = vnorm (sat - rec) * Real.sin el := by
    rw [hd]
    have hv : vnorm (vnorm (sat - rec) • direction (l 0) (l 1) az el) = vnorm (sat - rec) := by rw [← hd]
    rw [hv]
    have e1 := Real.sin_sq_add_cos_sq (l 0)
    have e2 := Real.sin_sq_add_cos_sq (l 1)
    simp [dp, direction, north, east, up]
    linear_combination (vnorm (sat - rec) * Real.sin el) * e1 +
      vnorm (sat - rec) * (Real.cos (l 0) ^ 2 * Real.sin el - Real.cos el * Real.cos az * Real.sin (l 0) * Real.cos (l 0)) * e2
  rw [hk]
  constructor
  · intro he
    exact mul_pos h0 (Real.sin_pos_of_pos_of_lt_pi he (by linarith [Real.pi_pos]))
  · intro hs
    by_contra hc
    have := Real.sin_nonpos_of_nonpos_of_neg_pi_le (not_lt.mp hc) (by linarith [Real.pi_pos])
    nlinarith

end Verif.Props.Ned
