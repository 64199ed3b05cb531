import Verif.Props.Quat
import Mathlib.Analysis.SpecialFunctions.Trigonometric.Bounds
import Mathlib.Analysis.Real.Pi.Bounds

/-!
C45, C67, C68: exponential and logarithm of quaternions, the constructors from an axis and an angle,
from Euler angles and from two vectors, and the Euler angles of a quaternion.
-/

namespace Verif.Props.Quat

open Verif.Model.Lie Verif.Spec.Lie Verif.Lemmas.Lie Matrix

/-- The quaternion of the turn by `a` about `n`. -/
noncomputable def half (n : V3) (a : ℝ) : Quat :=
  ⟨Real.cos (a / 2), n 0 * Real.sin (a / 2), n 1 * Real.sin (a / 2), n 2 * Real.sin (a / 2)⟩

theorem half_unit {n : V3} (hn : inner n n = 1) (a : ℝ) : UnitQ (half n a) := by
  have h := Real.sin_sq_add_cos_sq (a / 2)
  rw [inner_at] at hn
  simp only [UnitQ, half]
  linear_combination h + Real.sin (a / 2) ^ 2 * hn

theorem half_rota {n : V3} (hn : inner n n = 1) (a : ℝ) (v : V3) :
    (half n a).rota v = turn n a v := by
  have h := Real.sin_sq_add_cos_sq (a / 2)
  have hc : Real.cos a = 1 - 2 * Real.sin (a / 2) ^ 2 := by
    have h2 := Real.cos_two_mul (a / 2)
    rw [mul_div_cancel₀ a (two_ne_zero)] at h2
    linarith
  have hs : Real.sin a = 2 * Real.sin (a / 2) * Real.cos (a / 2) := by
    rw [← Real.sin_two_mul]; congr 1; ring
  rw [inner_at] at hn
  rw [rota_eq]
  apply vec_ext <;> simp only [turn] <;> comps <;> simp only [half, hc, hs]
  · linear_combination (-2) * Real.sin (a / 2) ^ 2 * v 0 * hn
  · linear_combination (-2) * Real.sin (a / 2) ^ 2 * v 1 * hn
  · linear_combination (-2) * Real.sin (a / 2) ^ 2 * v 2 * hn

theorem half_rotp {n : V3} (hn : inner n n = 1) (a : ℝ) (v : V3) :
    (half n a).rotp v = turn n (-a) v := by
  have h := Real.sin_sq_add_cos_sq (a / 2)
  have hc : Real.cos a = 1 - 2 * Real.sin (a / 2) ^ 2 := by
    have h2 := Real.cos_two_mul (a / 2)
    rw [mul_div_cancel₀ a (two_ne_zero)] at h2
    linarith
  have hs : Real.sin a = 2 * Real.sin (a / 2) * Real.cos (a / 2) := by
    rw [← Real.sin_two_mul]; congr 1; ring
  rw [inner_at] at hn
  rw [rotp_eq]
  apply vec_ext <;> simp only [turn] <;> comps <;>
    simp only [half, Real.cos_neg, Real.sin_neg, hc, hs]
  · linear_combination (-2) * Real.sin (a / 2) ^ 2 * v 0 * hn
  · linear_combination (-2) * Real.sin (a / 2) ^ 2 * v 1 * hn
  · linear_combination (-2) * Real.sin (a / 2) ^ 2 * v 2 * hn

theorem norm_sq (v : V3) : vnorm v * vnorm v = v 0 * v 0 + v 1 * v 1 + v 2 * v 2 := by
  unfold vnorm sqNorm dot
  exact Real.mul_self_sqrt (add_nonneg (add_nonneg (mul_self_nonneg _) (mul_self_nonneg _))
    (mul_self_nonneg _))

theorem norm_nonneg (v : V3) : 0 ≤ vnorm v := Real.sqrt_nonneg _

/-- `v / ‖v‖` is a unit vector. -/
theorem unit_axis {v : V3} (h : 0 < vnorm v) : inner ((vnorm v)⁻¹ • v) ((vnorm v)⁻¹ • v) = 1 := by
  rw [inner_at]
  comps
  have := norm_sq v
  field_simp
  linear_combination -this

theorem norm_smul (s : ℝ) (hs : 0 ≤ s) (v : V3) : vnorm (s • v) = s * vnorm v := by
  unfold vnorm
  have : sqNorm (s • v) = s ^ 2 * sqNorm v := by
    simp only [sqNorm, dot, Pi.smul_apply, smul_eq_mul]; ring
  rw [this, Real.sqrt_mul (sq_nonneg s), Real.sqrt_sq hs]

theorem exp_large {v : V3} (h : 4e-6 < vnorm v) : Quat.exp v = half ((vnorm v)⁻¹ • v) (vnorm v) := by
  unfold Quat.exp half
  simp only [gt_iff_lt, h, if_true, Pi.smul_apply, smul_eq_mul]
  ext <;> ring

theorem normalize_unit {q : Quat} (h : 0 < q.norm) : UnitQ q.normalize := by
  have hs : q.norm * q.norm = q.sqNorm := by
    unfold Quat.norm Quat.sqNorm
    exact Real.mul_self_sqrt (add_nonneg (add_nonneg (add_nonneg (mul_self_nonneg _)
      (mul_self_nonneg _)) (mul_self_nonneg _)) (mul_self_nonneg _))
  simp only [UnitQ, Quat.normalize]
  have : q.sqNorm = q.w * q.w + q.x * q.x + q.y * q.y + q.z * q.z := rfl
  field_simp
  linear_combination -hs - this

theorem normalize_of_unit {q : Quat} (h : UnitQ q) : q.normalize = q := by
  have : q.norm = 1 := by
    unfold Quat.norm
    rw [show q.sqNorm = 1 from by unfold Quat.sqNorm; rw [← h]; ring, Real.sqrt_one]
  unfold Quat.normalize
  simp only [this, div_one]

theorem norm_pos_of_w {q : Quat} (h : 0 < q.w) : 0 < q.norm := by
  unfold Quat.norm Quat.sqNorm
  apply Real.sqrt_pos.mpr
  nlinarith [mul_self_nonneg q.x, mul_self_nonneg q.y, mul_self_nonneg q.z, mul_pos h h]

/-- C45: above the small-angle threshold, `exp(v)` is a unit quaternion, its `rota` turns by `‖v‖`
about `v` and its `rotp` turns back. -/
theorem C45_exp (v u : V3) (h : 4e-6 < vnorm v) :
    UnitQ (Quat.exp v) ∧ (Quat.exp v).rota u = turn ((vnorm v)⁻¹ • v) (vnorm v) u ∧
    (Quat.exp v).rotp u = turn ((vnorm v)⁻¹ • v) (-vnorm v) u := by
  have h0 : 0 < vnorm v := lt_trans (by norm_num) h
  rw [exp_large h]
  exact ⟨half_unit (unit_axis h0) _, half_rota (unit_axis h0) _ _, half_rotp (unit_axis h0) _ _⟩

/-- The hypothesis is met by a quarter turn. -/
example : 4e-6 < vnorm ![0, 3, 4] := by
  have : vnorm ![0, 3, 4] = 5 := by
    unfold vnorm sqNorm dot
    rw [show (![0, 3, 4] : V3) 0 * (![0, 3, 4] : V3) 0 + (![0, 3, 4] : V3) 1 * (![0, 3, 4] : V3) 1
      + (![0, 3, 4] : V3) 2 * (![0, 3, 4] : V3) 2 = 5 ^ 2 from by comps; norm_num,
      Real.sqrt_sq (by norm_num)]
  rw [this]; norm_num

theorem cos_small {n : ℝ} (h0 : 0 ≤ n) (h : ¬ n > 4e-6) : 0 < Real.cos (n / 2) := by
  apply Real.cos_pos_of_mem_Ioo
  constructor <;> linarith [Real.pi_gt_three, not_lt.mp h]

/-- C45: below the threshold too, `exp` gives a unit quaternion; both overloads of `exp` compute the
same quaternion for every vector; and `exp(0)` is the identity. -/
theorem C45_exp_unit (v : V3) :
    UnitQ (Quat.exp v) ∧ Quat.expJ v = Quat.exp v ∧ Quat.exp 0 = Quat.identity := by
  have hu : UnitQ (Quat.exp v) := by
    by_cases h : vnorm v > 4e-6
    · exact (C45_exp v 0 h).1
    · unfold Quat.exp
      simp only [h, if_false]
      exact normalize_unit (norm_pos_of_w (cos_small (norm_nonneg v) h))
  refine ⟨hu, ?_, ?_⟩
  · by_cases h : vnorm v > 4e-6
    · rw [← normalize_of_unit hu]
      unfold Quat.exp Quat.expJ
      simp only [h, if_true]
    · unfold Quat.exp Quat.expJ
      have : sqNorm v = vnorm v * vnorm v := by
        rw [norm_sq]; rfl
      simp only [h, if_false, this]
  · have h0 : vnorm 0 = 0 := by simp [vnorm, sqNorm, dot]
    unfold Quat.exp
    have : ¬ (vnorm 0 > 4e-6) := by rw [h0]; norm_num
    simp only [this, if_false]
    rw [h0]
    simp only [Pi.zero_apply, mul_zero, zero_div, Real.cos_zero]
    exact normalize_of_unit (by norm_num [UnitQ])

/-- C45: `from_axis_angle` of a unit axis succeeds and gives the unit quaternion whose `rota` turns
by the angle about the axis. -/
theorem C45_axis_angle (n : V3) (hn : inner n n = 1) (a : ℝ) :
    ∃ q, Quat.fromAxisAngle n a = some q ∧ UnitQ q ∧ (∀ u, q.rota u = turn n a u) ∧
      ∀ u, q.rotp u = turn n (-a) u := by
  have hu := half_unit hn a
  refine ⟨half n a, ?_, hu, half_rota hn a, half_rotp hn a⟩
  have hnorm : (half n a).norm = 1 := by
    unfold Quat.norm
    rw [show (half n a).sqNorm = 1 from by unfold Quat.sqNorm; rw [← hu]; ring, Real.sqrt_one]
  have : Quat.fromAxisAngle n a
      = if (half n a).norm = 0 then none else some (half n a).normalize := rfl
  rw [this, if_neg (by rw [hnorm]; norm_num), normalize_of_unit hu]

/-- C45: whenever `from_axis_angle` succeeds the result is a unit quaternion, and it fails exactly
when the axis is zero and the angle is an odd multiple of a half turn (or `sin(angle/2) = ±1`, as the
elements are then all zero). -/
theorem C45_axis_angle_any (axis : V3) (a : ℝ) :
    (∀ q, Quat.fromAxisAngle axis a = some q → UnitQ q) ∧
    (Quat.fromAxisAngle axis a = none ↔ Real.cos (a / 2) = 0 ∧ axis = 0) := by
  have e : Quat.fromAxisAngle axis a
      = if (half axis a).norm = 0 then none else some (half axis a).normalize := rfl
  constructor
  · intro q hq
    rw [e] at hq
    split_ifs at hq with h
    have hpos : 0 < (half axis a).norm := lt_of_le_of_ne (Real.sqrt_nonneg _) (Ne.symm h)
    rw [Option.some.injEq] at hq
    rw [← hq]
    exact normalize_unit hpos
  · rw [e]
    have hiff : (half axis a).norm = 0 ↔ Real.cos (a / 2) = 0 ∧ axis = 0 := by
      have hsc := Real.sin_sq_add_cos_sq (a / 2)
      unfold Quat.norm
      rw [Real.sqrt_eq_zero']
      unfold Quat.sqNorm half
      dsimp only
      constructor
      · intro h
        have hc : Real.cos (a / 2) = 0 := by
          have : Real.cos (a / 2) * Real.cos (a / 2) = 0 := by
            nlinarith [mul_self_nonneg (Real.cos (a / 2)),
              mul_self_nonneg (axis 0 * Real.sin (a / 2)),
              mul_self_nonneg (axis 1 * Real.sin (a / 2)),
              mul_self_nonneg (axis 2 * Real.sin (a / 2))]
          exact mul_self_eq_zero.mp this
        have hs : Real.sin (a / 2) * Real.sin (a / 2) = 1 := by rw [hc] at hsc; linarith
        refine ⟨hc, ?_⟩
        have hz : axis 0 * axis 0 + axis 1 * axis 1 + axis 2 * axis 2 ≤ 0 := by
          rw [hc] at h
          calc axis 0 * axis 0 + axis 1 * axis 1 + axis 2 * axis 2
              = (axis 0 * axis 0 + axis 1 * axis 1 + axis 2 * axis 2)
                * (Real.sin (a / 2) * Real.sin (a / 2)) := by rw [hs, mul_one]
            _ ≤ 0 := by linarith
        apply vec_ext <;> simp only [Pi.zero_apply] <;> apply mul_self_eq_zero.mp <;>
          nlinarith [mul_self_nonneg (axis 0), mul_self_nonneg (axis 1), mul_self_nonneg (axis 2)]
      · rintro ⟨hc, rfl⟩
        simp [hc]
    split_ifs with h
    · simp [hiff.mp h]
    · simp only [false_iff]
      exact fun hh => h (hiff.mpr hh)

/-- C45: `from_euler` gives the unit quaternion which is the product of a turn about `z` by the yaw,
about `y` by the pitch and about `x` by the roll; hence its `rota` rolls first, then pitches, then
yaws. -/
theorem C45_euler (roll pitch yaw : ℝ) :
    UnitQ (Quat.fromEuler roll pitch yaw) ∧
    ∀ u, (Quat.fromEuler roll pitch yaw).rota u
      = turn ![0, 0, 1] yaw (turn ![0, 1, 0] pitch (turn ![1, 0, 0] roll u)) := by
  have ex : inner ![1, 0, 0] ![1, 0, 0] = 1 := by comps; norm_num
  have ey : inner ![0, 1, 0] ![0, 1, 0] = 1 := by comps; norm_num
  have ez : inner ![0, 0, 1] ![0, 0, 1] = 1 := by comps; norm_num
  have hprod : Quat.fromEuler roll pitch yaw
      = (half ![0, 0, 1] yaw).otimes ((half ![0, 1, 0] pitch).otimes (half ![1, 0, 0] roll)) := by
    ext <;> simp [Quat.fromEuler, half, Quat.otimes] <;> ring
  have hz := half_unit ez yaw
  have hy := half_unit ey pitch
  have hx := half_unit ex roll
  have hyx := (C43_group _ _ Quat.identity hy hx).1
  rw [hprod]
  refine ⟨(C43_group _ _ Quat.identity hz hyx).1, fun u => ?_⟩
  rw [(C43_R_mul _ _ hz hyx u).2.2, (C43_R_mul _ _ hy hx u).2.2, half_rota ex, half_rota ey,
    half_rota ez]

/-- C45 as stated, for `from_two_unit_vectors`: every two unit vectors give a unit quaternion which
turns the first one into the second one. -/
def C45_statement : Prop :=
  ∀ u v : V3, inner u u = 1 → inner v v = 1 →
    ∃ q, Quat.fromTwoUnitVectors u v = some q ∧ UnitQ q ∧ q.rotp u = v

theorem cross_sq (u v : V3) : inner (cross u v) (cross u v)
    = inner u u * inner v v - inner u v * inner u v := by
  simp only [inner_at, cross_0, cross_1, cross_2]; ring

theorem dot_eq (u v : V3) : dot u v = inner u v := by rw [inner_at]; rfl

/-- C45: `from_two_unit_vectors(u, v)` works for all unit vectors that are not opposite: the result
is a unit quaternion with `rotp(u) = v` and `rota(v) = u`. -/
theorem C45_two_vectors_partial (u v : V3) (hu : inner u u = 1) (hv : inner v v = 1)
    (hne : v ≠ -u) :
    ∃ q, Quat.fromTwoUnitVectors u v = some q ∧ UnitQ q ∧ q.rotp u = v ∧ q.rota v = u := by
  have hL := cross_sq u v
  rw [hu, hv] at hL
  have hc1 : inner u v ≤ 1 := by
    have : 0 ≤ inner (u - v) (u - v) := by
      rw [inner_at]
      nlinarith [mul_self_nonneg ((u - v) 0), mul_self_nonneg ((u - v) 1),
        mul_self_nonneg ((u - v) 2)]
    have e : inner (u - v) (u - v) = inner u u + inner v v - 2 * inner u v := by
      simp only [inner_at, Pi.sub_apply]; ring
    linarith
  have hc2 : -1 ≤ inner u v := by
    have : 0 ≤ inner (u + v) (u + v) := by
      rw [inner_at]
      nlinarith [mul_self_nonneg ((u + v) 0), mul_self_nonneg ((u + v) 1),
        mul_self_nonneg ((u + v) 2)]
    have e : inner (u + v) (u + v) = inner u u + inner v v + 2 * inner u v := by
      simp only [inner_at, Pi.add_apply]; ring
    linarith
  have hcos : Real.cos (Real.arccos (inner u v)) = inner u v := Real.cos_arccos hc2 hc1
  have hsin : Real.sin (Real.arccos (inner u v)) = Real.sqrt (1 - inner u v ^ 2) :=
    Real.sin_arccos _
  by_cases hs : 0 < sqNorm (cross u v)
  · have hn : 0 < vnorm (cross u v) := Real.sqrt_pos.mpr hs
    have hnu := unit_axis hn
    obtain ⟨q, hq, hunit, -, hrotp⟩ :=
      C45_axis_angle ((vnorm (cross u v))⁻¹ • cross u v) hnu (-Real.arccos (inner u v))
    have hnorm : Real.sqrt (1 - inner u v ^ 2) = vnorm (cross u v) := by
      unfold vnorm
      congr 1
      rw [show sqNorm (cross u v) = inner (cross u v) (cross u v) from dot_eq _ _, hL]; ring
    have key : q.rotp u = v := by
      rw [hrotp, neg_neg]
      have hN : vnorm (cross u v) * (vnorm (cross u v))⁻¹ = 1 := mul_inv_cancel₀ hn.ne'
      simp only [inner_at] at hu hv
      apply vec_ext <;> simp only [turn, hcos, hsin, hnorm] <;> comps
      · linear_combination ((u 2 * v 0 - u 0 * v 2) * u 2 - (u 0 * v 1 - u 1 * v 0) * u 1) * hN + v 0 * hu
      · linear_combination ((u 0 * v 1 - u 1 * v 0) * u 0 - (u 1 * v 2 - u 2 * v 1) * u 2) * hN + v 1 * hu
      · linear_combination ((u 1 * v 2 - u 2 * v 1) * u 1 - (u 2 * v 0 - u 0 * v 2) * u 0) * hN + v 2 * hu
    refine ⟨q, ?_, hunit, key, by rw [← key, rota_rotp q hunit]⟩
    rw [← hq, Quat.fromTwoUnitVectors, dot_eq, normalized, if_pos hs]
  · -- parallel vectors
    have hz : sqNorm (cross u v) = inner (cross u v) (cross u v) := dot_eq _ _
    have h0 : 1 - inner u v * inner u v = 0 := by
      have h1 : 0 ≤ 1 - inner u v * inner u v := by nlinarith
      rw [hz, hL] at hs
      linarith
    have hc : inner u v = 1 := by
      rcases sq_eq_one_or (t := inner u v) (by linear_combination -h0) with h | h
      · exact h
      · exfalso
        apply hne
        have e : inner (u + v) (u + v) = inner u u + inner v v + 2 * inner u v := by
          simp only [inner_at, Pi.add_apply]; ring
        rw [hu, hv, h, inner_at] at e
        simp only [Pi.add_apply] at e
        apply vec_ext <;> simp only [Pi.neg_apply] <;> rw [eq_neg_iff_add_eq_zero] <;>
          apply mul_self_eq_zero.mp <;>
          nlinarith [mul_self_nonneg (u 0 + v 0), mul_self_nonneg (u 1 + v 1),
            mul_self_nonneg (u 2 + v 2)]
    have huv : u = v := by
      have e : inner (u - v) (u - v) = inner u u + inner v v - 2 * inner u v := by
        simp only [inner_at, Pi.sub_apply]; ring
      rw [hu, hv, hc, inner_at] at e
      simp only [Pi.sub_apply] at e
      apply vec_ext <;> rw [← sub_eq_zero] <;> apply mul_self_eq_zero.mp <;>
        nlinarith [mul_self_nonneg (u 0 - v 0), mul_self_nonneg (u 1 - v 1),
          mul_self_nonneg (u 2 - v 2)]
    subst huv
    have hx : cross u u = 0 := by
      apply vec_ext <;> simp only [cross_0, cross_1, cross_2, Pi.zero_apply] <;> ring
    have hnone : half 0 (-Real.arccos 1) = Quat.identity := by
      simp [half, Quat.identity]
    have e : Quat.fromTwoUnitVectors u u = some Quat.identity := by
      rw [Quat.fromTwoUnitVectors, dot_eq, hu, normalized, if_neg hs, hx]
      have e2 : Quat.fromAxisAngle 0 (-Real.arccos 1)
        = if (half 0 (-Real.arccos 1)).norm = 0 then none
          else some (half 0 (-Real.arccos 1)).normalize := rfl
      rw [e2, hnone, if_neg, normalize_of_unit (by norm_num [UnitQ, Quat.identity])]
      exact (norm_pos_of_w (by norm_num [Quat.identity])).ne'
    refine ⟨_, e, by norm_num [UnitQ, Quat.identity], ?_, ?_⟩
    · rw [rotp_eq]; apply vec_ext <;> comps <;> simp [Quat.identity]
    · rw [rota_eq]; apply vec_ext <;> comps <;> simp [Quat.identity]

/-- Two unit vectors that are neither equal nor opposite. -/
example : inner ![1, 0, 0] ![1, 0, 0] = 1 ∧ inner ![3/5, 4/5, 0] ![3/5, 4/5, 0] = 1 ∧
    (![3/5, 4/5, 0] : V3) ≠ -![1, 0, 0] := by
  refine ⟨by comps; norm_num, by comps; norm_num, fun h => ?_⟩
  have := congrFun h 1
  norm_num at this

/-- C45: for opposite unit vectors `from_two_unit_vectors` divides zero by zero. -/
theorem C45_opposite_violated (u : V3) (hu : inner u u = 1) :
    Quat.fromTwoUnitVectors u (-u) = none := by
  have hx : cross u (-u) = 0 := by
    apply vec_ext <;> simp only [cross_0, cross_1, cross_2, Pi.neg_apply, Pi.zero_apply] <;> ring
  have hd : dot u (-u) = -1 := by
    rw [← hu, inner_at]; simp only [dot, Pi.neg_apply]; ring
  have hn : normalized (0 : V3) = 0 := by simp [normalized, sqNorm, dot]
  rw [Quat.fromTwoUnitVectors, hx, hd, hn, (C45_axis_angle_any _ _).2]
  refine ⟨?_, rfl⟩
  rw [Real.arccos_neg_one, neg_div, Real.cos_neg, Real.cos_pi_div_two]

theorem C45_statement_false : ¬ C45_statement := by
  intro h
  have hu : inner ![1, 0, 0] ![1, 0, 0] = 1 := by comps; norm_num
  have hv : inner (-![1, 0, 0]) (-![1, 0, 0]) = 1 := by comps; norm_num
  obtain ⟨q, hq, -⟩ := h _ _ hu hv
  rw [C45_opposite_violated _ hu] at hq
  cases hq

end Verif.Props.Quat
