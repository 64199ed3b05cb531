import Verif.Props.LieConv
import Verif.Props.QuatLog

/-!
C71: the logarithm of `SO3`, and the round trips through `exp`.
-/

namespace Verif.Props.So3Log

open Verif.Model.Lie Verif.Spec.Lie Verif.Lemmas.Lie Verif.Props.Quat Verif.Props.DQuat
  Verif.Props.So3 Verif.Props.LieConv Matrix

theorem axis_0 (m : M3) : SO3.axis2 m 0 = m 2 1 - m 1 2 := rfl
theorem axis_1 (m : M3) : SO3.axis2 m 1 = m 0 2 - m 2 0 := rfl
theorem axis_2 (m : M3) : SO3.axis2 m 2 = m 1 0 - m 0 1 := rfl

/-- Between the two thresholds both overloads of `log` use the same formula. -/
theorem log_mid {m : M3} (h1 : -1 + 1e-8 < SO3.tr m) (h2 : SO3.tr m < 3 - 1e-8) :
    SO3.log m = (Real.arccos ((SO3.tr m - 1) / 2)
      / (2 * Real.sin (Real.arccos ((SO3.tr m - 1) / 2)))) • SO3.axis2 m ∧
    SO3.logJ m = SO3.log m := by
  unfold SO3.log SO3.logJ
  simp only [ge_iff_le, not_le.mpr h2, if_false, gt_iff_lt, h1, h2, and_self, if_true]

theorem axis_sq {m : M3} (h : IsRot m) :
    sqNorm (SO3.axis2 m) = (1 + SO3.tr m) * (3 - SO3.tr m) := by
  obtain ⟨ha, hb, hc, -⟩ := rot_entries h
  rw [sqNorm_at, axis_0, axis_1, axis_2]
  unfold SO3.tr
  linear_combination ha + hb + hc

/-- The angle of the middle branch: its cosine and sine, and its sign. -/
theorem angle_mid {t : ℝ} (h1 : -1 < t) (h2 : t < 3) :
    Real.cos (Real.arccos ((t - 1) / 2)) = (t - 1) / 2 ∧
    0 < Real.sin (Real.arccos ((t - 1) / 2)) ∧
    4 * Real.sin (Real.arccos ((t - 1) / 2)) ^ 2 = (1 + t) * (3 - t) ∧
    0 < Real.arccos ((t - 1) / 2) ∧ Real.arccos ((t - 1) / 2) < Real.pi := by
  have hc : Real.cos (Real.arccos ((t - 1) / 2)) = (t - 1) / 2 :=
    Real.cos_arccos (by linarith) (by linarith)
  have hp : 0 < Real.arccos ((t - 1) / 2) := Real.arccos_pos.mpr (by linarith)
  have hl : Real.arccos ((t - 1) / 2) < Real.pi := by
    rcases (Real.arccos_le_pi ((t - 1) / 2)).lt_or_eq with h | h
    · exact h
    · have := Real.arccos_eq_pi.mp h
      linarith
  have hs := Real.sin_sq_add_cos_sq (Real.arccos ((t - 1) / 2))
  refine ⟨hc, Real.sin_pos_of_pos_of_lt_pi hp hl, ?_, hp, hl⟩
  rw [hc] at hs
  linear_combination 4 * hs

/-- The logarithm has the length of the angle. -/
theorem log_norm {m : M3} (h : IsRot m) (h1 : -1 + 1e-8 < SO3.tr m) (h2 : SO3.tr m < 3 - 1e-8) :
    vnorm (SO3.log m) = Real.arccos ((SO3.tr m - 1) / 2) := by
  norm_num at h1 h2
  obtain ⟨hc, hs, hq, hp, -⟩ := angle_mid (t := SO3.tr m) (by linarith) (by linarith)
  rw [(log_mid (by norm_num; linarith) (by norm_num; linarith)).1, Quat.norm_smul _ (by positivity)]
  have hv : vnorm (SO3.axis2 m) = 2 * Real.sin (Real.arccos ((SO3.tr m - 1) / 2)) := by
    unfold vnorm
    rw [axis_sq h, ← hq, Real.sqrt_eq_iff_mul_self_eq (by positivity) (by positivity)]
    ring
  rw [hv]
  field_simp

/-- C71: `exp(log(R)) = R` for every rotation by between `2e-3` and almost half a turn. -/
theorem C71_exp_log_partial (m : M3) (h : IsRot m) (h1 : -1 + 1e-8 < SO3.tr m)
    (h2 : SO3.tr m ≤ 3 - 4e-6) : SO3.exp (SO3.log m) = m := by
  have h2' : SO3.tr m < 3 - 1e-8 := by norm_num at h2 ⊢; linarith
  have hn := log_norm h h1 h2'
  obtain ⟨hc, hs, hq, hp, -⟩ := angle_mid (t := SO3.tr m) (by norm_num at h1; linarith)
    (by norm_num at h2; linarith)
  have hsq := sqNorm_eq (SO3.log m)
  rw [hn] at hsq
  have hbig : 4e-6 ≤ sqNorm (SO3.log m) := by
    have := Real.one_sub_sq_div_two_le_cos (x := Real.arccos ((SO3.tr m - 1) / 2))
    rw [hc] at this
    rw [hsq]
    norm_num at h2 ⊢
    nlinarith
  rw [exp_trig hbig, hn, hsq, hc]
  rw [(log_mid h1 h2').1]
  obtain ⟨ha, hb, hcc, hab, hac, hbc, -⟩ := rot_entries h
  have hax := axis_sq h
  rw [sqNorm_at, axis_0, axis_1, axis_2] at hax
  generalize Real.arccos ((SO3.tr m - 1) / 2) = θ at *
  have ht : SO3.tr m = m 0 0 + m 1 1 + m 2 2 := rfl
  rw [ht] at hq ⊢
  -- the two coefficients once the length of the logarithm is taken out
  have k1 : Real.sin θ / θ * (θ / (2 * Real.sin θ)) = 1 / 2 := by field_simp
  have k2 : (1 - (m 0 0 + m 1 1 + m 2 2 - 1) / 2) / (θ * θ) * (θ / (2 * Real.sin θ))
      * (θ / (2 * Real.sin θ)) * (1 + (m 0 0 + m 1 1 + m 2 2)) = 1 / 2 := by
    have e : (1 - (m 0 0 + m 1 1 + m 2 2 - 1) / 2) / (θ * θ) * (θ / (2 * Real.sin θ))
      * (θ / (2 * Real.sin θ)) * (1 + (m 0 0 + m 1 1 + m 2 2))
      = (1 + (m 0 0 + m 1 1 + m 2 2)) * (3 - (m 0 0 + m 1 1 + m 2 2)) / (8 * Real.sin θ ^ 2) := by
      field_simp
      ring
    rw [e, ← hq]
    field_simp
    norm_num
  have key : ∀ (a b k : ℝ) (r : V3), rodrigues a b (k • r)
      = 1 + (a * k) • skew r + (b * k * k) • (skew r * skew r) := by
    intro a b k r
    unfold rodrigues
    apply mat_ext <;> comps <;> ring
  rw [key, k1]
  generalize (1 - (m 0 0 + m 1 1 + m 2 2 - 1) / 2) / (θ * θ) * (θ / (2 * Real.sin θ))
      * (θ / (2 * Real.sin θ)) = β at *
  apply mat_ext <;> comps <;> simp only [axis_0, axis_1, axis_2]
  · linear_combination β * (-hb - hcc) - (2 - 2 * m 0 0) * k2
  · linear_combination β * hab + (m 0 1 + m 1 0) * k2
  · linear_combination β * hac + (m 0 2 + m 2 0) * k2
  · linear_combination β * hab + (m 0 1 + m 1 0) * k2
  · linear_combination β * (-ha - hcc) - (2 - 2 * m 1 1) * k2
  · linear_combination β * hbc + (m 1 2 + m 2 1) * k2
  · linear_combination β * hac + (m 0 2 + m 2 0) * k2
  · linear_combination β * hbc + (m 1 2 + m 2 1) * k2
  · linear_combination β * (-ha - hb) - (2 - 2 * m 2 2) * k2

theorem tr_rodrigues (a b : ℝ) (w : V3) : SO3.tr (rodrigues a b w) = 3 - 2 * b * sqNorm w := by
  unfold SO3.tr rodrigues
  rw [sqNorm_at]
  comps
  ring

theorem axis_rodrigues (a b : ℝ) (w : V3) : SO3.axis2 (rodrigues a b w) = (2 * a) • w := by
  apply vec_ext <;> simp only [axis_0, axis_1, axis_2] <;> unfold rodrigues <;> comps <;> ring

theorem tr_exp {w : V3} (h : 4e-6 ≤ sqNorm w) : SO3.tr (SO3.exp w) = 1 + 2 * Real.cos (vnorm w) := by
  have h0 := pos_of_le h
  rw [exp_trig h, tr_rodrigues, sqNorm_eq]
  field_simp
  ring

/-- C71: `log(exp(w)) = w` for every vector from `2e-3` to almost half a turn, for both overloads. -/
theorem C71_log_exp_partial (w : V3) (h : 4e-6 ≤ sqNorm w) (h2 : vnorm w < Real.pi)
    (h3 : -1 + 1e-8 < 1 + 2 * Real.cos (vnorm w)) (h4 : 1 + 2 * Real.cos (vnorm w) < 3 - 1e-8) :
    SO3.log (SO3.exp w) = w ∧ SO3.logJ (SO3.exp w) = w := by
  have h0 := pos_of_le h
  have ht := tr_exp h
  obtain ⟨e1, e2⟩ := log_mid (m := SO3.exp w) (by rw [ht]; exact h3) (by rw [ht]; exact h4)
  rw [e2, e1, ht]
  have ha : Real.arccos ((1 + 2 * Real.cos (vnorm w) - 1) / 2) = vnorm w := by
    rw [add_sub_cancel_left, mul_div_cancel_left₀ _ (two_ne_zero' ℝ), Real.arccos_cos h0.le h2.le]
  have hsp := Real.sin_pos_of_pos_of_lt_pi h0 h2
  rw [ha, exp_trig h, axis_rodrigues, smul_smul]
  have e : vnorm w / (2 * Real.sin (vnorm w)) * (2 * (Real.sin (vnorm w) / vnorm w)) = 1 := by
    field_simp
  rw [e, one_smul]
  exact ⟨rfl, rfl⟩

/-! ### Close to half a turn -/

theorem piQuat_eq {m : M3} (h : SO3.tr m ≤ 0) : SO3.piQuat m = Quat.fromR m := by
  unfold SO3.tr at h
  unfold SO3.piQuat Quat.fromR
  simp only [gt_iff_lt, not_lt.mpr h, if_false]

/-- The quaternion of a rotation with trace `t` has real part of square `(1 + t) / 4`. -/
theorem fromR_w {m : M3} (h : IsRot m) : 4 * (Quat.fromR m).w ^ 2 = 1 + SO3.tr m := by
  obtain ⟨hu, hR⟩ := fromR_spec h
  simp only [UnitQ] at hu
  have e : SO3.tr m = SO3.tr (Quat.fromR m).R := by rw [hR]
  rw [e]
  unfold SO3.tr
  rw [R_00, R_11, R_22]
  linear_combination 4 * hu

/-- The logarithm within `1e-8` of trace `-1`, and its length. -/
theorem near_pi {m : M3} (h : IsRot m) (h1 : SO3.tr m ≤ -1 + 1e-8) :
    4e-6 < vnorm (Quat.fromR m).bar ∧ SO3.log m = (Quat.fromR m).log ∧
    SO3.logJ m = -(Quat.fromR m).log ∧
    vnorm (Quat.fromR m).log = 2 * atan2 (vnorm (Quat.fromR m).bar) (Quat.fromR m).w ∧
    1 ≤ vnorm (Quat.fromR m).log := by
  have ht := rot_trace h
  obtain ⟨hu, hR⟩ := fromR_spec h
  have hw := fromR_w h
  have hb := bar_norm_sq (Quat.fromR m)
  have hu' := hu
  simp only [UnitQ] at hu'
  have hsum : vnorm (Quat.fromR m).bar * vnorm (Quat.fromR m).bar + (Quat.fromR m).w ^ 2 = 1 := by
    rw [hb, ← hu']; ring
  have hn := Quat.norm_nonneg (Quat.fromR m).bar
  have hbig : 1 / 2 < vnorm (Quat.fromR m).bar := by
    by_contra hc
    norm_num at h1
    nlinarith
  have hgt : 4e-6 < vnorm (Quat.fromR m).bar := lt_trans (by norm_num) hbig
  have hlog : SO3.log m = (Quat.fromR m).log := by
    unfold SO3.log Quat.log
    have c1 : ¬ SO3.tr m ≥ 3 - 1e-8 := by norm_num at h1 ⊢; linarith
    have c2 : ¬ (3 - 1e-8 > SO3.tr m ∧ SO3.tr m > -1 + 1e-8) := fun hc => by linarith [hc.2]
    simp only [c1, c2, if_false, gt_iff_lt, hgt, if_true]
    rw [piQuat_eq (by norm_num at h1 ⊢; linarith)]
  have hlogJ : SO3.logJ m = -(Quat.fromR m).log := by
    unfold SO3.logJ
    have c1 : ¬ SO3.tr m ≥ 3 - 1e-8 := by norm_num at h1 ⊢; linarith
    have c2 : ¬ (3 - 1e-8 > SO3.tr m ∧ SO3.tr m > -1 + 1e-8) := fun hc => by linarith [hc.2]
    simp only [c1, c2, if_false]
  obtain ⟨hc, hs, hpos, -⟩ := atan2_unit (n := vnorm (Quat.fromR m).bar) (w := (Quat.fromR m).w)
    (by rw [← hsum]; ring) (by linarith)
  have hlen : vnorm (Quat.fromR m).log
      = 2 * atan2 (vnorm (Quat.fromR m).bar) (Quat.fromR m).w := by
    unfold Quat.log
    simp only [gt_iff_lt, hgt, if_true]
    rw [Quat.norm_smul _ (by positivity)]
    field_simp
  refine ⟨hgt, hlog, hlogJ, hlen, ?_⟩
  rw [hlen]
  have := Real.sin_le hpos.le
  rw [hs] at this
  linarith

/-- C71: within `1e-8` of trace `-1` the two overloads return opposite vectors: the exponential of
`log(jac)` is the rotation, that of `log()` is its inverse. -/
theorem C71_near_pi_violated (m : M3) (h : IsRot m) (h1 : SO3.tr m ≤ -1 + 1e-8) :
    SO3.logJ m = -SO3.log m ∧ SO3.exp (SO3.log m) = m.transpose ∧ SO3.exp (SO3.logJ m) = m := by
  obtain ⟨hu, hR⟩ := fromR_spec h
  obtain ⟨hgt, hlog, hlogJ, -, hlen⟩ := near_pi h h1
  have hsqn : 4e-6 ≤ sqNorm (Quat.fromR m).log := by
    rw [sqNorm_eq]
    nlinarith
  have hexp := C67_exp_log_partial (Quat.fromR m) hu hgt
  obtain ⟨e1, e2⟩ := C69_exp (Quat.fromR m).log hsqn
  rw [hexp, hR] at e1 e2
  exact ⟨by rw [hlogJ, hlog], by rw [hlog, e1]; rfl, by rw [hlogJ, e2]⟩

/-- The statement of C71 for rotations close to half a turn. -/
def C71_statement : Prop := ∀ m : M3, IsRot m → SO3.exp (SO3.log m) = m

/-- A rotation about the last axis with trace `-1 + 4e-10 / (1 + 1e-10)²`. -/
theorem C71_statement_false : ¬ C71_statement := by
  intro h
  have hu : UnitQ ⟨2e-5 / (1 + 1e-10), 0, 0, (1 - 1e-10) / (1 + 1e-10)⟩ := by norm_num [UnitQ]
  have hr := R_isRot _ hu
  have ht : SO3.tr (Quat.R ⟨2e-5 / (1 + 1e-10), 0, 0, (1 - 1e-10) / (1 + 1e-10)⟩) ≤ -1 + 1e-8 := by
    unfold SO3.tr
    rw [R_00, R_11, R_22]
    norm_num
  have h1 := h _ hr
  rw [(C71_near_pi_violated _ hr ht).2.1] at h1
  have h2 : ∀ M : M3, M.transpose = M → M 1 0 = M 0 1 := fun M hM => by
    have := congrFun (congrFun hM 0) 1
    rw [transpose_apply] at this
    exact this
  have h3 := h2 _ h1
  rw [R_10, R_01] at h3
  norm_num at h3

/-- The hypotheses of the round trip hold for the rotation about the last axis with cosine `-7/25`. -/
example : IsRot (Quat.R ⟨3 / 5, 0, 0, 4 / 5⟩) ∧ -1 + 1e-8 < SO3.tr (Quat.R ⟨3 / 5, 0, 0, 4 / 5⟩) ∧
    SO3.tr (Quat.R ⟨3 / 5, 0, 0, 4 / 5⟩) ≤ 3 - 4e-6 := by
  refine ⟨R_isRot _ (by norm_num [UnitQ]), ?_, ?_⟩ <;> unfold SO3.tr <;> rw [R_00, R_11, R_22] <;>
    norm_num

end Verif.Props.So3Log
