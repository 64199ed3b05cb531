import Verif.Lemmas.LieDeriv

/-!
C72: the Jacobians returned by the exponentials are their derivatives, and those returned by the
logarithms are the inverses of these.
-/

namespace Verif.Props.LieJac

open Verif.Model.Lie Verif.Spec.Lie Verif.Lemmas.Lie Verif.Lemmas.LieDeriv Verif.Props.Quat
  Verif.Props.DQuat Verif.Props.So3 Verif.Props.LieConv Verif.Props.So3Log Matrix

theorem vmv_at (u v : V3) (i j : Fin 3) : vecMulVec u v i j = u i * v j := rfl

theorem jac_apply (a b c : ℝ) (w v : V3) :
    (jacForm a b c w).mulVec v = a • v + b • vprod w v + (c * inner w v) • w := by
  unfold jacForm
  apply vec_ext <;> comps <;> simp only [vmv_at] <;> ring

/-- `C1` in terms of the other coefficients. -/
theorem c1_eq {w : V3} (h : 0 < vnorm w) : ((abc w).1 - 2 * (abc w).2.1) / sqNorm w
    = (abc w).1 * (abc w).2.2 - (abc w).2.1 * (abc w).2.1 := by
  have hs : sqNorm w ≠ 0 := by rw [sqNorm_eq]; positivity
  have hc := abc_c h
  have hk := abc_k h
  rw [div_eq_iff hs]
  linear_combination hk - (abc w).1 * hc

theorem so3_identity {a b c : ℝ} {w : V3} (δ : V3) (hk : a * a + b * b * sqNorm w = 2 * b)
    (hc : c * sqNorm w = 1 - a) :
    (dot w δ * (c - b)) • skew w + a • skew δ + (dot w δ * (a * c - b * b)) • (skew w * skew w)
      + b • (skew w * skew δ + skew δ * skew w)
    = skew ((jacForm a b c w).mulVec δ) * rodrigues a b w := by
  rw [jac_apply]
  rw [sqNorm_at] at hk hc
  unfold rodrigues dot
  apply mat_ext <;> comps
  · linear_combination (-(w 0 * δ 0 - (w 0 * δ 0 + w 1 * δ 1 + w 2 * δ 2))) * hk + ((w 0 * δ 0 + w 1 * δ 1 + w 2 * δ 2) * b * 0) * hc
  · linear_combination (-(w 0 * δ 1)) * hk + ((w 0 * δ 0 + w 1 * δ 1 + w 2 * δ 2) * b * (-w 2)) * hc
  · linear_combination (-(w 0 * δ 2)) * hk + ((w 0 * δ 0 + w 1 * δ 1 + w 2 * δ 2) * b * w 1) * hc
  · linear_combination (-(w 1 * δ 0)) * hk + ((w 0 * δ 0 + w 1 * δ 1 + w 2 * δ 2) * b * w 2) * hc
  · linear_combination (-(w 1 * δ 1 - (w 0 * δ 0 + w 1 * δ 1 + w 2 * δ 2))) * hk + ((w 0 * δ 0 + w 1 * δ 1 + w 2 * δ 2) * b * 0) * hc
  · linear_combination (-(w 1 * δ 2)) * hk + ((w 0 * δ 0 + w 1 * δ 1 + w 2 * δ 2) * b * (-w 0)) * hc
  · linear_combination (-(w 2 * δ 0)) * hk + ((w 0 * δ 0 + w 1 * δ 1 + w 2 * δ 2) * b * (-w 1)) * hc
  · linear_combination (-(w 2 * δ 1)) * hk + ((w 0 * δ 0 + w 1 * δ 1 + w 2 * δ 2) * b * w 0) * hc
  · linear_combination (-(w 2 * δ 2 - (w 0 * δ 0 + w 1 * δ 1 + w 2 * δ 2))) * hk + ((w 0 * δ 0 + w 1 * δ 1 + w 2 * δ 2) * b * 0) * hc

theorem abcSo3_big {w : V3} (h : 4e-6 < sqNorm w) : abcSo3 w = abc w := abc_trig h.le

/-- C72: the Jacobian of `SO3::exp` is the (left) derivative of the exponential: along every line
through `w` the matrix changes like `[J δ]× R`. -/
theorem C72_so3_exp (w δ : V3) (h : 4e-6 < sqNorm w) (i j : Fin 3) :
    HasDerivAt (fun t : ℝ => SO3.exp (w + t • δ) i j)
      ((skew ((SO3.expJac w).mulVec δ) * SO3.exp w) i j) 0 := by
  have h0 := pos_of_le h.le
  have d := rodrigues_deriv (w := w) δ (a_deriv h0 δ) (b_deriv h0 δ) i j
  rw [line_zero, c1_eq h0, so3_identity δ (abc_k h0) (abc_c h0)] at d
  have e1 : SO3.exp w = rodrigues (abc w).1 (abc w).2.1 w := exp_trig h.le
  have e2 : SO3.expJac w = jacForm (abc w).1 (abc w).2.1 (abc w).2.2 w := by
    unfold SO3.expJac; rw [abcSo3_big h]
  rw [e1, e2]
  refine d.congr_of_eventuallyEq ?_
  filter_upwards [eventually_big (w := w) δ h] with t ht
  have : SO3.exp (line w δ t) = rodrigues (abc (line w δ t)).1 (abc (line w δ t)).2.1 (line w δ t) :=
    exp_trig ht.le
  rw [← this]
  rfl

/-! ### Jacobians of the logarithms -/

/-- The relation between the coefficients that makes the two Jacobians inverse to one another. -/
theorem e_rel {a b c e S : ℝ} (ha : a ≠ 0) (hk : a * a + b * b * S = 2 * b) (hc : c * S = 1 - a)
    (he : e = (b - 2 * c) / (2 * a)) : 2 * e * a = b - 2 * c ∧ b - a / 2 - e * b * S = 0 := by
  have h1 : 2 * e * a = b - 2 * c := by rw [he]; field_simp
  refine ⟨h1, ?_⟩
  have : a * (b - a / 2 - e * b * S) = 0 := by
    linear_combination (-b * S / 2) * h1 + b * hc - hk / 2
  rcases mul_eq_zero.mp this with h | h
  · exact absurd h ha
  · exact h

theorem jac_inv {a b c e : ℝ} {w : V3} (hc : c * sqNorm w = 1 - a)
    (he : 2 * e * a = b - 2 * c) (hw : b - a / 2 - e * b * sqNorm w = 0) :
    (1 - (1 / 2 : ℝ) • skew w + (e • skew w) * skew w) * jacForm a b c w = 1 ∧
    (1 + (1 / 2 : ℝ) • skew w + (e • skew w) * skew w)
      * (a • 1 - b • skew w + c • vecMulVec w w) = 1 := by
  rw [sqNorm_at] at hc hw
  unfold jacForm
  constructor
  · apply mat_ext <;> comps <;> simp only [vmv_at]
    · linear_combination 1 * hc + (0) * hw + (w 0 * w 0 - (w 0 * w 0 + w 1 * w 1 + w 2 * w 2)) / 2 * he
    · linear_combination 0 * hc + ((-w 2)) * hw + (w 0 * w 1) / 2 * he
    · linear_combination 0 * hc + (w 1) * hw + (w 0 * w 2) / 2 * he
    · linear_combination 0 * hc + (w 2) * hw + (w 1 * w 0) / 2 * he
    · linear_combination 1 * hc + (0) * hw + (w 1 * w 1 - (w 0 * w 0 + w 1 * w 1 + w 2 * w 2)) / 2 * he
    · linear_combination 0 * hc + ((-w 0)) * hw + (w 1 * w 2) / 2 * he
    · linear_combination 0 * hc + ((-w 1)) * hw + (w 2 * w 0) / 2 * he
    · linear_combination 0 * hc + (w 0) * hw + (w 2 * w 1) / 2 * he
    · linear_combination 1 * hc + (0) * hw + (w 2 * w 2 - (w 0 * w 0 + w 1 * w 1 + w 2 * w 2)) / 2 * he
  · apply mat_ext <;> comps <;> simp only [vmv_at]
    · linear_combination 1 * hc + (-0) * hw + (w 0 * w 0 - (w 0 * w 0 + w 1 * w 1 + w 2 * w 2)) / 2 * he
    · linear_combination 0 * hc + (-(-w 2)) * hw + (w 0 * w 1) / 2 * he
    · linear_combination 0 * hc + (-w 1) * hw + (w 0 * w 2) / 2 * he
    · linear_combination 0 * hc + (-w 2) * hw + (w 1 * w 0) / 2 * he
    · linear_combination 1 * hc + (-0) * hw + (w 1 * w 1 - (w 0 * w 0 + w 1 * w 1 + w 2 * w 2)) / 2 * he
    · linear_combination 0 * hc + (-(-w 0)) * hw + (w 1 * w 2) / 2 * he
    · linear_combination 0 * hc + (-(-w 1)) * hw + (w 2 * w 0) / 2 * he
    · linear_combination 0 * hc + (-w 0) * hw + (w 2 * w 1) / 2 * he
    · linear_combination 1 * hc + (-0) * hw + (w 2 * w 2 - (w 0 * w 0 + w 1 * w 1 + w 2 * w 2)) / 2 * he

theorem sqNorm_neg (w : V3) : sqNorm (-w) = sqNorm w := by
  simp only [sqNorm_at, Pi.neg_apply]; ring

theorem eCoef_some {k : ℝ × ℝ × ℝ} (h : k.1 ≠ 0) :
    eCoef k = some ((k.2.1 - 2 * k.2.2) / (2 * k.1)) := by
  unfold eCoef
  rw [if_neg h]

/-- The Jacobian with the coefficients at `w` and the matrix of the logarithm at `w` are inverse. -/
theorem jac_inv_abc {w : V3} (h : 0 < vnorm w) (ha : (abc w).1 ≠ 0) :
    (1 - (1 / 2 : ℝ) • skew w
      + ((((abc w).2.1 - 2 * (abc w).2.2) / (2 * (abc w).1)) • skew w) * skew w)
      * jacForm (abc w).1 (abc w).2.1 (abc w).2.2 w = 1 ∧
    (1 + (1 / 2 : ℝ) • skew w
      + ((((abc w).2.1 - 2 * (abc w).2.2) / (2 * (abc w).1)) • skew w) * skew w)
      * ((abc w).1 • 1 - (abc w).2.1 • skew w + (abc w).2.2 • vecMulVec w w) = 1 := by
  obtain ⟨h1, h2⟩ := e_rel ha (abc_k h) (abc_c h) rfl
  exact jac_inv (abc_c h) h1 h2

/-- C72: the Jacobian of `SO3::log` at `exp(w)` is the inverse of that of `exp` at `w`, for every
rotation from `2e-3` to almost half a turn. -/
theorem C72_so3_log_partial (w : V3) (h : 4e-6 < sqNorm w) (h2 : vnorm w < Real.pi)
    (h3 : -1 + 1e-8 < 1 + 2 * Real.cos (vnorm w)) (h4 : 1 + 2 * Real.cos (vnorm w) < 3 - 1e-8) :
    ∃ L, SO3.logJac (SO3.exp w) = some L ∧ L * SO3.expJac w = 1 := by
  have h0 := pos_of_le h.le
  have ht := tr_exp h.le
  have hsp := Real.sin_pos_of_pos_of_lt_pi h0 h2
  have hlog := (C71_log_exp_partial w h.le h2 h3 h4).2
  have hth : Real.arccos ((SO3.tr (SO3.exp w) - 1) / 2) = vnorm w := by
    rw [ht, add_sub_cancel_left, mul_div_cancel_left₀ _ (two_ne_zero' ℝ), Real.arccos_cos h0.le h2.le]
  have ha : (abc w).1 ≠ 0 := by
    unfold abc abcTrig
    positivity
  have hJ : SO3.expJac w = jacForm (abc w).1 (abc w).2.1 (abc w).2.2 w := by
    unfold SO3.expJac; rw [abcSo3_big h]
  have hk : abcTrig (vnorm w * vnorm w) (vnorm w) = abc w := by
    unfold abc; rw [sqNorm_eq]
  refine ⟨_, ?_, hJ ▸ (jac_inv_abc h0 ha).1⟩
  unfold SO3.logJac
  dsimp only
  rw [hlog, hth, hk, ht, if_neg (not_le.mpr h4), if_pos ⟨h4, h3⟩, eCoef_some ha]
  rfl

/-- C72, the statement for the logarithm of `SO3`: wherever it returns a Jacobian this is the inverse
of the Jacobian of the exponential at the vector it returns. -/
def C72_so3_log_statement : Prop :=
  ∀ m : M3, IsRot m → ∃ L, SO3.logJac m = some L ∧ L * SO3.expJac (SO3.logJ m) = 1

/-- C72: within `1e-8` of trace `-1` the Jacobian returned by `SO3::log(jac)` has the wrong sign:
times the Jacobian of the exponential it is minus the identity. -/
theorem C72_near_pi_violated (m : M3) (h : IsRot m) (h1 : SO3.tr m ≤ -1 + 1e-8) (L : M3)
    (hL : SO3.logJac m = some L) : L * SO3.expJac (SO3.logJ m) = -1 := by
  have hbig : 1 ≤ sqNorm (SO3.logJ m) := by
    obtain ⟨-, -, hl, -, hlen⟩ := near_pi h h1
    rw [hl, sqNorm_neg, sqNorm_eq]
    nlinarith
  have hb' : 4e-6 < sqNorm (SO3.logJ m) := lt_of_lt_of_le (by norm_num) hbig
  have h0 := pos_of_le hb'.le
  have hJ : SO3.expJac (SO3.logJ m) = jacForm (abc (SO3.logJ m)).1 (abc (SO3.logJ m)).2.1
      (abc (SO3.logJ m)).2.2 (SO3.logJ m) := by
    unfold SO3.expJac; rw [abcSo3_big hb']
  have c1 : ¬ SO3.tr m ≥ 3 - 1e-8 := by norm_num at h1 ⊢; linarith
  have c2 : ¬ (3 - 1e-8 > SO3.tr m ∧ SO3.tr m > -1 + 1e-8) := fun hc => by linarith [hc.2]
  unfold SO3.logJac at hL
  dsimp only at hL
  rw [if_neg c1, if_neg c2, sqrt_sqNorm] at hL
  have hk : abcTrig (sqNorm (SO3.logJ m)) (vnorm (SO3.logJ m)) = abc (SO3.logJ m) := rfl
  rw [hk] at hL
  by_cases ha : (abc (SO3.logJ m)).1 = 0
  · unfold eCoef at hL
    rw [if_pos ha] at hL
    cases hL
  · rw [eCoef_some ha, Option.map_some, Option.some_inj] at hL
    have hi := (jac_inv_abc h0 ha).1
    rw [hJ, ← hL]
    generalize ((abc (SO3.logJ m)).2.1 - 2 * (abc (SO3.logJ m)).2.2) / (2 * (abc (SO3.logJ m)).1)
      = e at *
    have e2 : -1 + (1 / 2 : ℝ) • skew (SO3.logJ m) - (e • skew (SO3.logJ m)) * skew (SO3.logJ m)
        = -(1 - (1 / 2 : ℝ) • skew (SO3.logJ m)
          + (e • skew (SO3.logJ m)) * skew (SO3.logJ m)) := by abel
    rw [e2, Matrix.neg_mul, hi]

/-- C72: at exactly half a turn the Jacobian is `0/0`. -/
theorem C72_half_turn_violated (m : M3) (h : IsRot m) (h1 : SO3.tr m = -1) :
    SO3.logJac m = none := by
  obtain ⟨hgt, -, hl, hlen, h1'⟩ := near_pi h (by rw [h1]; norm_num)
  have hw := fromR_w h
  rw [h1] at hw
  have hw0 : (Quat.fromR m).w = 0 := by
    have : (Quat.fromR m).w ^ 2 = 0 := by linarith
    exact pow_eq_zero_iff (two_ne_zero) |>.mp this
  have hu := (fromR_spec h).1
  simp only [UnitQ] at hu
  have hat := atan2_unit (n := vnorm (Quat.fromR m).bar) (w := (Quat.fromR m).w)
    (by rw [bar_norm_sq, ← hu]; ring) (lt_trans (by norm_num) hgt)
  have hsin : Real.sin (vnorm (Quat.fromR m).log) = 0 := by
    rw [hlen, Real.sin_two_mul, hat.1, hw0, mul_zero]
  have hn : vnorm (SO3.logJ m) = vnorm (Quat.fromR m).log := by
    unfold vnorm
    rw [hl, sqNorm_neg]
  have c1 : ¬ SO3.tr m ≥ 3 - 1e-8 := by rw [h1]; norm_num
  have c2 : ¬ (3 - 1e-8 > SO3.tr m ∧ SO3.tr m > -1 + 1e-8) := fun hc => by
    have := hc.2
    rw [h1] at this
    norm_num at this
  unfold SO3.logJac
  dsimp only
  rw [if_neg c1, if_neg c2, sqrt_sqNorm]
  have ha : (abcTrig (sqNorm (SO3.logJ m)) (vnorm (SO3.logJ m))).1 = 0 := by
    unfold abcTrig
    dsimp only
    rw [hn, hsin, zero_div]
  unfold eCoef
  rw [if_pos ha]
  rfl

theorem C72_so3_log_statement_false : ¬ C72_so3_log_statement := by
  intro hs
  have hr := R_isRot ⟨0, 0, 0, 1⟩ (by norm_num [UnitQ])
  have ht : SO3.tr (Quat.R ⟨0, 0, 0, 1⟩) = -1 := by
    unfold SO3.tr
    rw [R_00, R_11, R_22]
    norm_num
  obtain ⟨L, h, -⟩ := hs _ hr
  rw [C72_half_turn_violated _ hr ht] at h
  cases h

/-! ### Quaternions -/

/-- The product of a pure quaternion `(0, u)` from the left, halved: how a quaternion moves when it is
turned from the left at the rate `u`. -/
noncomputable def leftRate (u : V3) (q : Quat) : Quat := Quat.smul (1 / 2) ((Quat.pure u).otimes q)

/-- The same from the right. -/
noncomputable def rightRate (q : Quat) (u : V3) : Quat := Quat.smul (1 / 2) (q.otimes (Quat.pure u))

/-- The derivative at zero of a curve of quaternions. -/
def HasQuatDeriv (f : ℝ → Quat) (d : Quat) : Prop :=
  HasDerivAt (fun t => (f t).w) d.w 0 ∧ HasDerivAt (fun t => (f t).x) d.x 0 ∧
  HasDerivAt (fun t => (f t).y) d.y 0 ∧ HasDerivAt (fun t => (f t).z) d.z 0

/-- `cos(|w| / 2)` and `sin(|w| / 2) / |w|`. -/
noncomputable def half2 (w : V3) : ℝ × ℝ :=
  (Real.cos (vnorm w / 2), Real.sin (vnorm w / 2) / vnorm w)

section
variable {w : V3} (h : 0 < vnorm w)
include h

theorem half_rel : (half2 w).1 * (half2 w).1 + (half2 w).2 * (half2 w).2 * sqNorm w = 1 ∧
    (abc w).1 = 2 * (half2 w).2 * (half2 w).1 ∧ (abc w).2.1 = 2 * (half2 w).2 * (half2 w).2 := by
  have hsc := Real.sin_sq_add_cos_sq (vnorm w / 2)
  have h2 : vnorm w = 2 * (vnorm w / 2) := by ring
  have hs : Real.sin (vnorm w) = 2 * Real.sin (vnorm w / 2) * Real.cos (vnorm w / 2) := by
    conv_lhs => rw [h2, Real.sin_two_mul]
  have hc : Real.cos (vnorm w) = 2 * Real.cos (vnorm w / 2) ^ 2 - 1 := by
    conv_lhs => rw [h2, Real.cos_two_mul]
  unfold half2 abc abcTrig
  dsimp only
  rw [sqNorm_eq, hs, hc]
  refine ⟨?_, ?_, ?_⟩
  · field_simp
    linear_combination hsc
  · field_simp
  · field_simp
    linear_combination -2 * hsc

variable (δ : V3)

theorem C_deriv : HasDerivAt (fun t => (half2 (line w δ t)).1)
    (-(1 / 2) * (half2 w).2 * dot w δ) 0 := by
  have := ((vnorm_deriv w δ h).div_const 2).cos
  refine this.congr_deriv ?_
  rw [line_zero]
  unfold half2
  field_simp

theorem s_deriv : HasDerivAt (fun t => (half2 (line w δ t)).2)
    (dot w δ * ((1 / 2 * (half2 w).1 - (half2 w).2) / sqNorm w)) 0 := by
  have hn := vnorm_deriv w δ h
  have h0 : vnorm (line w δ 0) ≠ 0 := by rw [line_zero]; exact h.ne'
  have := ((vnorm_deriv w δ h).div_const 2).sin.div hn h0
  refine this.congr_deriv ?_
  rw [line_zero, sqNorm_eq]
  unfold half2
  field_simp

end

theorem exp_half2 {w : V3} (h : 4e-6 < vnorm w) : Quat.exp w
    = ⟨(half2 w).1, (half2 w).2 * w 0, (half2 w).2 * w 1, (half2 w).2 * w 2⟩ := by
  unfold Quat.exp half2
  simp only [gt_iff_lt, h, if_true]

theorem quat_identity {a b c C s g : ℝ} {w : V3} (δ : V3) (h1 : C * C + s * s * sqNorm w = 1)
    (ha : a = 2 * s * C) (hb : b = 2 * s * s) (hc : c * sqNorm w = 1 - a)
    (hg : g * sqNorm w = 1 / 2 * C - s) (h0 : sqNorm w ≠ 0) :
    (⟨-(1 / 2) * s * dot w δ, dot w δ * g * w 0 + s * δ 0, dot w δ * g * w 1 + s * δ 1,
      dot w δ * g * w 2 + s * δ 2⟩ : Quat)
      = leftRate ((jacForm a b c w).mulVec δ) ⟨C, s * w 0, s * w 1, s * w 2⟩ ∧
    (⟨-(1 / 2) * s * dot w δ, dot w δ * g * w 0 + s * δ 0, dot w δ * g * w 1 + s * δ 1,
      dot w δ * g * w 2 + s * δ 2⟩ : Quat)
      = rightRate ⟨C, s * w 0, s * w 1, s * w 2⟩
        ((a • 1 - b • skew w + c • vecMulVec w w : M3).mulVec δ) := by
  have hG : g = 1 / 2 * (C * c - s * b) := by
    apply mul_right_cancel₀ h0
    rw [hg]
    rw [ha] at hc
    rw [hb]
    linear_combination s * h1 - 1 / 2 * C * hc
  have er : (a • 1 - b • skew w + c • vecMulVec w w : M3) = jacForm a (-b) c w := by
    unfold jacForm
    rw [neg_smul, sub_eq_add_neg]
  rw [er, jac_apply, jac_apply]
  rw [sqNorm_at] at h1 hc
  subst ha hb
  constructor
  · ext <;> simp only [leftRate, Quat.smul, Quat.pure, Quat.otimes, dot] <;> comps
    · linear_combination (s * (w 0 * δ 0 + w 1 * δ 1 + w 2 * δ 2) / 2) * hc
    · linear_combination ((w 0 * δ 0 + w 1 * δ 1 + w 2 * δ 2) * w 0) * hG - s * δ 0 * h1
    · linear_combination ((w 0 * δ 0 + w 1 * δ 1 + w 2 * δ 2) * w 1) * hG - s * δ 1 * h1
    · linear_combination ((w 0 * δ 0 + w 1 * δ 1 + w 2 * δ 2) * w 2) * hG - s * δ 2 * h1
  · ext <;> simp only [rightRate, Quat.smul, Quat.pure, Quat.otimes, dot] <;> comps
    · linear_combination (s * (w 0 * δ 0 + w 1 * δ 1 + w 2 * δ 2) / 2) * hc
    · linear_combination ((w 0 * δ 0 + w 1 * δ 1 + w 2 * δ 2) * w 0) * hG - s * δ 0 * h1
    · linear_combination ((w 0 * δ 0 + w 1 * δ 1 + w 2 * δ 2) * w 1) * hG - s * δ 1 * h1
    · linear_combination ((w 0 * δ 0 + w 1 * δ 1 + w 2 * δ 2) * w 2) * hG - s * δ 2 * h1

theorem abcQuat_big {w : V3} (h : 4e-6 < vnorm w) : abcQuat w = abc w := by
  unfold abcQuat
  simp only [gt_iff_lt, h, if_true]
  rfl

/-- C72: the Jacobians of `Quat::exp` are its derivatives: along every line through `w` the
quaternion changes like `½ (J_left δ) q` and like `½ q (J_right δ)`. -/
theorem C72_quat_exp (w δ : V3) (h : 4e-6 < vnorm w) :
    HasQuatDeriv (fun t => Quat.exp (w + t • δ))
      (leftRate ((Quat.expJac .left w).mulVec δ) (Quat.exp w)) ∧
    HasQuatDeriv (fun t => Quat.exp (w + t • δ))
      (rightRate (Quat.exp w) ((Quat.expJac .right w).mulVec δ)) := by
  have h0 : 0 < vnorm w := lt_trans (by norm_num) h
  have hs0 : sqNorm w ≠ 0 := by rw [sqNorm_eq]; positivity
  obtain ⟨r1, r2, r3⟩ := half_rel h0
  obtain ⟨i1, i2⟩ := quat_identity (g := (1 / 2 * (half2 w).1 - (half2 w).2) / sqNorm w) δ r1 r2 r3
    (abc_c h0) (by field_simp) hs0
  have el : Quat.expJac .left w = jacForm (abc w).1 (abc w).2.1 (abc w).2.2 w := by
    unfold Quat.expJac jacForm
    rw [abcQuat_big h]
  have er : Quat.expJac .right w
      = (abc w).1 • 1 - (abc w).2.1 • skew w + (abc w).2.2 • vecMulVec w w := by
    unfold Quat.expJac
    rw [abcQuat_big h]
  rw [el, er, exp_half2 h, ← i1, ← i2, and_self_iff]
  have hev : ∀ᶠ t in nhds (0 : ℝ), 4e-6 < vnorm (line w δ t) := by
    have hc := (vnorm_deriv w δ h0).continuousAt
    have : 4e-6 < vnorm (line w δ 0) := by rw [line_zero]; exact h
    exact hc.eventually (lt_mem_nhds this)
  have hC := C_deriv h0 δ
  have hS := s_deriv h0 δ
  have comp : ∀ k : Fin 3, HasDerivAt (fun t => (half2 (line w δ t)).2 * line w δ t k)
      (dot w δ * ((1 / 2 * (half2 w).1 - (half2 w).2) / sqNorm w) * w k + (half2 w).2 * δ k) 0 := by
    intro k
    have := hS.mul (line_deriv w δ k)
    rw [line_zero] at this
    exact this
  refine ⟨?_, ?_, ?_, ?_⟩
  · refine hC.congr_of_eventuallyEq ?_
    filter_upwards [hev] with t ht
    exact congrArg Quat.w (exp_half2 ht)
  · refine (comp 0).congr_of_eventuallyEq ?_
    filter_upwards [hev] with t ht
    exact congrArg Quat.x (exp_half2 ht)
  · refine (comp 1).congr_of_eventuallyEq ?_
    filter_upwards [hev] with t ht
    exact congrArg Quat.y (exp_half2 ht)
  · refine (comp 2).congr_of_eventuallyEq ?_
    filter_upwards [hev] with t ht
    exact congrArg Quat.z (exp_half2 ht)

/-- C72: the Jacobians of `Quat::log` are inverse to those of `Quat::exp`, on both sides, for every
unit quaternion outside the Taylor branch that is not half a turn. -/
theorem C72_quat_log_partial (q : Quat) (hq : UnitQ q) (h : 4e-6 < vnorm q.bar) (hw : q.w ≠ 0) :
    (∃ L, Quat.logJac .left q = some L ∧ L * Quat.expJac .left q.log = 1) ∧
    (∃ L, Quat.logJac .right q = some L ∧ L * Quat.expJac .right q.log = 1) := by
  have hn0 : 0 < vnorm q.bar := lt_trans (by norm_num) h
  have hu : vnorm q.bar * vnorm q.bar + q.w * q.w = 1 := by
    simp only [UnitQ] at hq
    rw [bar_norm_sq, ← hq]; ring
  obtain ⟨hc, hs, hpos, -⟩ := atan2_unit hu hn0
  have hlen : vnorm q.log = 2 * atan2 (vnorm q.bar) q.w := by
    unfold Quat.log
    simp only [gt_iff_lt, h, if_true]
    rw [Quat.norm_smul _ (by positivity)]
    field_simp
  have hbig : 4e-6 < vnorm q.log := by
    have := Real.sin_le hpos.le
    rw [hs] at this
    rw [hlen]
    linarith
  have h0 : 0 < vnorm q.log := lt_trans (by norm_num) hbig
  have hk : abcTrig (2 * atan2 (vnorm q.bar) q.w * (2 * atan2 (vnorm q.bar) q.w))
      (2 * atan2 (vnorm q.bar) q.w) = abc q.log := by
    unfold abc
    rw [sqNorm_eq, hlen]
  have ha : (abc q.log).1 ≠ 0 := by
    unfold abc abcTrig
    dsimp only
    rw [hlen, Real.sin_two_mul, hc, hs]
    have := mul_ne_zero (mul_ne_zero two_ne_zero hn0.ne') hw
    positivity
  have hJ : q.logJ = q.log := C67_overloads_partial q h
  obtain ⟨j1, j2⟩ := jac_inv_abc h0 ha
  have el : Quat.expJac .left q.log
      = jacForm (abc q.log).1 (abc q.log).2.1 (abc q.log).2.2 q.log := by
    unfold Quat.expJac jacForm
    rw [abcQuat_big hbig]
  have er : Quat.expJac .right q.log = (abc q.log).1 • 1 - (abc q.log).2.1 • skew q.log
      + (abc q.log).2.2 • vecMulVec q.log q.log := by
    unfold Quat.expJac
    rw [abcQuat_big hbig]
  rw [el, er]
  refine ⟨⟨_, ?_, j1⟩, ⟨_, ?_, j2⟩⟩
  all_goals
    unfold Quat.logJac
    dsimp only
    rw [if_pos h, hk, eCoef_some ha, hJ, Option.map_some, Matrix.smul_mul]

/-- C72: at half a turn the Jacobian of `Quat::log` is `0/0`. -/
theorem C72_quat_half_turn_violated (q : Quat) (hq : UnitQ q) (hw : q.w = 0) (side : Side) :
    Quat.logJac side q = none := by
  have hb := bar_norm_sq q
  simp only [UnitQ] at hq
  have h1 : vnorm q.bar * vnorm q.bar = 1 := by
    rw [hb, ← hq, hw]; ring
  have hn := Quat.norm_nonneg q.bar
  have h2 : vnorm q.bar = 1 := by nlinarith
  have hat := atan2_unit (n := vnorm q.bar) (w := q.w) (by rw [h1, hw]; ring) (by rw [h2]; norm_num)
  unfold Quat.logJac
  dsimp only
  have ha : (abcTrig (2 * atan2 (vnorm q.bar) q.w * (2 * atan2 (vnorm q.bar) q.w))
      (2 * atan2 (vnorm q.bar) q.w)).1 = 0 := by
    unfold abcTrig
    dsimp only
    rw [Real.sin_two_mul, hat.1, hw, mul_zero, zero_div]
  unfold eCoef
  rw [if_pos (show vnorm q.bar > 4e-6 by rw [h2]; norm_num), if_pos ha]
  rfl

end Verif.Props.LieJac
