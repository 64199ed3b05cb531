import Verif.Props.EkfModels
import Mathlib.Analysis.SpecialFunctions.Trigonometric.ArctanDeriv

/-!
The derivative of `Quat::log(jac)` along any curve of quaternions: the reported Jacobian is exact.
-/

namespace Verif.Props.LogDeriv

open Verif.Model.Lie Verif.Lemmas.Lie Verif.Lemmas.LieDeriv Verif.Lemmas.LieCurve
  Verif.Props.Quat Verif.Props.DQuat Verif.Props.So3 Verif.Props.LieJac Verif.Props.Se3Jac Verif.Props.EkfModels Matrix

theorem atan2_arctan {n w : ℝ} (hn : 0 < n) : atan2 n w = Real.pi / 2 - Real.arctan (w / n) := by
  unfold atan2
  have h1 := Real.neg_pi_div_two_lt_arctan (w / n)
  have h2 := Real.arctan_lt_pi_div_two (w / n)
  have hp := Real.pi_pos
  set r := n * Real.sqrt (1 + (w / n) ^ 2) with hr
  have hr0 : 0 < r := by positivity
  have hs : Real.sqrt (1 + (w / n) ^ 2) ≠ 0 := by positivity
  have hc : Real.cos (Real.pi / 2 - Real.arctan (w / n)) = w / r := by
    rw [Real.cos_pi_div_two_sub, Real.sin_arctan, hr]
    field_simp
  have hsn : Real.sin (Real.pi / 2 - Real.arctan (w / n)) = n / r := by
    rw [Real.sin_pi_div_two_sub, Real.cos_arctan, hr]
    field_simp
  have e : (⟨w, n⟩ : ℂ) = (r : ℂ) * (Complex.cos ((Real.pi / 2 - Real.arctan (w / n) : ℝ) : ℂ)
      + Complex.sin ((Real.pi / 2 - Real.arctan (w / n) : ℝ) : ℂ) * Complex.I) := by
    rw [← Complex.ofReal_cos, ← Complex.ofReal_sin, hc, hsn]
    apply Complex.ext
    · simp; field_simp
    · simp; field_simp
  rw [e, Complex.arg_mul_cos_add_sin_mul_I hr0 ⟨by linarith, by linarith⟩]

theorem atan2_deriv {f g : ℝ → ℝ} {a b : ℝ} (hf : HasDerivAt f a 0) (hg : HasDerivAt g b 0) (h0 : 0 < f 0) :
    HasDerivAt (fun t => atan2 (f t) (g t)) ((g 0 * a - f 0 * b) / (f 0 * f 0 + g 0 * g 0)) 0 := by
  have hd := ((hg.div hf h0.ne').arctan).const_sub (Real.pi / 2)
  have hev : ∀ᶠ t in nhds (0 : ℝ), 0 < f t := hf.continuousAt.eventually (lt_mem_nhds h0)
  refine (hd.congr_of_eventuallyEq ?_).congr_deriv ?_
  · filter_upwards [hev] with t ht
    exact atan2_arctan ht
  · have : f 0 * f 0 + g 0 * g 0 ≠ 0 := by nlinarith [mul_self_nonneg (g 0), mul_pos h0 h0]
    simp only [Pi.div_apply]
    field_simp
    ring

/-- The core identity: the claimed derivative of the logarithm is sent to `u` by the Jacobian of `exp`. -/
theorem core (N u : V3) (a b c th al be ga n w : ℝ) (hN : dot N N = 1) (h1 : a * be = w * w) (h2 : a * ga = n * w)
    (h3 : b * th * be = n * w) (h4 : b * th * ga = n * n) (h5 : c * (th * th) = 1 - a)
    (hu : n * n + w * w = 1) (ha : al = dot u N * (1 - be)) :
    (jacForm a b c (th • N)).mulVec (al • N + be • u + ga • cross u N) = u := by
  simp only [dot] at hN ha
  unfold jacForm
  apply vec_ext <;> rw [mulVec_at] <;> simp only [Matrix.add_apply, Matrix.smul_apply, vecMulVec_apply,
    Pi.add_apply, Pi.smul_apply, smul_eq_mul, one_00, one_01, one_02, one_10, one_11, one_12, one_20, one_21, one_22,
    skew_00, skew_01, skew_02, skew_10, skew_11, skew_12, skew_20, skew_21, skew_22, cross_0, cross_1, cross_2]
  · linear_combination (u 0 - N 0 * (u 0 * N 0 + u 1 * N 1 + u 2 * N 2)) * h1 + (u 1 * N 2 - u 2 * N 1) * h2
      + (N 1 * u 2 - N 2 * u 1) * h3
      + (u 0 * (N 0 * N 0 + N 1 * N 1 + N 2 * N 2) - N 0 * (u 0 * N 0 + u 1 * N 1 + u 2 * N 2)) * h4
      + N 0 * (al * (N 0 * N 0 + N 1 * N 1 + N 2 * N 2) + be * (u 0 * N 0 + u 1 * N 1 + u 2 * N 2)) * h5
      + (n * n * u 0 + N 0 * al * (1 - a)) * hN + N 0 * ha + (u 0 - N 0 * (u 0 * N 0 + u 1 * N 1 + u 2 * N 2)) * hu
  · linear_combination (u 1 - N 1 * (u 0 * N 0 + u 1 * N 1 + u 2 * N 2)) * h1 + (u 2 * N 0 - u 0 * N 2) * h2
      + (N 2 * u 0 - N 0 * u 2) * h3
      + (u 1 * (N 0 * N 0 + N 1 * N 1 + N 2 * N 2) - N 1 * (u 0 * N 0 + u 1 * N 1 + u 2 * N 2)) * h4
      + N 1 * (al * (N 0 * N 0 + N 1 * N 1 + N 2 * N 2) + be * (u 0 * N 0 + u 1 * N 1 + u 2 * N 2)) * h5
      + (n * n * u 1 + N 1 * al * (1 - a)) * hN + N 1 * ha + (u 1 - N 1 * (u 0 * N 0 + u 1 * N 1 + u 2 * N 2)) * hu
  · linear_combination (u 2 - N 2 * (u 0 * N 0 + u 1 * N 1 + u 2 * N 2)) * h1 + (u 0 * N 1 - u 1 * N 0) * h2
      + (N 0 * u 1 - N 1 * u 0) * h3
      + (u 2 * (N 0 * N 0 + N 1 * N 1 + N 2 * N 2) - N 2 * (u 0 * N 0 + u 1 * N 1 + u 2 * N 2)) * h4
      + N 2 * (al * (N 0 * N 0 + N 1 * N 1 + N 2 * N 2) + be * (u 0 * N 0 + u 1 * N 1 + u 2 * N 2)) * h5
      + (n * n * u 2 + N 2 * al * (1 - a)) * hN + N 2 * ha + (u 2 - N 2 * (u 0 * N 0 + u 1 * N 1 + u 2 * N 2)) * hu

theorem bar_deriv {q : ℝ → Quat} {e : Quat} (h : HasQuatDeriv q e) : HasVecDeriv (fun t => (q t).bar) e.bar := by
  intro i
  fin_cases i
  · exact h.2.1
  · exact h.2.2.1
  · exact h.2.2.2

/-- **C72**: along every curve of quaternions that passes through the unit quaternion `q` turning from the left at
rate `u`, the logarithm moves with the reported left Jacobian times `u`.  Outside the Taylor branch, not at half a
turn. -/
theorem C72_quat_log_curve_partial (f : ℝ → Quat) (q : Quat) (u : V3) (h0 : f 0 = q) (hq : UnitQ q)
    (hn : 4e-6 < vnorm q.bar) (hw : q.w ≠ 0) (hf : HasQuatDeriv f (leftRate u q)) :
    ∃ L, Quat.logJac .left q = some L ∧ HasVecDeriv (fun t => (f t).logJ) (L.mulVec u) := by
  obtain ⟨⟨L, hL, hinv⟩, -⟩ := C72_quat_log_partial q hq hn hw
  refine ⟨L, hL, ?_⟩
  have hn0 : 0 < vnorm q.bar := lt_trans (by norm_num) hn
  have hu : vnorm q.bar * vnorm q.bar + q.w * q.w = 1 := by
    simp only [UnitQ] at hq
    rw [bar_norm_sq, ← hq]; ring
  obtain ⟨hc, hs, hpos, -⟩ := atan2_unit hu hn0
  have hb := bar_deriv hf
  have hb0 : (f 0).bar = q.bar := by rw [h0]
  have hvn := vnorm_curve hb (by rw [hb0]; exact hn0)
  have hun := unit_deriv hb (by rw [hb0]; exact hn0)
  have hat := atan2_deriv hvn hf.1 (by rw [hb0]; exact hn0)
  rw [hb0] at hvn hun hat
  rw [h0] at hat
  set n := vnorm q.bar with hnn
  set N : V3 := n⁻¹ • q.bar with hNN
  have hNN1 : dot N N = 1 := by
    rw [dot_eq]; exact Quat.unit_axis hn0
  have hv : q.bar = n • N := by
    rw [hNN, smul_smul, mul_inv_cancel₀ hn0.ne', one_smul]
  have hx : q.x = n * N 0 := congrFun hv 0
  have hy : q.y = n * N 1 := congrFun hv 1
  have hz : q.z = n * N 2 := congrFun hv 2
  have hew : (leftRate u q).w = -(n * dot u N) / 2 := by
    simp only [leftRate, Quat.smul, Quat.otimes, Quat.pure, dot]
    rw [hx, hy, hz]; ring
  have heb : (leftRate u q).bar = (1 / 2 : ℝ) • (q.w • u + n • cross u N) := by
    apply vec_ext <;> simp only [bar_0, bar_1, bar_2, leftRate, Quat.smul, Quat.otimes, Quat.pure, Pi.smul_apply,
      Pi.add_apply, smul_eq_mul, cross_0, cross_1, cross_2] <;> rw [hx, hy, hz] <;> ring
  have hdN : dot N (leftRate u q).bar = q.w * dot u N / 2 := by
    rw [heb]
    simp only [dot, Pi.smul_apply, Pi.add_apply, smul_eq_mul, cross_0, cross_1, cross_2]; ring
  clear_value N n
  set th := 2 * atan2 n q.w with hth
  have hth0 : 0 < th := by positivity
  have hd : HasVecDeriv (fun t => (2 * atan2 (vnorm (f t).bar) (f t).w) • ((vnorm (f t).bar)⁻¹ • (f t).bar))
      ((dot u N * (1 - th / 2 * (q.w / n))) • N + (th / 2 * (q.w / n)) • u + (th / 2) • cross u N) := by
    intro i
    have := (hat.const_mul 2).mul (hun i)
    refine this.congr_deriv ?_
    rw [hb0, h0, ← hnn, hdN, hew, hu, heb]
    simp only [Pi.smul_apply, Pi.add_apply, Pi.sub_apply, smul_eq_mul]
    have hNi : n⁻¹ * q.bar i = N i := by rw [hv, Pi.smul_apply, smul_eq_mul]; field_simp
    rw [hb0, ← hnn, hNi, ← hth]
    field_simp
    linear_combination (2 * n * N i * dot u N) * hu
  have hlog : q.log = th • N := by
    unfold Quat.log
    dsimp only
    rw [← hnn, if_pos hn, ← hth, hv, smul_smul, div_mul_cancel₀ _ hn0.ne']
  have hev : ∀ᶠ t in nhds (0 : ℝ), 4e-6 < vnorm (f t).bar := by
    refine hvn.continuousAt.eventually (lt_mem_nhds ?_)
    show 4e-6 < vnorm (f 0).bar
    rw [hb0, ← hnn]; exact hn
  have hlen : vnorm q.log = th := by
    rw [hlog, Quat.norm_smul _ hth0.le]
    have h1 : vnorm N = 1 := by
      unfold vnorm
      rw [show sqNorm N = dot N N from rfl, hNN1, Real.sqrt_one]
    rw [h1, mul_one]
  have hbig : 4e-6 < vnorm q.log := by
    have := Real.sin_le hpos.le
    rw [hs] at this
    rw [hlen]
    linarith
  have el : Quat.expJac .left q.log = jacForm (abc q.log).1 (abc q.log).2.1 (abc q.log).2.2 q.log := by
    unfold Quat.expJac jacForm
    rw [abcQuat_big hbig]
  have hk : abc q.log = abcTrig (th * th) th := by
    unfold abc
    rw [sqNorm_eq, hlen]
  have hsin : Real.sin th = 2 * n * q.w := by rw [hth, Real.sin_two_mul, hc, hs]
  have hcos : Real.cos th = 1 - 2 * (n * n) := by rw [hth, Real.cos_two_mul, hc]; linear_combination 2 * hu
  have hJ : (Quat.expJac .left q.log).mulVec
      ((dot u N * (1 - th / 2 * (q.w / n))) • N + (th / 2 * (q.w / n)) • u + (th / 2) • cross u N) = u := by
    rw [el, hk, hlog]
    unfold abcTrig
    dsimp only
    rw [hsin, hcos]
    refine core N u _ _ _ th _ _ _ n q.w hNN1 ?_ ?_ ?_ ?_ ?_ hu rfl
    all_goals field_simp
    all_goals ring
  have hfin : L.mulVec u
      = (dot u N * (1 - th / 2 * (q.w / n))) • N + (th / 2 * (q.w / n)) • u + (th / 2) • cross u N := by
    conv_lhs => rw [← hJ]
    rw [mulVec_mulVec, hinv, one_mulVec]
  rw [hfin]
  intro i
  refine (hd i).congr_of_eventuallyEq ?_
  filter_upwards [hev] with t ht
  unfold Quat.logJ
  dsimp only
  rw [if_pos ht]

theorem logJac_id : Quat.logJac .left Quat.identity = some 1 := by
  have hv : Quat.identity.bar = 0 := by apply vec_ext <;> rfl
  have h0 : vnorm (0 : V3) = 0 := by unfold vnorm; simp [sqNorm, dot]
  have hl : Quat.identity.logJ = 0 := by
    unfold Quat.logJ
    dsimp only
    rw [hv, h0, if_neg (by norm_num), if_pos rfl]
    norm_num
  have hs : skew (0 : V3) = 0 := by apply mat_ext <;> comps <;> simp
  unfold Quat.logJac
  dsimp only
  rw [hl, hs, hv, h0, if_neg (by norm_num)]
  simp

/-- The polynomial that replaces `2 atan2(n, w) / n` in the Taylor branch. -/
noncomputable def tpoly (w s : ℝ) : ℝ := 2 * (w⁻¹ - s * (3 * (w * w * w))⁻¹ + s * s / 5 * (w * w * w * (w * w)))

theorem logJ_small (q : Quat) (h : ¬ vnorm q.bar > 4e-6) : q.logJ = tpoly q.w (sqNorm q.bar) • q.bar := by
  unfold Quat.logJ
  dsimp only
  rw [if_neg h, sqNorm_eq]
  by_cases hn : vnorm q.bar = 0
  · have hz : q.bar = 0 := by
      have h1 := sqNorm_eq q.bar
      rw [hn, mul_zero] at h1
      simp only [sqNorm, dot] at h1
      have a0 := mul_self_nonneg (q.bar 0)
      have a1 := mul_self_nonneg (q.bar 1)
      have a2 := mul_self_nonneg (q.bar 2)
      apply vec_ext
      · exact mul_self_eq_zero.1 (by linarith)
      · exact mul_self_eq_zero.1 (by linarith)
      · exact mul_self_eq_zero.1 (by linarith)
    rw [if_pos hn, hn, hz, smul_zero]
    norm_num
  · rw [if_neg hn, smul_smul]
    congr 1
    unfold tpoly
    have : ∀ n w : ℝ, n ≠ 0 → 2 * (n / w - n * n * n / (3 * (w * w * w)) + n * n * n * (n * n) / 5 * (w * w * w * (w * w)))
        * n⁻¹ = 2 * (w⁻¹ - n * n * (3 * (w * w * w))⁻¹ + n * n * (n * n) / 5 * (w * w * w * (w * w))) := by
      intro n w hn
      have e : 2 * (n / w - n * n * n / (3 * (w * w * w)) + n * n * n * (n * n) / 5 * (w * w * w * (w * w)))
        = 2 * (w⁻¹ - n * n * (3 * (w * w * w))⁻¹ + n * n * (n * n) / 5 * (w * w * w * (w * w))) * n := by ring
      rw [e, mul_inv_cancel_right₀ hn]
    exact this _ _ hn

/-- **C72**: the same at the identity. -/
theorem C72_quat_log_identity (f : ℝ → Quat) (u : V3) (h0 : f 0 = Quat.identity)
    (hf : HasQuatDeriv f (leftRate u Quat.identity)) :
    Quat.logJac .left Quat.identity = some 1 ∧ HasVecDeriv (fun t => (f t).logJ) u := by
  refine ⟨logJac_id, ?_⟩
  have hb := bar_deriv hf
  have hb0 : (f 0).bar = 0 := by rw [h0]; apply vec_ext <;> rfl
  have hs : HasDerivAt (fun t => sqNorm (f t).bar) 0 0 := by
    refine ((((hb 0).mul (hb 0)).add ((hb 1).mul (hb 1))).add ((hb 2).mul (hb 2))).congr_deriv ?_
    dsimp only
    rw [hb0]; simp
  have hs0 : sqNorm (f 0).bar = 0 := by rw [hb0]; simp [sqNorm, dot]
  have hev : ∀ᶠ t in nhds (0 : ℝ), ¬ vnorm (f t).bar > 4e-6 := by
    have hc : ContinuousAt (fun t => Real.sqrt (sqNorm (f t).bar)) 0 := hs.continuousAt.sqrt
    have : Real.sqrt (sqNorm (f 0).bar) < 4e-6 := by rw [hs0, Real.sqrt_zero]; norm_num
    filter_upwards [hc.eventually (gt_mem_nhds this)] with t ht
    exact not_lt.2 ht.le
  have hw0 : (f 0).w = 1 := by rw [h0]; rfl
  have hwne : (f 0).w ≠ 0 := by rw [hw0]; norm_num
  obtain ⟨d, hd⟩ : ∃ d, HasDerivAt (fun t => tpoly (f t).w (sqNorm (f t).bar)) d 0 := by
    have w3 := (hf.1.mul hf.1).mul hf.1
    exact ⟨_, (((hf.1.inv hwne).sub (hs.mul ((w3.const_mul 3).inv (by
      simp only [Pi.mul_apply]; rw [hw0]; norm_num)))).add
      (((hs.mul hs).div_const 5).mul (w3.mul (hf.1.mul hf.1)))).const_mul 2⟩
  intro i
  have := hd.mul (hb i)
  refine (this.congr_of_eventuallyEq ?_).congr_deriv ?_
  · filter_upwards [hev] with t ht
    rw [logJ_small _ ht]; rfl
  · have hu : (leftRate u Quat.identity).bar = (1 / 2 : ℝ) • u := by
      apply vec_ext <;> simp only [bar_0, bar_1, bar_2, leftRate, Quat.smul, Quat.otimes, Quat.pure, Quat.identity,
        Pi.smul_apply, smul_eq_mul] <;> ring
    rw [hb0, hw0, hu]
    simp [tpoly, sqNorm, dot, hb0]

end Verif.Props.LogDeriv
