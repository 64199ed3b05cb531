import Verif.Props.Se3Jac

/-!
C70: the Taylor branch of `DQuat::log` loses the translation along the axis, and the overload that also
returns a Jacobian enters this branch earlier than the other.
-/

namespace Verif.Props.DQuatTaylor

open Verif.Model.Lie Verif.Spec.Lie Verif.Lemmas.Lie Verif.Props.Quat Verif.Props.DQuat Verif.Props.So3
  Matrix

/-- The screw motion about the first axis with half angle `atan2(s, C)` and translation `τ` along that
axis. -/
noncomputable def screw (C s τ : ℝ) : DQuat := ⟨⟨C, s, 0, 0⟩, ⟨-τ * s / 2, τ * C / 2, 0, 0⟩⟩

theorem screw_unit {C s : ℝ} (τ : ℝ) (h : C * C + s * s = 1) :
    UnitD (screw C s τ) ∧ (screw C s τ).transforma 0 = ![τ, 0, 0] := by
  refine ⟨⟨by simp only [UnitQ, screw]; linear_combination h, by simp only [screw]; ring⟩, ?_⟩
  unfold DQuat.transforma
  rw [rota_eq, mulVec_zero, zero_add]
  apply vec_ext
  · rw [trans_0, vec_0]; simp only [screw]; linear_combination τ * h
  · rw [trans_1, vec_1]; simp only [screw]; ring
  · rw [trans_2, vec_2]; simp only [screw]; ring

theorem screw_sq (C s τ : ℝ) : sqNorm (screw C s τ).r.bar = s * s := by
  rw [sqNorm_at, bar_0, bar_1, bar_2]
  unfold screw
  ring

theorem screw_gm (C s τ : ℝ) : dot (screw C s τ).r.bar (screw C s τ).d.bar = s * (τ * C / 2) := by
  unfold dot
  rw [bar_0, bar_1, bar_2, bar_0, bar_1, bar_2]
  unfold screw
  ring

/-- Outside the Taylor branch the logarithm of a screw motion has the translation `τ`. -/
theorem screw_log {C s : ℝ} (τ : ℝ) (h : C * C + s * s = 1) (hs : 1e-8 < s * s) :
    (screw C s τ).log.v 0 = τ := by
  have h0 : s * s ≠ 0 := (lt_trans (by norm_num) hs).ne'
  have h1 : s ≠ 0 := fun h => h0 (by rw [h, zero_mul])
  unfold DQuat.log
  dsimp only
  rw [screw_sq, screw_gm, if_pos hs]
  simp only [Pi.smul_apply, Pi.add_apply, smul_eq_mul, bar_0]
  unfold screw
  dsimp only
  generalize atan2 (√(s * s)) C / √(s * s) = a
  field_simp
  linear_combination τ * h

/-- What the Taylor branch computes for it. -/
noncomputable def taylorX (C s : ℝ) : ℝ :=
  let r03 := C * C * C
  let r05 := r03 * (C * C)
  let th2 := s * s
  (1 - 1 / (3 * r03) * th2 + 1 / (5 * r05) * (th2 * th2)) * C
    + th2 * ((5 / 24 - 379 / 1920 * th2 + 46073 / 322560 * (th2 * th2)
      - 127431 / 1146880 * (th2 * th2 * th2)) * C + 1)

theorem screw_taylor {C s : ℝ} (τ : ℝ) (hs : ¬ 1e-8 < s * s) :
    (screw C s τ).log.v 0 = τ * taylorX C s := by
  unfold DQuat.log
  dsimp only
  rw [screw_sq, screw_gm, if_neg hs]
  simp only [Pi.smul_apply, Pi.add_apply, smul_eq_mul, bar_0]
  unfold screw taylorX
  dsimp only
  ring

theorem sqNorm_smul' (k : ℝ) (v : V3) : sqNorm (k • v) = k * k * sqNorm v := by
  rw [sqNorm_at, sqNorm_at]
  simp only [Pi.smul_apply, smul_eq_mul]
  ring

theorem screw_logJ {C s : ℝ} (τ : ℝ) (h : C * C + s * s = 1) (h1 : 4e-6 < s) (h2 : s ≤ 1e-3 * C) :
    (screw C s τ).logJ.v 0 = τ * taylorX C s := by
  have hp : 0 < s := lt_trans (by norm_num) h1
  have hC : 0 < C := by nlinarith
  have hn : vnorm (screw C s τ).r.bar = s := by
    rw [← sqrt_sqNorm, screw_sq, Real.sqrt_mul_self hp.le]
  obtain ⟨hc, hs, hpos, hlt⟩ := atan2_unit (n := s) (w := C) (by rw [← h]; ring) hp
  have hhalf : atan2 s C < Real.pi / 2 := by
    by_contra hge
    have := Real.cos_nonpos_of_pi_div_two_le_of_le (not_lt.mp hge) (by linarith [Real.pi_pos])
    rw [hc] at this
    linarith
  have hle : atan2 s C ≤ 1e-3 := by
    have := Real.le_tan hpos.le hhalf
    rw [Real.tan_eq_sin_div_cos, hs, hc] at this
    exact this.trans ((div_le_iff₀ hC).mpr h2)
  have hw : (screw C s τ).r.logJ = (2 * atan2 s C) • (s⁻¹ • (screw C s τ).r.bar) := by
    unfold Quat.logJ
    dsimp only
    rw [hn, if_pos h1]
    rfl
  have hsq : sqNorm (screw C s τ).r.logJ = 2 * atan2 s C * (2 * atan2 s C) := by
    rw [hw, sqNorm_smul', sqNorm_smul', screw_sq]
    field_simp
  have hb : ¬ sqNorm (screw C s τ).r.logJ > 4e-6 := by
    rw [hsq]
    intro hc
    norm_num at hle hc
    nlinarith
  unfold DQuat.logJ
  dsimp only
  rw [if_neg hb, screw_sq, screw_gm]
  simp only [Pi.smul_apply, Pi.add_apply, smul_eq_mul, bar_0]
  unfold screw taylorX
  dsimp only
  ring

/-- C70: in the Taylor branch of `DQuat::log` the translation along the axis is wrong: for a screw
motion by one Earth radius with a rotation of about 160 microradians it is off by more than 15
millimetres, although the rotation and the motion are represented exactly. -/
theorem C70_taylor_violated :
    let p := screw (624999999 / 625000001) (50000 / 625000001) 6378137
    UnitD p ∧ p.transforma 0 = ![6378137, 0, 0] ∧ 0.015 < p.log.v 0 - 6378137 := by
  intro p
  obtain ⟨h1, h2⟩ := screw_unit (C := 624999999 / 625000001) (s := 50000 / 625000001) 6378137
    (by norm_num)
  refine ⟨h1, h2, ?_⟩
  rw [screw_taylor _ (by norm_num)]
  norm_num [taylorX]

/-- C70: the two overloads of `DQuat::log` give logarithms more than one metre apart for a screw motion
by one Earth radius with a rotation of 1.6 milliradians. -/
theorem C70_overloads_violated :
    let p := screw (6249999 / 6250001) (5000 / 6250001) 6378137
    UnitD p ∧ p.log.v 0 = 6378137 ∧ 1 < p.logJ.v 0 - p.log.v 0 := by
  intro p
  have hu : (6249999 / 6250001 : ℝ) * (6249999 / 6250001) + 5000 / 6250001 * (5000 / 6250001) = 1 := by
    norm_num
  refine ⟨(screw_unit _ hu).1, screw_log _ hu (by norm_num), ?_⟩
  rw [screw_logJ _ hu (by norm_num) (by norm_num), screw_log _ hu (by norm_num)]
  norm_num [taylorX]

end Verif.Props.DQuatTaylor
