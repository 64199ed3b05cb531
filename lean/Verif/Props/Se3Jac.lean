import Verif.Props.LieJac

/-!
C71 and C72 for rigid motions: logarithm of `SE3` and the Jacobians of `SE3` and `DQuat`.
-/

namespace Verif.Props.Se3Jac

open Verif.Model.Lie Verif.Spec.Lie Verif.Lemmas.Lie Verif.Lemmas.LieDeriv Verif.Props.Quat
  Verif.Props.DQuat Verif.Props.So3 Verif.Props.LieConv Verif.Props.So3Log Verif.Props.LieJac Matrix

theorem V_eq {w : V3} (h : 0 < vnorm w) :
    rodrigues (abc w).2.1 (abc w).2.2 w = jacForm (abc w).1 (abc w).2.1 (abc w).2.2 w := by
  have hc := abc_c h
  rw [sqNorm_at] at hc
  unfold rodrigues jacForm
  apply mat_ext <;> comps <;> simp only [vmv_at]
  · linear_combination -hc
  · ring
  · ring
  · ring
  · linear_combination -hc
  · ring
  · ring
  · ring
  · linear_combination -hc

theorem exp_big6 {x : V6} (h : 4e-6 ≤ sqNorm x.w) : SE3.exp x
    = ⟨rodrigues (abc x.w).1 (abc x.w).2.1 x.w, (rodrigues (abc x.w).2.1 (abc x.w).2.2 x.w).mulVec x.v⟩ := by
  unfold SE3.exp
  dsimp only
  rw [abc_trig h]
  rfl

theorem L_apply (e : ℝ) (w t : V3) :
    t - (0.5 : ℝ) • cross w t + e • cross w (cross w t)
      = (1 - (1 / 2 : ℝ) • skew w + (e • skew w) * skew w).mulVec t := by
  apply vec_ext <;> comps <;> norm_num <;> ring

/-- C71: `exp(log(T)) = T` in `SE3` for every motion whose rotation is between `2e-3` and almost half
a turn. -/
theorem C71_se3_exp_log_partial (x : SE3) (h : IsRot x.r) (h1 : -1 + 1e-8 < SO3.tr x.r)
    (h2 : SO3.tr x.r ≤ 3 - 4e-6) : ∃ y, SE3.log x = some y ∧ SE3.exp y = x := by
  have h2' : SO3.tr x.r < 3 - 1e-8 := by norm_num at h2 ⊢; linarith
  have hR := C71_exp_log_partial x.r h h1 h2
  have hn := log_norm h h1 h2'
  obtain ⟨hc, hs, -, hp, hlt⟩ := angle_mid (t := SO3.tr x.r) (by norm_num at h1; linarith)
    (by norm_num at h2; linarith)
  have hbig : 4e-6 ≤ sqNorm (SO3.log x.r) := by
    have := Real.one_sub_sq_div_two_le_cos (x := Real.arccos ((SO3.tr x.r - 1) / 2))
    rw [hc] at this
    rw [sqNorm_eq, hn]
    norm_num at h2 ⊢
    nlinarith
  have h0 := pos_of_le hbig
  have ha : (abc (SO3.log x.r)).1 ≠ 0 := by
    unfold abc abcTrig
    dsimp only
    rw [hn]
    positivity
  have hL := (jac_inv_abc h0 ha).1
  rw [← V_eq h0] at hL
  have hVL := mul_eq_one_comm.mp hL
  have hE : SE3.logE (SO3.log x.r) = some (((abc (SO3.log x.r)).2.1 - 2 * (abc (SO3.log x.r)).2.2)
      / (2 * (abc (SO3.log x.r)).1)) := by
    have hth : ¬ vnorm (SO3.log x.r) < 1e-4 := by
      intro hc
      rw [sqNorm_eq] at hbig
      nlinarith
    unfold SE3.logE
    dsimp only
    rw [sqrt_sqNorm, if_neg hth]
    have : abcTrig (sqNorm (SO3.log x.r)) (vnorm (SO3.log x.r)) = abc (SO3.log x.r) := rfl
    rw [this, if_neg ha]
    congr 1
    field_simp
    ring
  refine ⟨_, by unfold SE3.log; dsimp only; rw [hE, Option.map_some], ?_⟩
  rw [exp_big6 hbig]
  apply SE3.ext
  · dsimp only
    exact (exp_trig hbig).symm.trans hR
  · dsimp only
    rw [L_apply, mulVec_mulVec, hVL, one_mulVec]

/-- C71: `log(exp(x)) = x` in `SE3` on the same range. -/
theorem C71_se3_log_exp_partial (x : V6) (h : 4e-6 ≤ sqNorm x.w) (h2 : vnorm x.w < Real.pi)
    (h3 : -1 + 1e-8 < 1 + 2 * Real.cos (vnorm x.w))
    (h4 : 1 + 2 * Real.cos (vnorm x.w) < 3 - 1e-8) : SE3.log (SE3.exp x) = some x := by
  have h0 := pos_of_le h
  have hsp := Real.sin_pos_of_pos_of_lt_pi h0 h2
  have hw := (C71_log_exp_partial x.w h h2 h3 h4).1
  have ha : (abc x.w).1 ≠ 0 := by
    unfold abc abcTrig
    positivity
  have hL := (jac_inv_abc h0 ha).1
  rw [← V_eq h0] at hL
  have hr : (SE3.exp x).r = SO3.exp x.w := by rw [exp_big6 h]; exact (exp_trig h).symm
  have hE : SE3.logE x.w = some (((abc x.w).2.1 - 2 * (abc x.w).2.2) / (2 * (abc x.w).1)) := by
    have hth : ¬ vnorm x.w < 1e-4 := by
      intro hc
      rw [sqNorm_eq] at h
      nlinarith
    unfold SE3.logE
    dsimp only
    rw [sqrt_sqNorm, if_neg hth]
    have : abcTrig (sqNorm x.w) (vnorm x.w) = abc x.w := rfl
    rw [this, if_neg ha]
    congr 1
    field_simp
    ring
  unfold SE3.log
  dsimp only
  rw [hr, hw, hE, Option.map_some]
  congr 1
  apply V6.ext
  · rfl
  · dsimp only
    rw [L_apply, exp_big6 h]
    dsimp only
    rw [mulVec_mulVec, hL, one_mulVec]

/-! ### The Jacobian of `SE3::exp` -/

theorem se3_identity {a b c C1 C2 : ℝ} {w : V3} (ω v : V3) (hk : a * a + b * b * sqNorm w = 2 * b)
    (hc : c * sqNorm w = 1 - a) (h1 : C1 = a * c - b * b) (h2 : C2 * sqNorm w = b - 3 * c) :
    ((dot w ω * C1) • skew w + b • skew ω + (dot w ω * C2) • (skew w * skew w)
      + c • (skew w * skew ω + skew ω * skew w) : M3).mulVec v
    = (skew ((jacForm a b c w).mulVec ω)).mulVec ((jacForm a b c w).mulVec v)
      + (SE3.dBlock (a, b, c) (C1, C2) w v).mulVec ω := by
  rw [jac_apply, jac_apply]
  rw [sqNorm_at] at hk hc h2
  unfold SE3.dBlock dot
  apply vec_ext <;> comps <;> simp only [vmv_at]
  · linear_combination (-(ω 1 * v 2 - ω 2 * v 1)) * hk - b * ((w 0 * v 0 + w 1 * v 1 + w 2 * v 2) * ω 0 - (w 0 * ω 0 + w 1 * ω 1 + w 2 * ω 2) * v 0) * hc
      - (w 0 * ω 0 + w 1 * ω 1 + w 2 * ω 2) * v 0 * h2 + ((w 0 * ω 0 + w 1 * ω 1 + w 2 * ω 2) * (w 1 * v 2 - w 2 * v 1) - (w 0 * v 0 + w 1 * v 1 + w 2 * v 2) * (w 1 * ω 2 - w 2 * ω 1)) * h1
  · linear_combination (-(ω 2 * v 0 - ω 0 * v 2)) * hk - b * ((w 0 * v 0 + w 1 * v 1 + w 2 * v 2) * ω 1 - (w 0 * ω 0 + w 1 * ω 1 + w 2 * ω 2) * v 1) * hc
      - (w 0 * ω 0 + w 1 * ω 1 + w 2 * ω 2) * v 1 * h2 + ((w 0 * ω 0 + w 1 * ω 1 + w 2 * ω 2) * (w 2 * v 0 - w 0 * v 2) - (w 0 * v 0 + w 1 * v 1 + w 2 * v 2) * (w 2 * ω 0 - w 0 * ω 2)) * h1
  · linear_combination (-(ω 0 * v 1 - ω 1 * v 0)) * hk - b * ((w 0 * v 0 + w 1 * v 1 + w 2 * v 2) * ω 2 - (w 0 * ω 0 + w 1 * ω 1 + w 2 * ω 2) * v 2) * hc
      - (w 0 * ω 0 + w 1 * ω 1 + w 2 * ω 2) * v 2 * h2 + ((w 0 * ω 0 + w 1 * ω 1 + w 2 * ω 2) * (w 0 * v 1 - w 1 * v 0) - (w 0 * v 0 + w 1 * v 1 + w 2 * v 2) * (w 0 * ω 1 - w 1 * ω 0)) * h1

/-- C72: the Jacobian of `SE3::exp` is its derivative: along every line through `x` the rotation
changes like `[θ]× R` and the translation like `[θ]× t + ρ`, where `(θ, ρ) = J δ`. -/
theorem C72_se3_exp (x δ : V6) (h : 4e-6 < sqNorm x.w) :
    let J := (SE3.expJac x).apply δ
    (∀ i j, HasDerivAt (fun t : ℝ => (SE3.exp ⟨x.w + t • δ.w, x.v + t • δ.v⟩).r i j)
      ((skew J.w * (SE3.exp x).r) i j) 0) ∧
    (∀ i, HasDerivAt (fun t : ℝ => (SE3.exp ⟨x.w + t • δ.w, x.v + t • δ.v⟩).t i)
      (((skew J.w).mulVec (SE3.exp x).t + J.v) i) 0) := by
  have h0 := pos_of_le h.le
  have hJ : (SE3.expJac x).apply δ = ⟨(jacForm (abc x.w).1 (abc x.w).2.1 (abc x.w).2.2 x.w).mulVec δ.w,
      (SE3.dBlock (abc x.w) (((abc x.w).1 - 2 * (abc x.w).2.1) / sqNorm x.w,
        ((abc x.w).2.1 - 3 * (abc x.w).2.2) / sqNorm x.w) x.w x.v).mulVec δ.w
      + (jacForm (abc x.w).1 (abc x.w).2.1 (abc x.w).2.2 x.w).mulVec δ.v⟩ := by
    unfold SE3.expJac M6.apply SE3.c12 SO3.expJac
    dsimp only
    rw [abcSo3_big h, if_neg (not_lt.mpr h.le)]
    simp only [toBlocks_fromBlocks₁₁, toBlocks_fromBlocks₁₂, toBlocks_fromBlocks₂₁,
      toBlocks_fromBlocks₂₂, zero_mulVec, add_zero]
  intro J
  have hJ' : J = _ := hJ
  clear_value J
  rw [hJ']
  dsimp only
  constructor
  · intro i j
    have d := C72_so3_exp x.w δ.w h i j
    have e2 : SO3.expJac x.w = jacForm (abc x.w).1 (abc x.w).2.1 (abc x.w).2.2 x.w := by
      unfold SO3.expJac; rw [abcSo3_big h]
    rw [e2] at d
    exact d
  · intro i
    have hV : ∀ j, _ := fun j => rodrigues_deriv (w := x.w) δ.w (b_deriv h0 δ.w) (c_deriv h0 δ.w) i j
    rw [line_zero, c1_eq h0] at hV
    have hs0 : sqNorm x.w ≠ 0 := by rw [sqNorm_eq]; positivity
    have hid := congrFun (se3_identity (C2 := ((abc x.w).2.1 - 3 * (abc x.w).2.2) / sqNorm x.w)
      δ.w x.v (abc_k h0) (abc_c h0) rfl (by field_simp)) i
    have d := ((hV 0).mul (line_deriv x.v δ.v 0)).add ((hV 1).mul (line_deriv x.v δ.v 1)) |>.add
      ((hV 2).mul (line_deriv x.v δ.v 2))
    have hfun : (fun t : ℝ => (SE3.exp ⟨x.w + t • δ.w, x.v + t • δ.v⟩).t i) =ᶠ[nhds 0]
        (fun t => rodrigues (abc (line x.w δ.w t)).2.1 (abc (line x.w δ.w t)).2.2 (line x.w δ.w t) i 0
            * line x.v δ.v t 0
          + rodrigues (abc (line x.w δ.w t)).2.1 (abc (line x.w δ.w t)).2.2 (line x.w δ.w t) i 1
            * line x.v δ.v t 1
          + rodrigues (abc (line x.w δ.w t)).2.1 (abc (line x.w δ.w t)).2.2 (line x.w δ.w t) i 2
            * line x.v δ.v t 2) := by
      filter_upwards [eventually_big (w := x.w) δ.w h] with t ht
      have e := exp_big6 (x := ⟨line x.w δ.w t, line x.v δ.v t⟩) ht.le
      have : (SE3.exp ⟨x.w + t • δ.w, x.v + t • δ.v⟩).t i
          = (SE3.exp ⟨line x.w δ.w t, line x.v δ.v t⟩).t i := rfl
      rw [this, e]
      dsimp only
      rw [mulVec_at]
    refine (d.congr_of_eventuallyEq hfun).congr_deriv ?_
    rw [exp_big6 h.le]
    dsimp only
    rw [V_eq h0, c1_eq h0]
    rw [mulVec_at] at hid
    simp only [Pi.add_apply, line_zero] at hid ⊢
    rw [mulVec_at _ δ.v, ← V_eq h0]
    rw [← V_eq h0] at hid
    linear_combination hid

/-! ### The Jacobian of `SE3::log` -/

theorem block_inv {E A D : M3} (h : E * A = 1) :
    (fromBlocks E 0 (-(E * D * E)) E : M6) * fromBlocks A 0 D A = 1 := by
  rw [fromBlocks_multiply, ← fromBlocks_one]
  congr 1
  · rw [h, Matrix.zero_mul, add_zero]
  · rw [Matrix.mul_zero, Matrix.zero_mul, add_zero]
  · rw [neg_mul, mul_assoc, h, mul_one, neg_add_cancel]
  · rw [Matrix.mul_zero, h, zero_add]

/-- C72: `SE3::log(jac)` inverts the exponential and its Jacobian is the inverse of that of the
exponential, outside the Taylor branches and up to the branch near half a turn. -/
theorem C72_se3_log_partial (x : V6) (h : 4e-6 < sqNorm x.w) (h2 : vnorm x.w < Real.pi)
    (h3 : -1 + 1e-8 < 1 + 2 * Real.cos (vnorm x.w))
    (h4 : 1 + 2 * Real.cos (vnorm x.w) < 3 - 1e-8) :
    ∃ L, SE3.logWithJac (SE3.exp x) = some (x, L) ∧ L * SE3.expJac x = 1 := by
  have h0 := pos_of_le h.le
  have hsp := Real.sin_pos_of_pos_of_lt_pi h0 h2
  obtain ⟨E, hE, hEA⟩ := C72_so3_log_partial x.w h h2 h3 h4
  have hw := (C71_log_exp_partial x.w h.le h2 h3 h4).2
  have ha : (abc x.w).1 ≠ 0 := by
    unfold abc abcTrig
    positivity
  have hr : (SE3.exp x).r = SO3.exp x.w := by rw [exp_big6 h.le]; exact (exp_trig h.le).symm
  have hL := (jac_inv_abc h0 ha).1
  rw [← V_eq h0] at hL
  have hth : ¬ vnorm x.w < 1e-4 := by
    intro hc
    rw [sqNorm_eq] at h
    nlinarith
  have hv : (SE3.exp x).t - (0.5 : ℝ) • cross x.w (SE3.exp x).t
      + (((abc x.w).2.1 * 0.5 - (abc x.w).2.2) / (abc x.w).1) • cross x.w (cross x.w (SE3.exp x).t)
      = x.v := by
    have : ((abc x.w).2.1 * 0.5 - (abc x.w).2.2) / (abc x.w).1
        = ((abc x.w).2.1 - 2 * (abc x.w).2.2) / (2 * (abc x.w).1) := by field_simp; ring
    rw [this, L_apply, exp_big6 h.le]
    dsimp only
    rw [mulVec_mulVec, hL, one_mulVec]
  have hJ : SE3.expJac x = fromBlocks (SO3.expJac x.w) 0
      (SE3.dBlock (abc x.w) (((abc x.w).1 - 2 * (abc x.w).2.1) / sqNorm x.w,
        ((abc x.w).2.1 - 3 * (abc x.w).2.2) / sqNorm x.w) x.w x.v) (SO3.expJac x.w) := by
    unfold SE3.expJac SE3.c12
    dsimp only
    rw [abcSo3_big h, if_neg (not_lt.mpr h.le)]
  have hk : abcTrig (sqNorm x.w) (vnorm x.w) = abc x.w := rfl
  refine ⟨_, ?_, hJ ▸ block_inv hEA⟩
  unfold SE3.logWithJac
  dsimp only
  rw [hr, hw, sqrt_sqNorm, hk, if_neg (not_or.mpr ⟨hth, ha⟩), hE, Option.map_some, hv]

/-! ### Dual quaternions -/

theorem dq_identity {a b c C s g C1 C2 g2 : ℝ} {w : V3} (ω v ν : V3)
    (h1 : C * C + s * s * sqNorm w = 1) (ha : a = 2 * s * C) (hb : b = 2 * s * s)
    (hc : c * sqNorm w = 1 - a) (hg : g * sqNorm w = 1 / 2 * C - s)
    (hC1 : C1 * sqNorm w = a - 2 * b) (hC2 : C2 * sqNorm w = b - 3 * c)
    (hg2 : g2 * sqNorm w = -(1 / 4) * s - 3 * g) (h0 : sqNorm w ≠ 0) :
    let gm := dot w v
    let gm' := dot ω v + dot w ν
    let d : Quat := ⟨-gm / 2 * s, gm * g * w 0 + s * v 0, gm * g * w 1 + s * v 1, gm * g * w 2 + s * v 2⟩
    let d' : Quat := ⟨-gm' / 2 * s + -gm / 2 * (dot w ω * g),
      (gm' * g + gm * (dot w ω * g2)) * w 0 + gm * g * ω 0 + (dot w ω * g * v 0 + s * ν 0),
      (gm' * g + gm * (dot w ω * g2)) * w 1 + gm * g * ω 1 + (dot w ω * g * v 1 + s * ν 1),
      (gm' * g + gm * (dot w ω * g2)) * w 2 + gm * g * ω 2 + (dot w ω * g * v 2 + s * ν 2)⟩
    let q : Quat := ⟨C, s * w 0, s * w 1, s * w 2⟩
    d' = (leftRate ((jacForm a b c w).mulVec ω) d).add
        (leftRate ((SE3.dBlock (a, b, c) (C1, C2) w v).mulVec ω + (jacForm a b c w).mulVec ν) q) ∧
    d' = (rightRate d ((jacForm a (-b) c w).mulVec ω)).add
        (rightRate q ((-b • skew v + c • (vecMulVec w v + vecMulVec v w)
          + dot w v • ((c - b) • 1 - C1 • skew w + C2 • vecMulVec w w) : M3).mulVec ω
          + (jacForm a (-b) c w).mulVec ν)) := by
  have hG : g = 1 / 2 * (C * c - s * b) := by
    apply mul_right_cancel₀ h0
    rw [hg]
    rw [ha] at hc
    rw [hb]
    linear_combination s * h1 - 1 / 2 * C * hc
  have hD1 : C1 = a * c - b * b := by
    apply mul_right_cancel₀ h0
    rw [hC1]
    subst ha hb
    linear_combination 4 * s * s * h1 - 2 * s * C * hc
  subst ha hb
  have I1 : -(1 / 2) * s * (2 * s * C) + g * (2 * s * s) * sqNorm w + 2 * s * (2 * s * s)
      + C * (c - 2 * s * s) + s * C1 * sqNorm w = 2 * g := by
    linear_combination 2 * s * s * hg + s * hC1 - 2 * hG
  have I2 : -(1 / 2) * s * (2 * s * s) - 2 * s * C * g + C * C1 - s * (c - 2 * s * s) = 0 := by
    linear_combination -2 * s * C * hG + C * hD1 + s * c * h1 - s * s * s * hc
  have I3 : -(1 / 2) * s * c - g * (2 * s * s) + C * C2 - s * C1 = 2 * g2 := by
    apply mul_right_cancel₀ h0
    linear_combination -(1 / 2) * s * hc - 2 * s * s * hg + C * hC2 - s * hC1 - 2 * hg2 + 6 * hG
  intro gm gm' d d' q
  simp only [gm, gm', d, d', q]
  rw [jac_apply, jac_apply, jac_apply, jac_apply]
  rw [sqNorm_at] at h1 hc hC2 I1
  unfold SE3.dBlock
  constructor
  · ext <;> simp only [Quat.add, leftRate, Quat.smul, Quat.pure, Quat.otimes, dot] <;> comps <;> simp only [vmv_at]
    · linear_combination (1 / 2 * (s * ((ω 0 * v 0 + ω 1 * v 1 + ω 2 * v 2) + (w 0 * ν 0 + w 1 * ν 1 + w 2 * ν 2)) + (w 0 * v 0 + w 1 * v 1 + w 2 * v 2) * (w 0 * ω 0 + w 1 * ω 1 + w 2 * ω 2) * g)) * hc + (1 / 2 * (w 0 * v 0 + w 1 * v 1 + w 2 * v 2) * (w 0 * ω 0 + w 1 * ω 1 + w 2 * ω 2) * s) * hC2
    · linear_combination ((ω 0 * v 0 + ω 1 * v 1 + ω 2 * v 2) * w 0 + (w 0 * ω 0 + w 1 * ω 1 + w 2 * ω 2) * v 0 + (w 0 * ν 0 + w 1 * ν 1 + w 2 * ν 2) * w 0) * hG
        - (1 / 2 * (w 0 * v 0 + w 1 * v 1 + w 2 * v 2) * (w 0 * ω 0 + w 1 * ω 1 + w 2 * ω 2) * w 0) * I3 - (1 / 2 * (w 0 * v 0 + w 1 * v 1 + w 2 * v 2) * ω 0) * I1
        - (1 / 2 * (w 0 * v 0 + w 1 * v 1 + w 2 * v 2) * (w 1 * ω 2 - w 2 * ω 1)) * I2 - s * ν 0 * h1
    · linear_combination ((ω 0 * v 0 + ω 1 * v 1 + ω 2 * v 2) * w 1 + (w 0 * ω 0 + w 1 * ω 1 + w 2 * ω 2) * v 1 + (w 0 * ν 0 + w 1 * ν 1 + w 2 * ν 2) * w 1) * hG
        - (1 / 2 * (w 0 * v 0 + w 1 * v 1 + w 2 * v 2) * (w 0 * ω 0 + w 1 * ω 1 + w 2 * ω 2) * w 1) * I3 - (1 / 2 * (w 0 * v 0 + w 1 * v 1 + w 2 * v 2) * ω 1) * I1
        - (1 / 2 * (w 0 * v 0 + w 1 * v 1 + w 2 * v 2) * (w 2 * ω 0 - w 0 * ω 2)) * I2 - s * ν 1 * h1
    · linear_combination ((ω 0 * v 0 + ω 1 * v 1 + ω 2 * v 2) * w 2 + (w 0 * ω 0 + w 1 * ω 1 + w 2 * ω 2) * v 2 + (w 0 * ν 0 + w 1 * ν 1 + w 2 * ν 2) * w 2) * hG
        - (1 / 2 * (w 0 * v 0 + w 1 * v 1 + w 2 * v 2) * (w 0 * ω 0 + w 1 * ω 1 + w 2 * ω 2) * w 2) * I3 - (1 / 2 * (w 0 * v 0 + w 1 * v 1 + w 2 * v 2) * ω 2) * I1
        - (1 / 2 * (w 0 * v 0 + w 1 * v 1 + w 2 * v 2) * (w 0 * ω 1 - w 1 * ω 0)) * I2 - s * ν 2 * h1
  · ext <;> simp only [Quat.add, rightRate, Quat.smul, Quat.pure, Quat.otimes, dot] <;> comps <;> simp only [vmv_at]
    · linear_combination (1 / 2 * (s * ((ω 0 * v 0 + ω 1 * v 1 + ω 2 * v 2) + (w 0 * ν 0 + w 1 * ν 1 + w 2 * ν 2)) + (w 0 * v 0 + w 1 * v 1 + w 2 * v 2) * (w 0 * ω 0 + w 1 * ω 1 + w 2 * ω 2) * g)) * hc + (1 / 2 * (w 0 * v 0 + w 1 * v 1 + w 2 * v 2) * (w 0 * ω 0 + w 1 * ω 1 + w 2 * ω 2) * s) * hC2
    · linear_combination ((ω 0 * v 0 + ω 1 * v 1 + ω 2 * v 2) * w 0 + (w 0 * ω 0 + w 1 * ω 1 + w 2 * ω 2) * v 0 + (w 0 * ν 0 + w 1 * ν 1 + w 2 * ν 2) * w 0) * hG
        - (1 / 2 * (w 0 * v 0 + w 1 * v 1 + w 2 * v 2) * (w 0 * ω 0 + w 1 * ω 1 + w 2 * ω 2) * w 0) * I3 - (1 / 2 * (w 0 * v 0 + w 1 * v 1 + w 2 * v 2) * ω 0) * I1
        + (1 / 2 * (w 0 * v 0 + w 1 * v 1 + w 2 * v 2) * (w 1 * ω 2 - w 2 * ω 1)) * I2 - s * ν 0 * h1
    · linear_combination ((ω 0 * v 0 + ω 1 * v 1 + ω 2 * v 2) * w 1 + (w 0 * ω 0 + w 1 * ω 1 + w 2 * ω 2) * v 1 + (w 0 * ν 0 + w 1 * ν 1 + w 2 * ν 2) * w 1) * hG
        - (1 / 2 * (w 0 * v 0 + w 1 * v 1 + w 2 * v 2) * (w 0 * ω 0 + w 1 * ω 1 + w 2 * ω 2) * w 1) * I3 - (1 / 2 * (w 0 * v 0 + w 1 * v 1 + w 2 * v 2) * ω 1) * I1
        + (1 / 2 * (w 0 * v 0 + w 1 * v 1 + w 2 * v 2) * (w 2 * ω 0 - w 0 * ω 2)) * I2 - s * ν 1 * h1
    · linear_combination ((ω 0 * v 0 + ω 1 * v 1 + ω 2 * v 2) * w 2 + (w 0 * ω 0 + w 1 * ω 1 + w 2 * ω 2) * v 2 + (w 0 * ν 0 + w 1 * ν 1 + w 2 * ν 2) * w 2) * hG
        - (1 / 2 * (w 0 * v 0 + w 1 * v 1 + w 2 * v 2) * (w 0 * ω 0 + w 1 * ω 1 + w 2 * ω 2) * w 2) * I3 - (1 / 2 * (w 0 * v 0 + w 1 * v 1 + w 2 * v 2) * ω 2) * I1
        + (1 / 2 * (w 0 * v 0 + w 1 * v 1 + w 2 * v 2) * (w 0 * ω 1 - w 1 * ω 0)) * I2 - s * ν 2 * h1

/-- The coefficient of the dual part of `DQuat::exp`. -/
noncomputable def gamma (w : V3) : ℝ := (1 / 2 * (half2 w).1 - (half2 w).2) / sqNorm w

theorem gamma_deriv {w : V3} (h : 0 < vnorm w) (δ : V3) :
    HasDerivAt (fun t => gamma (line w δ t))
      (dot w δ * ((-(1 / 4) * (half2 w).2 - 3 * gamma w) / sqNorm w)) 0 := by
  have hs0 : sqNorm w ≠ 0 := by rw [sqNorm_eq]; positivity
  have d := (((C_deriv h δ).const_mul (1 / 2)).sub (s_deriv h δ)).div (sqNorm_deriv w δ)
    (by rw [line_zero]; exact hs0)
  refine d.congr_deriv ?_
  simp only [line_zero, Pi.sub_apply, Pi.mul_apply]
  unfold gamma
  field_simp
  ring

theorem dexp_big {x : V6} (h : 4e-6 < sqNorm x.w) : DQuat.exp x
    = ⟨⟨(half2 x.w).1, (half2 x.w).2 * x.w 0, (half2 x.w).2 * x.w 1, (half2 x.w).2 * x.w 2⟩,
       ⟨-dot x.w x.v / 2 * (half2 x.w).2,
        dot x.w x.v * gamma x.w * x.w 0 + (half2 x.w).2 * x.v 0,
        dot x.w x.v * gamma x.w * x.w 1 + (half2 x.w).2 * x.v 1,
        dot x.w x.v * gamma x.w * x.w 2 + (half2 x.w).2 * x.v 2⟩⟩ := by
  have h5 : (0.5 : ℝ) = 1 / 2 := by norm_num
  unfold DQuat.exp DQuat.expCoeffs gamma half2
  simp only [gt_iff_lt, h, if_true, sqrt_sqNorm, h5]

/-- The rate of a dual quaternion moving with the twist `(θ, ρ)` acting from the left. -/
noncomputable def dleftRate (u : V6) (p : DQuat) : DQuat :=
  ⟨leftRate u.w p.r, (leftRate u.w p.d).add (leftRate u.v p.r)⟩

/-- The same from the right. -/
noncomputable def drightRate (p : DQuat) (u : V6) : DQuat :=
  ⟨rightRate p.r u.w, (rightRate p.d u.w).add (rightRate p.r u.v)⟩

theorem line_dot_deriv (x δ : V6) : HasDerivAt (fun t => dot (line x.w δ.w t) (line x.v δ.v t))
    (dot δ.w x.v + dot x.w δ.v) 0 := by
  have d := (((line_deriv x.w δ.w 0).mul (line_deriv x.v δ.v 0)).add
    ((line_deriv x.w δ.w 1).mul (line_deriv x.v δ.v 1))).add
    ((line_deriv x.w δ.w 2).mul (line_deriv x.v δ.v 2))
  refine d.congr_deriv ?_
  simp only [line_zero, dot]
  ring

theorem long_of_sq {w : V3} (h : 4e-6 < sqNorm w) : 4e-6 < vnorm w := by
  have hn := Quat.norm_nonneg w
  rw [sqNorm_eq] at h
  by_contra hc
  norm_num at h hc
  nlinarith

theorem abcDQuat_big {w : V3} (h : 4e-6 < sqNorm w) : abcDQuat w = abc w := by
  unfold abcDQuat
  simp only [gt_iff_lt, h, if_true, sqrt_sqNorm]
  rfl

/-- The lower left block of the right Jacobian. -/
noncomputable def dRight (x : V6) : M3 :=
  -(abc x.w).2.1 • skew x.v + (abc x.w).2.2 • (vecMulVec x.w x.v + vecMulVec x.v x.w)
    + dot x.w x.v • (((abc x.w).2.2 - (abc x.w).2.1) • 1
      - (((abc x.w).1 - 2 * (abc x.w).2.1) / sqNorm x.w) • skew x.w
      + (((abc x.w).2.1 - 3 * (abc x.w).2.2) / sqNorm x.w) • vecMulVec x.w x.w)

theorem djac_left {x : V6} (h : 4e-6 < sqNorm x.w) : DQuat.expJac .left x = fromBlocks
    (jacForm (abc x.w).1 (abc x.w).2.1 (abc x.w).2.2 x.w) 0
    (SE3.dBlock (abc x.w) (((abc x.w).1 - 2 * (abc x.w).2.1) / sqNorm x.w,
        ((abc x.w).2.1 - 3 * (abc x.w).2.2) / sqNorm x.w) x.w x.v)
    (jacForm (abc x.w).1 (abc x.w).2.1 (abc x.w).2.2 x.w) := by
  unfold DQuat.expJac Quat.expJac SE3.c12 jacForm
  dsimp only
  rw [abcDQuat_big h, abcQuat_big (long_of_sq h), if_neg (not_not.mpr h)]

theorem djac_right {x : V6} (h : 4e-6 < sqNorm x.w) : DQuat.expJac .right x = fromBlocks
    (jacForm (abc x.w).1 (-(abc x.w).2.1) (abc x.w).2.2 x.w) 0 (dRight x)
    (jacForm (abc x.w).1 (-(abc x.w).2.1) (abc x.w).2.2 x.w) := by
  unfold DQuat.expJac Quat.expJac SE3.c12 jacForm dRight
  dsimp only
  rw [abcDQuat_big h, abcQuat_big (long_of_sq h), if_neg (not_not.mpr h),
    sub_eq_add_neg _ ((abc x.w).2.1 • skew x.w), ← neg_smul]

theorem hasQuatDeriv_congr {f g : ℝ → Quat} {d : Quat} (hf : HasQuatDeriv f d)
    (h : ∀ᶠ t in nhds (0 : ℝ), g t = f t) : HasQuatDeriv g d :=
  ⟨hf.1.congr_of_eventuallyEq (h.mono fun _ e => congrArg Quat.w e),
   hf.2.1.congr_of_eventuallyEq (h.mono fun _ e => congrArg Quat.x e),
   hf.2.2.1.congr_of_eventuallyEq (h.mono fun _ e => congrArg Quat.y e),
   hf.2.2.2.congr_of_eventuallyEq (h.mono fun _ e => congrArg Quat.z e)⟩

theorem dual_deriv {x : V6} (δ : V6) (h : 4e-6 < sqNorm x.w) (h0 : 0 < vnorm x.w) :
    HasQuatDeriv (fun t => (DQuat.exp ⟨x.w + t • δ.w, x.v + t • δ.v⟩).d)
    (let gm := dot x.w x.v
    let gm' := dot δ.w x.v + dot x.w δ.v
    let g := gamma x.w
    let g2 := (-(1 / 4) * (half2 x.w).2 - 3 * gamma x.w) / sqNorm x.w
    let s := (half2 x.w).2
    ⟨-gm' / 2 * s + -gm / 2 * (dot x.w δ.w * g),
      (gm' * g + gm * (dot x.w δ.w * g2)) * x.w 0 + gm * g * δ.w 0 + (dot x.w δ.w * g * x.v 0 + s * δ.v 0),
      (gm' * g + gm * (dot x.w δ.w * g2)) * x.w 1 + gm * g * δ.w 1 + (dot x.w δ.w * g * x.v 1 + s * δ.v 1),
      (gm' * g + gm * (dot x.w δ.w * g2)) * x.w 2 + gm * g * δ.w 2 + (dot x.w δ.w * g * x.v 2 + s * δ.v 2)⟩) := by
  have hev := eventually_big (w := x.w) δ.w h
  have hS := s_deriv h0 δ.w
  have hG := gamma_deriv h0 δ.w
  have hM := line_dot_deriv x δ
  have comp : ∀ k : Fin 3, HasDerivAt (fun t => dot (line x.w δ.w t) (line x.v δ.v t)
      * gamma (line x.w δ.w t) * line x.w δ.w t k + (half2 (line x.w δ.w t)).2 * line x.v δ.v t k)
      (((dot δ.w x.v + dot x.w δ.v) * gamma x.w + dot x.w x.v * (dot x.w δ.w
        * ((-(1 / 4) * (half2 x.w).2 - 3 * gamma x.w) / sqNorm x.w))) * x.w k
        + dot x.w x.v * gamma x.w * δ.w k + (dot x.w δ.w * gamma x.w * x.v k
        + (half2 x.w).2 * δ.v k)) 0 := by
    intro k
    have d := ((hM.mul hG).mul (line_deriv x.w δ.w k)).add (hS.mul (line_deriv x.v δ.v k))
    simp only [Pi.mul_apply, line_zero] at d
    exact d
  have hsc : HasDerivAt (fun t => -dot (line x.w δ.w t) (line x.v δ.v t) / 2
      * (half2 (line x.w δ.w t)).2) (-(dot δ.w x.v + dot x.w δ.v) / 2 * (half2 x.w).2
        + -dot x.w x.v / 2 * (dot x.w δ.w * gamma x.w)) 0 := by
    have d := (hM.neg.div_const 2).mul hS
    simp only [Pi.neg_apply, line_zero] at d
    exact d
  refine ⟨hsc.congr_of_eventuallyEq ?_, (comp 0).congr_of_eventuallyEq ?_,
    (comp 1).congr_of_eventuallyEq ?_, (comp 2).congr_of_eventuallyEq ?_⟩
  · filter_upwards [hev] with t ht
    exact congrArg (fun p : DQuat => p.d.w) (dexp_big (x := ⟨line x.w δ.w t, line x.v δ.v t⟩) ht)
  · filter_upwards [hev] with t ht
    exact congrArg (fun p : DQuat => p.d.x) (dexp_big (x := ⟨line x.w δ.w t, line x.v δ.v t⟩) ht)
  · filter_upwards [hev] with t ht
    exact congrArg (fun p : DQuat => p.d.y) (dexp_big (x := ⟨line x.w δ.w t, line x.v δ.v t⟩) ht)
  · filter_upwards [hev] with t ht
    exact congrArg (fun p : DQuat => p.d.z) (dexp_big (x := ⟨line x.w δ.w t, line x.v δ.v t⟩) ht)

/-- C72: the Jacobians of `DQuat::exp` are its derivatives: along every line through `x` the dual
quaternion changes like `½ (J_left δ) p` and like `½ p (J_right δ)`. -/
theorem C72_dquat_exp (x δ : V6) (h : 4e-6 < sqNorm x.w) :
    (HasQuatDeriv (fun t => (DQuat.exp ⟨x.w + t • δ.w, x.v + t • δ.v⟩).r)
      (dleftRate ((DQuat.expJac .left x).apply δ) (DQuat.exp x)).r ∧
    HasQuatDeriv (fun t => (DQuat.exp ⟨x.w + t • δ.w, x.v + t • δ.v⟩).d)
      (dleftRate ((DQuat.expJac .left x).apply δ) (DQuat.exp x)).d) ∧
    (HasQuatDeriv (fun t => (DQuat.exp ⟨x.w + t • δ.w, x.v + t • δ.v⟩).r)
      (drightRate (DQuat.exp x) ((DQuat.expJac .right x).apply δ)).r ∧
    HasQuatDeriv (fun t => (DQuat.exp ⟨x.w + t • δ.w, x.v + t • δ.v⟩).d)
      (drightRate (DQuat.exp x) ((DQuat.expJac .right x).apply δ)).d) := by
  have hl := long_of_sq h
  have h0 : 0 < vnorm x.w := lt_trans (by norm_num) hl
  have hs0 : sqNorm x.w ≠ 0 := by rw [sqNorm_eq]; positivity
  obtain ⟨r1, r2, r3⟩ := half_rel h0
  have hev := eventually_big (w := x.w) δ.w h
  have hr : (DQuat.exp x).r = Quat.exp x.w := by rw [dexp_big h, exp_half2 hl]
  obtain ⟨q1, q2⟩ := C72_quat_exp x.w δ.w hl
  have el : Quat.expJac .left x.w = jacForm (abc x.w).1 (abc x.w).2.1 (abc x.w).2.2 x.w := by
    unfold Quat.expJac jacForm
    rw [abcQuat_big hl]
  have er : Quat.expJac .right x.w = jacForm (abc x.w).1 (-(abc x.w).2.1) (abc x.w).2.2 x.w := by
    unfold Quat.expJac jacForm
    rw [abcQuat_big hl, neg_smul, ← sub_eq_add_neg]
  have al : (DQuat.expJac .left x).apply δ = ⟨(jacForm (abc x.w).1 (abc x.w).2.1 (abc x.w).2.2 x.w).mulVec δ.w,
      (SE3.dBlock (abc x.w) (((abc x.w).1 - 2 * (abc x.w).2.1) / sqNorm x.w,
        ((abc x.w).2.1 - 3 * (abc x.w).2.2) / sqNorm x.w) x.w x.v).mulVec δ.w
      + (jacForm (abc x.w).1 (abc x.w).2.1 (abc x.w).2.2 x.w).mulVec δ.v⟩ := by
    rw [djac_left h]
    unfold M6.apply
    simp only [toBlocks_fromBlocks₁₁, toBlocks_fromBlocks₁₂, toBlocks_fromBlocks₂₁,
      toBlocks_fromBlocks₂₂, zero_mulVec, add_zero]
  have ar : (DQuat.expJac .right x).apply δ
      = ⟨(jacForm (abc x.w).1 (-(abc x.w).2.1) (abc x.w).2.2 x.w).mulVec δ.w,
      (dRight x).mulVec δ.w
      + (jacForm (abc x.w).1 (-(abc x.w).2.1) (abc x.w).2.2 x.w).mulVec δ.v⟩ := by
    rw [djac_right h]
    unfold M6.apply
    simp only [toBlocks_fromBlocks₁₁, toBlocks_fromBlocks₁₂, toBlocks_fromBlocks₂₁,
      toBlocks_fromBlocks₂₂, zero_mulVec, add_zero]
  obtain ⟨i1, i2⟩ := dq_identity (g := gamma x.w)
    (C1 := ((abc x.w).1 - 2 * (abc x.w).2.1) / sqNorm x.w)
    (C2 := ((abc x.w).2.1 - 3 * (abc x.w).2.2) / sqNorm x.w)
    (g2 := (-(1 / 4) * (half2 x.w).2 - 3 * gamma x.w) / sqNorm x.w)
    δ.w x.v δ.v r1 r2 r3 (abc_c h0) (by unfold gamma; field_simp) (by field_simp) (by field_simp)
    (by field_simp) hs0
  have dl := dual_deriv δ h h0
  have hrr : ∀ᶠ t in nhds (0 : ℝ), (DQuat.exp ⟨x.w + t • δ.w, x.v + t • δ.v⟩).r
      = Quat.exp (x.w + t • δ.w) := by
    filter_upwards [hev] with t ht
    have e1 := dexp_big (x := ⟨line x.w δ.w t, line x.v δ.v t⟩) ht
    exact (congrArg DQuat.r e1).trans (exp_half2 (long_of_sq ht)).symm
  rw [el] at q1
  rw [er] at q2
  refine ⟨⟨?_, ?_⟩, ?_, ?_⟩
  · unfold dleftRate
    dsimp only
    rw [al, hr]
    exact hasQuatDeriv_congr q1 hrr
  · unfold dleftRate
    dsimp only
    rw [al, dexp_big h]
    dsimp only at i1 ⊢
    rw [← i1]
    exact dl
  · unfold drightRate
    dsimp only
    rw [ar, hr]
    exact hasQuatDeriv_congr q2 hrr
  · unfold drightRate
    dsimp only
    rw [ar, dexp_big h]
    unfold dRight
    dsimp only at i2 ⊢
    rw [← i2]
    exact dl

/-- C72: the Jacobians of `DQuat::log` are inverse to those of `DQuat::exp` at the vector returned, on
both sides, for every dual quaternion with a unit rotation part outside the Taylor branches that is not
half a turn. -/
theorem C72_dquat_log_partial (p : DQuat) (hq : UnitQ p.r) (h : 4e-6 < vnorm p.r.bar)
    (hw : p.r.w ≠ 0) (side : Side) :
    ∃ L, DQuat.logJac side p = some L ∧ L * DQuat.expJac side p.logJ = 1 := by
  have hJ : p.r.logJ = p.r.log := C67_overloads_partial p.r h
  have hx : p.logJ.w = p.r.log := by
    rw [← hJ]
    unfold DQuat.logJ
    dsimp only
    split_ifs <;> rfl
  obtain ⟨⟨L, e1, e2⟩, ⟨R, e3, e4⟩⟩ := C72_quat_log_partial p.r hq h hw
  cases side
  · refine ⟨_, by unfold DQuat.logJac; dsimp only; rw [e1, Option.map_some], ?_⟩
    unfold DQuat.expJac
    dsimp only
    exact block_inv (hx ▸ e2)
  · refine ⟨_, by unfold DQuat.logJac; dsimp only; rw [e3, Option.map_some], ?_⟩
    unfold DQuat.expJac
    dsimp only
    exact block_inv (hx ▸ e4)

/-- C72: at half a turn the Jacobian of `DQuat::log` is `0/0`. -/
theorem C72_dquat_half_turn_violated (p : DQuat) (hq : UnitQ p.r) (hw : p.r.w = 0) (side : Side) :
    DQuat.logJac side p = none := by
  unfold DQuat.logJac
  dsimp only
  rw [C72_quat_half_turn_violated p.r hq hw side, Option.map_none]

example : UnitQ ⟨3 / 5, 4 / 5, 0, 0⟩ ∧ (4e-6 : ℝ) < 4 / 5 ∧ (3 / 5 : ℝ) ≠ 0 := by
  norm_num [UnitQ]

end Verif.Props.Se3Jac
