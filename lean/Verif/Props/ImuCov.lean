import Verif.Props.ImuRun

/-!
C81-C83, C85: linearisation and covariance of the preintegration, its accuracy, its derivative with respect to the
bias, and the information matrix.
-/

namespace Verif.Props.ImuCov

open Verif.Model.Lie Verif.Model.Imu Verif.Lemmas.Lie Verif.Lemmas.LieDeriv Verif.Lemmas.LieCurve
  Verif.Props.Quat Verif.Props.DQuat Verif.Props.So3 Verif.Props.LieJac Verif.Props.Se3Jac Verif.Props.EkfModels
  Verif.Props.LogDeriv Verif.Props.Imu Verif.Props.ImuJac Verif.Props.ImuRun Verif.Props.Ekf Matrix

theorem ofVec_toVec (e : IErr) : IErr.ofVec e.toVec = e := rfl
theorem toVec_ofVec (v : I9 → ℝ) : (IErr.ofVec v).toVec = v := by
  ext ⟨i, j⟩; fin_cases i <;> rfl

/-! ### C81 -/

theorem dynA_apply (b : Bias) (s : IState) (a w : V3) (d : IErr) :
    IErr.ofVec ((dynA b s a w).mulVec d.toVec) =
      ⟨d.beta, -s.gamma.rota (cross (a - b.accel) d.gamma), -cross (w - b.gyro) d.gamma⟩ := by
  unfold IErr.ofVec dynA
  rw [block9, block9, block9]
  simp only [Matrix.cons_val, zero_mulVec, neg_mulVec, one_mulVec, add_zero, zero_add]
  rw [rota_eq, ← mulVec_mulVec, skew_mulVec, skew_mulVec]
  rfl

/-- **C81**: `errorStateDynamics` is the linear map given by the two matrices `dynamics` reports. -/
theorem C81_error_dynamics (b : Bias) (s : IState) (d : IErr) (a w : V3) (n : Bias) :
    (errorStateDynamics b s d a w n).toVec = (dynA b s a w).mulVec d.toVec + (dynB s).mulVec n.toVec := by
  have h : errorStateDynamics b s d a w n
      = IErr.ofVec ((dynA b s a w).mulVec d.toVec + (dynB s).mulVec n.toVec) := by
    have e1 := dynA_apply b s a w d
    have e2 := dynB_apply s n
    have e3 : ∀ u v : I9 → ℝ, IErr.ofVec (u + v) = ⟨(IErr.ofVec u).alpha + (IErr.ofVec v).alpha,
      (IErr.ofVec u).beta + (IErr.ofVec v).beta, (IErr.ofVec u).gamma + (IErr.ofVec v).gamma⟩ := fun _ _ => rfl
    rw [e3, e1, e2]
    unfold errorStateDynamics
    rw [rota_add', ← rota_eq]
    congr 1
    · exact (add_zero _).symm
    · rw [neg_add]
  rw [h, toVec_ofVec]

/-- The rate of the rotation error `e = γ⁻¹ ⊗ γ'` of two rotations turned at the same rate `ω`. -/
noncomputable def errorRate (ω : V3) (e : Quat) : Quat := (rightRate e ω).add (Quat.smul (-1) (leftRate ω e))

/-- Two rotations turned at the same rate: this is how their difference moves. -/
theorem errorRate_eq (p q : ℝ → Quat) (ω : V3) (h1 : HasQuatDeriv p (rightRate (p 0) ω))
    (h2 : HasQuatDeriv q (rightRate (q 0) ω)) :
    HasQuatDeriv (fun t => (p t).inverse.otimes (q t)) (errorRate ω ((p 0).inverse.otimes (q 0))) := by
  refine qd_congr (otimes_deriv (inverse_deriv h1) h2) ?_
  rw [rightRate_inverse, leftRate_otimes, otimes_rightRate]
  unfold errorRate
  ext <;> simp only [Quat.add, Quat.smul, leftRate, rightRate, Quat.otimes, Quat.pure, Pi.neg_apply, Quat.inverse] <;>
    ring

/-- **C81**: the matrices of `dynamics` are its linearisation.  For a state disturbed by `t d` the rates of position
and velocity change by `t` times the first two rows of `A d`, the rate of the rotation error by `t` times the third
(as half its quaternion), and a disturbance of the bias changes the rates by exactly `B n`. -/
theorem C81_linearisation (b : Bias) (s : IState) (d : IErr) (a w : V3) (n : Bias) (hs : UnitQ s.gamma) :
    HasVecDeriv (fun t => (dynamics b (s.plus (d.scale t)) a w).alpha)
      (IErr.ofVec ((dynA b s a w).mulVec d.toVec)).alpha ∧
    HasVecDeriv (fun t => (dynamics b (s.plus (d.scale t)) a w).beta)
      (IErr.ofVec ((dynA b s a w).mulVec d.toVec)).beta ∧
    HasQuatDeriv (fun t => errorRate (dynamics b s a w).gamma (Quat.exp (t • d.gamma)))
      (Quat.smul (1 / 2) (Quat.pure (IErr.ofVec ((dynA b s a w).mulVec d.toVec)).gamma)) ∧
    (dynamics ⟨b.accel + n.accel, b.gyro + n.gyro⟩ s a w).toVec
      = (dynamics b s a w).toVec + (dynB s).mulVec n.toVec := by
  rw [dynA_apply]
  have he : HasQuatDeriv (fun t => Quat.exp (t • d.gamma)) (Quat.smul (1 / 2) (Quat.pure d.gamma)) := by
    have h := exp_line 0 d.gamma (Or.inl rfl)
    rw [exp_zero3, expJac_zero, transpose_one, one_mulVec] at h
    simp only [zero_add] at h
    refine qd_congr h ?_
    unfold rightRate
    rw [id_otimes]
  refine ⟨vline s.beta d.beta, ?_, ?_, ?_⟩
  · have hγ := otimes_deriv (const_deriv s.gamma) he
    rw [zero_add_q] at hγ
    have h0 : s.gamma.otimes (Quat.exp ((0 : ℝ) • d.gamma)) = s.gamma := by rw [zero_smul, exp_zero3, otimes_id]
    have hγ' : HasQuatDeriv (fun t => s.gamma.otimes (Quat.exp (t • d.gamma))) (rightRate s.gamma d.gamma) := by
      refine qd_congr hγ ?_
      ext <;> simp only [rightRate, Quat.smul, Quat.otimes, Quat.pure] <;> ring
    have h1 := rota_deriv hγ' (vconst (a - b.accel))
    refine h1.congr ?_
    show (dR (s.gamma.otimes (Quat.exp ((0 : ℝ) • d.gamma))) _)ᵀ.mulVec _ + _ = _
    have hz : (s.gamma.otimes (Quat.exp ((0 : ℝ) • d.gamma))).rota 0 = 0 := by rw [rota_eq, mulVec_zero]
    have hsk : ∀ w : V3, (skew w)ᵀ = -skew w := fun w => by
      apply mat_ext <;> rw [Matrix.neg_apply, transpose_apply] <;> comps <;> ring
    rw [hz, h0, dR_right _ hs, transpose_neg, transpose_mul, hsk, Matrix.mul_neg, neg_neg, ← mulVec_mulVec,
      skew_mulVec, ← rota_eq, cross_comm d.gamma, add_zero, rota_eq, rota_eq, mulVec_neg]
  · obtain ⟨h0, h1, h2, h3⟩ := he
    have hw : HasDerivAt (fun t : ℝ => (errorRate (dynamics b s a w).gamma (Quat.exp (t • d.gamma))).w) (0 : ℝ) (0 : ℝ) := by
      have e : (fun t : ℝ => (errorRate (dynamics b s a w).gamma (Quat.exp (t • d.gamma))).w) = fun _ : ℝ => (0 : ℝ) := by
        funext t
        simp only [errorRate, Quat.add, Quat.smul, leftRate, rightRate, Quat.otimes, Quat.pure]
        ring
      rw [e]; exact hasDerivAt_const (0 : ℝ) (0 : ℝ)
    refine ⟨?_, ?_, ?_, ?_⟩
    · refine hw.congr_deriv ?_
      simp [Quat.smul, Quat.pure]
    · have h := (h2.mul_const ((dynamics b s a w).gamma 2)).sub (h3.mul_const ((dynamics b s a w).gamma 1))
      have e : (fun t : ℝ => (errorRate (dynamics b s a w).gamma (Quat.exp (t • d.gamma))).x)
          = fun t : ℝ => (Quat.exp (t • d.gamma)).y * (dynamics b s a w).gamma 2
            - (Quat.exp (t • d.gamma)).z * (dynamics b s a w).gamma 1 := by
        funext t
        simp only [errorRate, Quat.add, Quat.smul, leftRate, rightRate, Quat.otimes, Quat.pure]
        ring
      rw [e]
      refine HasDerivAt.congr_deriv h ?_
      simp only [Quat.smul, Quat.pure, dynamics, Pi.neg_apply]
      comps; ring
    · have h := (h3.mul_const ((dynamics b s a w).gamma 0)).sub (h1.mul_const ((dynamics b s a w).gamma 2))
      have e : (fun t : ℝ => (errorRate (dynamics b s a w).gamma (Quat.exp (t • d.gamma))).y)
          = fun t : ℝ => (Quat.exp (t • d.gamma)).z * (dynamics b s a w).gamma 0
            - (Quat.exp (t • d.gamma)).x * (dynamics b s a w).gamma 2 := by
        funext t
        simp only [errorRate, Quat.add, Quat.smul, leftRate, rightRate, Quat.otimes, Quat.pure]
        ring
      rw [e]
      refine HasDerivAt.congr_deriv h ?_
      simp only [Quat.smul, Quat.pure, dynamics, Pi.neg_apply]
      comps; ring
    · have h := (h1.mul_const ((dynamics b s a w).gamma 1)).sub (h2.mul_const ((dynamics b s a w).gamma 0))
      have e : (fun t : ℝ => (errorRate (dynamics b s a w).gamma (Quat.exp (t • d.gamma))).z)
          = fun t : ℝ => (Quat.exp (t • d.gamma)).x * (dynamics b s a w).gamma 1
            - (Quat.exp (t • d.gamma)).y * (dynamics b s a w).gamma 0 := by
        funext t
        simp only [errorRate, Quat.add, Quat.smul, leftRate, rightRate, Quat.otimes, Quat.pure]
        ring
      rw [e]
      refine HasDerivAt.congr_deriv h ?_
      simp only [Quat.smul, Quat.pure, dynamics, Pi.neg_apply]
      comps; ring
  · have h := dynB_apply s n
    have e : dynamics ⟨b.accel + n.accel, b.gyro + n.gyro⟩ s a w
        = IErr.ofVec ((dynamics b s a w).toVec + (dynB s).mulVec n.toVec) := by
      have e3 : ∀ u v : I9 → ℝ, IErr.ofVec (u + v) = ⟨(IErr.ofVec u).alpha + (IErr.ofVec v).alpha,
        (IErr.ofVec u).beta + (IErr.ofVec v).beta, (IErr.ofVec u).gamma + (IErr.ofVec v).gamma⟩ := fun _ _ => rfl
      rw [e3, h, ofVec_toVec]
      unfold dynamics
      dsimp only
      congr 1
      · exact (add_zero _).symm
      · rw [← sub_sub, sub_eq_add_neg, rota_add', ← rota_eq, rota_eq _ (-n.accel), mulVec_neg, ← rota_eq]
      · rw [← sub_sub, sub_eq_add_neg]
    rw [e, toVec_ofVec]

/-- **C81**: with non-negative input variances every covariance of a history is symmetric and positive
semidefinite. -/
theorem C81_covariance (z0 : Sample) (bias : Bias) (R : I6 → ℝ) (hR : ∀ i, 0 ≤ R i) (l : List Sample) (m : Model)
    (hm : (Model.new z0 bias R).integrateAll l = some m) :
    ∀ h ∈ m.hist, h.cov.PosSemidef ∧ h.cov.IsSymm := by
  obtain ⟨-, rfl⟩ := (new_integrateAll z0 bias R l m).1 hm
  have key : ∀ (l : List Sample) (b : History), b.cov.PosSemidef → ∀ h ∈ run bias R b l, h.cov.PosSemidef := by
    intro l
    induction l with
    | nil =>
      intro b hb h hh
      rw [run, List.mem_singleton] at hh
      rw [hh]; exact hb
    | cons z l ih =>
      intro b hb h hh
      rw [run, List.mem_cons] at hh
      rcases hh with rfl | hh
      · exact hb
      · exact ih _ ((psd_sandwich hb _).add (psd_sandwich (psd_diag hR) _)) h hh
  intro h hh
  have := key l _ PosSemidef.zero h hh
  exact ⟨this, psd_symm this⟩

/-! ### C85: the information matrix -/

/-- The quadratic form of a matrix. -/
def quad (M : Matrix I9 I9 ℝ) (x : I9 → ℝ) : ℝ := x ⬝ᵥ (M *ᵥ x)

theorem quad_sandwich {κ : Type} [Fintype κ] (A : Matrix I9 κ ℝ) (P : Matrix κ κ ℝ) (x : I9 → ℝ) :
    x ⬝ᵥ ((A * P * Aᵀ) *ᵥ x) = (Aᵀ *ᵥ x) ⬝ᵥ (P *ᵥ (Aᵀ *ᵥ x)) := by
  rw [← mulVec_mulVec, ← mulVec_mulVec, dotProduct_mulVec, ← mulVec_transpose]

theorem psd_quad {κ : Type} [Fintype κ] {P : Matrix κ κ ℝ} (h : P.PosSemidef) (x : κ → ℝ) :
    0 ≤ x ⬝ᵥ (P *ᵥ x) := by
  have := h.dotProduct_mulVec_nonneg x
  rwa [star_trivial] at this

theorem diag_quad_zero {R : I6 → ℝ} (hR : ∀ i, 0 < R i) {y : I6 → ℝ} (h : y ⬝ᵥ (diagonal R *ᵥ y) = 0) : y = 0 := by
  have h1 : ∀ i ∈ Finset.univ, 0 ≤ y i * (R i * y i) := fun i _ => by
    have := mul_nonneg (hR i).le (mul_self_nonneg (y i)); nlinarith
  simp only [dotProduct, mulVec_diagonal] at h
  rw [Finset.sum_eq_zero_iff_of_nonneg h1] at h
  funext i
  have h2 := h i (Finset.mem_univ i)
  have h3 : R i * (y i * y i) = 0 := by linear_combination h2
  rcases mul_eq_zero.1 h3 with h4 | h4
  · exact absurd h4 (hR i).ne'
  · exact mul_self_eq_zero.1 h4

theorem pairing (x : I9 → ℝ) (e : IErr) : x ⬝ᵥ e.toVec =
    (fun k => x (0, k)) ⬝ᵥ e.alpha + (fun k => x (1, k)) ⬝ᵥ e.beta + (fun k => x (2, k)) ⬝ᵥ e.gamma := by
  simp only [dotProduct, Fintype.sum_prod_type, Fin.sum_univ_three]
  rfl

theorem eq_zero_of_dot {u : V3} (h : ∀ d : V3, u ⬝ᵥ d = 0) : u = 0 := dotProduct_self_eq_zero.1 (h u)

/-- The transition matrix of a step. -/
noncomputable def trans (bias : Bias) (b : History) (z : Sample) : Matrix I9 I9 ℝ :=
  1 + (toSec (z.t - b.z.t) • dynA bias b.state ((1 / 2 : ℝ) • (z.accel + b.z.accel)) ((1 / 2 : ℝ) • (z.gyro + b.z.gyro)))
    * (1 + (0.5 : ℝ) • (toSec (z.t - b.z.t) • dynA bias b.state ((1 / 2 : ℝ) • (z.accel + b.z.accel))
      ((1 / 2 : ℝ) • (z.gyro + b.z.gyro))))

theorem step_cov (bias : Bias) (R : I6 → ℝ) (b : History) (z : Sample) : (step bias R b z).cov =
    trans bias b z * b.cov * (trans bias b z)ᵀ
      + (toSec (z.t - b.z.t) • dynB b.state) * diagonal R * (toSec (z.t - b.z.t) • dynB b.state)ᵀ := rfl

theorem step_dbias (bias : Bias) (R : I6 → ℝ) (b : History) (z : Sample) : (step bias R b z).dbias =
    trans bias b z * b.dbias + toSec (z.t - b.z.t) • dynB b.state := rfl

theorem smul_toVec (c : ℝ) (e : IErr) : c • e.toVec = (e.scale c).toVec := by
  ext ⟨i, j⟩; fin_cases i <;> rfl

theorem add_toVec (e f : IErr) :
    e.toVec + f.toVec = (⟨e.alpha + f.alpha, e.beta + f.beta, e.gamma + f.gamma⟩ : IErr).toVec := by
  ext ⟨i, j⟩; fin_cases i <;> rfl

/-- The action of the transition matrix. -/
theorem trans_apply (bias : Bias) (b : History) (z : Sample) (d : IErr) :
    (trans bias b z).mulVec d.toVec =
      let dt := toSec (z.t - b.z.t)
      let a := (1 / 2 : ℝ) • (z.accel + b.z.accel) - bias.accel
      let w := (1 / 2 : ℝ) • (z.gyro + b.z.gyro) - bias.gyro
      (⟨d.alpha + dt • (d.beta + (0.5 : ℝ) • dt • -b.state.gamma.rota (cross a d.gamma)),
        d.beta + dt • -b.state.gamma.rota (cross a (d.gamma + (0.5 : ℝ) • dt • -cross w d.gamma)),
        d.gamma + dt • -cross w (d.gamma + (0.5 : ℝ) • dt • -cross w d.gamma)⟩ : IErr).toVec := by
  dsimp only
  have hA : ∀ d : IErr, (dynA bias b.state ((1 / 2 : ℝ) • (z.accel + b.z.accel))
      ((1 / 2 : ℝ) • (z.gyro + b.z.gyro))).mulVec d.toVec = (⟨d.beta,
        -b.state.gamma.rota (cross ((1 / 2 : ℝ) • (z.accel + b.z.accel) - bias.accel) d.gamma),
        -cross ((1 / 2 : ℝ) • (z.gyro + b.z.gyro) - bias.gyro) d.gamma⟩ : IErr).toVec := fun d => by
    rw [← dynA_apply, toVec_ofVec]
  unfold trans
  rw [add_mulVec, one_mulVec, ← mulVec_mulVec, add_mulVec, one_mulVec]
  simp only [smul_mulVec]
  rw [hA, smul_toVec, smul_toVec, add_toVec, hA, smul_toVec, add_toVec]
  rfl

theorem B_apply (bias : Bias) (b : History) (z : Sample) (n : Bias) :
    (toSec (z.t - b.z.t) • dynB b.state).mulVec n.toVec =
      (⟨0, -(toSec (z.t - b.z.t) • b.state.gamma.rota n.accel), -(toSec (z.t - b.z.t) • n.gyro)⟩ : IErr).toVec := by
  rw [smul_mulVec, ← toVec_ofVec ((dynB b.state).mulVec n.toVec), dynB_apply, smul_toVec, ← rota_eq]
  unfold IErr.scale
  rw [smul_zero, smul_neg, smul_neg]

theorem cross_zero (u : V3) : cross u 0 = 0 := by
  ext i; fin_cases i <;> simp [cross]

theorem rota_zero (q : Quat) : q.rota 0 = 0 := by rw [rota_eq, mulVec_zero]

/-- A step leaves no certainty about velocity and rotation, and none about position if there was none about
velocity. -/
theorem step_kernel (bias : Bias) (R : I6 → ℝ) (hR : ∀ i, 0 < R i) (b : History) (z : Sample)
    (ht : 0 < toSec (z.t - b.z.t)) (hu : UnitQ b.state.gamma) (hP : b.cov.PosSemidef) (x : I9 → ℝ)
    (hx : quad (step bias R b z).cov x = 0) :
    (fun k => x (1, k)) = (0 : V3) ∧ (fun k => x (2, k)) = (0 : V3) ∧
    ∃ y, quad b.cov y = 0 ∧ (fun k => y (0, k)) = (fun k => x (0, k)) ∧
      (fun k => y (1, k)) = toSec (z.t - b.z.t) • (fun k => x (0, k)) := by
  unfold quad at hx
  rw [step_cov, add_mulVec, dotProduct_add, quad_sandwich, quad_sandwich] at hx
  have h1 := psd_quad hP ((trans bias b z)ᵀ *ᵥ x)
  have h2 := psd_quad (psd_diag (fun i => (hR i).le)) ((toSec (z.t - b.z.t) • dynB b.state)ᵀ *ᵥ x)
  have hB := diag_quad_zero hR (le_antisymm (by linarith) h2)
  have hA : quad b.cov ((trans bias b z)ᵀ *ᵥ x) = 0 := le_antisymm (by unfold quad; linarith) h1
  have hBn : ∀ n : Bias, x ⬝ᵥ ((toSec (z.t - b.z.t) • dynB b.state).mulVec n.toVec) = 0 := fun n => by
    rw [dotProduct_mulVec, ← mulVec_transpose, hB, zero_dotProduct]
  have hAd : ∀ d : IErr, ((trans bias b z)ᵀ *ᵥ x) ⬝ᵥ d.toVec = x ⬝ᵥ ((trans bias b z).mulVec d.toVec) := fun d => by
    rw [dotProduct_mulVec, ← mulVec_transpose]
  have e1 : (fun k => x (1, k)) = (0 : V3) := eq_zero_of_dot fun d => by
    have := hBn ⟨b.state.gamma.rotp d, 0⟩
    rw [B_apply bias, pairing] at this
    dsimp only at this
    rw [rota_rotp _ hu, smul_zero, neg_zero, dotProduct_zero, dotProduct_zero, zero_add, add_zero, dotProduct_neg,
      dotProduct_smul, neg_eq_zero, smul_eq_mul] at this
    exact (mul_eq_zero.1 this).resolve_left ht.ne'
  have e2 : (fun k => x (2, k)) = (0 : V3) := eq_zero_of_dot fun d => by
    have := hBn ⟨0, d⟩
    rw [B_apply bias, pairing] at this
    dsimp only at this
    rw [rota_zero, smul_zero, neg_zero, dotProduct_zero, dotProduct_zero, zero_add, zero_add, dotProduct_neg,
      dotProduct_smul, neg_eq_zero, smul_eq_mul] at this
    exact (mul_eq_zero.1 this).resolve_left ht.ne'
  refine ⟨e1, e2, _, hA, ?_, ?_⟩
  · rw [← sub_eq_zero]
    refine eq_zero_of_dot fun d => ?_
    have := hAd ⟨d, 0, 0⟩
    rw [trans_apply, pairing, pairing] at this
    simp only [cross_zero, rota_zero, neg_zero, smul_zero, add_zero, dotProduct_zero] at this
    rw [sub_dotProduct, this, sub_self]
  · rw [← sub_eq_zero]
    refine eq_zero_of_dot fun d => ?_
    have := hAd ⟨0, d, 0⟩
    rw [trans_apply, pairing, pairing, e1, e2] at this
    simp only [cross_zero, rota_zero, neg_zero, smul_zero, add_zero, dotProduct_zero, zero_dotProduct, zero_add,
      dotProduct_smul, smul_eq_mul] at this
    rw [sub_dotProduct, this, smul_dotProduct, smul_eq_mul, sub_self]

theorem toSec_pos {n : ℤ} (h : 0 < n) : 0 < toSec n := by
  unfold toSec
  have : (0 : ℝ) < n := by exact_mod_cast h
  positivity

theorem posDef_of_quad {P : Matrix I9 I9 ℝ} (h : P.PosSemidef) (h0 : ∀ x, quad P x = 0 → x = 0) : P.PosDef := by
  refine PosDef.of_dotProduct_mulVec_pos h.isHermitian fun x hx => ?_
  rw [star_trivial]
  exact lt_of_le_of_ne (psd_quad h x) fun e => hx (h0 x e.symm)

theorem split9 {x : I9 → ℝ} (h0 : (fun k => x (0, k)) = (0 : V3)) (h1 : (fun k => x (1, k)) = (0 : V3))
    (h2 : (fun k => x (2, k)) = (0 : V3)) : x = 0 := by
  ext ⟨i, j⟩
  fin_cases i
  · exact congrFun h0 j
  · exact congrFun h1 j
  · exact congrFun h2 j

theorem step_psd (bias : Bias) (R : I6 → ℝ) (hR : ∀ i, 0 < R i) (b : History) (z : Sample)
    (hP : b.cov.PosSemidef) : (step bias R b z).cov.PosSemidef :=
  (psd_sandwich hP _).add (psd_sandwich (psd_diag fun i => (hR i).le) _)

theorem quad_posDef {P : Matrix I9 I9 ℝ} (h : P.PosDef) {x : I9 → ℝ} (hx : quad P x = 0) : x = 0 := by
  by_contra hn
  have := h.dotProduct_mulVec_pos hn
  rw [star_trivial] at this
  exact absurd hx this.ne'

theorem step_posDef (bias : Bias) (R : I6 → ℝ) (hR : ∀ i, 0 < R i) (b : History) (z : Sample)
    (ht : 0 < toSec (z.t - b.z.t)) (hu : UnitQ b.state.gamma) (hP : b.cov.PosSemidef)
    (hk : ∀ y, quad b.cov y = 0 → (fun k => y (1, k)) = (0 : V3)) : (step bias R b z).cov.PosDef := by
  refine posDef_of_quad (step_psd bias R hR b z hP) fun x hx => ?_
  obtain ⟨h1, h2, y, hy, hy0, hy1⟩ := step_kernel bias R hR b z ht hu hP x hx
  refine split9 ?_ h1 h2
  rw [hk y hy] at hy1
  exact (smul_eq_zero.1 hy1.symm).resolve_left ht.ne'

/-- From the second sample on the covariance is positive definite. -/
theorem final_posDef (bias : Bias) (R : I6 → ℝ) (hR : ∀ i, 0 < R i) (b : History) (l : List Sample)
    (hl : Spaced b.z.t l) (hu : UnitQ b.state.gamma) (hP : b.cov.PosDef) : (final bias R b l).cov.PosDef := by
  induction l generalizing b with
  | nil => exact hP
  | cons z l ih =>
    have ht : 0 < toSec (z.t - b.z.t) := toSec_pos (by have := hl.1; unfold QUANT at this; omega)
    refine ih _ hl.2 (step_unit _ _ _ _ hu) (step_posDef bias R hR b z ht hu hP.posSemidef fun y hy => ?_)
    rw [quad_posDef hP hy]; rfl

/-- **C85**: with positive input variances `finished` inverts a positive definite matrix, whatever was integrated,
and fails its check only when nothing was. -/
theorem C85_information (z0 : Sample) (bias : Bias) (R : I6 → ℝ) (hR : ∀ i, 0 < R i) (l : List Sample) (m : Model)
    (hm : (Model.new z0 bias R).integrateAll l = some m) :
    (m.finishedCov = none ↔ l = []) ∧ ∀ P, m.finishedCov = some P → P.PosDef := by
  obtain ⟨hsp, rfl⟩ := (new_integrateAll z0 bias R l m).1 hm
  set h0 : History := ⟨z0, IState.identity, 0, 0⟩ with hh0
  have hlen : (run bias R h0 l).length = l.length + 1 := by
    have := congrArg List.length (run_map bias R h0 l)
    rwa [List.length_map, List.length_cons] at this
  have hf : (⟨bias, R, run bias R h0 l⟩ : Model).finishedCov = if 0 < l.length then
      some (if l.length ≤ 2 then (final bias R h0 l).cov + (1e-15 : ℝ) • (1 : Matrix I9 I9 ℝ)
        else (final bias R h0 l).cov) else none := by
    unfold Model.finishedCov
    dsimp only
    rw [run_last, hlen, Nat.add_sub_cancel]
  rw [hf]
  have hpsd : ∀ (l : List Sample) (b : History), b.cov.PosSemidef → (final bias R b l).cov.PosSemidef := by
    intro l
    induction l with
    | nil => exact fun _ h => h
    | cons z l ih => exact fun b hb => ih _ (step_psd bias R hR b z hb)
  constructor
  · constructor
    · intro h
      by_contra hn
      rw [if_pos (List.length_pos_iff.2 hn)] at h
      cases h
    · rintro rfl; rfl
  · intro P hP
    by_cases hl : 0 < l.length
    · rw [if_pos hl] at hP
      obtain rfl := Option.some.inj hP
      by_cases h2 : l.length ≤ 2
      · rw [if_pos h2]
        exact (PosDef.one.smul (by norm_num)).posSemidef_add (hpsd l h0 PosSemidef.zero)
      · rw [if_neg h2]
        match l, hsp, h2 with
        | z :: y :: r, hsp, _ =>
          have t1 : 0 < toSec (z.t - h0.z.t) := toSec_pos (by
            have := hsp.1; unfold QUANT at this; show 0 < z.t - z0.t; omega)
          have t2 : 0 < toSec (y.t - (step bias R h0 z).z.t) := toSec_pos (by
            have := hsp.2.1; unfold QUANT at this; rw [step_z]; omega)
          have u1 := step_unit bias R h0 z id_unit
          have p1 := step_psd bias R hR h0 z PosSemidef.zero
          refine final_posDef bias R hR (step bias R (step bias R h0 z) y) r hsp.2.2 (step_unit _ _ _ _ u1)
            (step_posDef bias R hR _ y t2 u1 p1 fun x hx => ?_)
          exact (step_kernel bias R hR h0 z t1 id_unit PosSemidef.zero x hx).1
        | [z], _, h2 => exact absurd (by simp) h2
        | [], _, h2 => exact absurd (by simp) h2
    · rw [if_neg hl] at hP; cases hP

/-- Four samples of a turning sensor with unit variances meet the hypotheses. -/
example : (∀ i : I6, (0 : ℝ) < (fun _ => 1 : I6 → ℝ) i) ∧
    ∃ m, (Model.new ⟨0, ![0, 0, 1], ![1, 0, 0]⟩ ⟨0, 0⟩ fun _ => 1).integrateAll
      [⟨1000000, ![1, 0, 0], ![0, 1, 0]⟩, ⟨2000000, ![0, 2, 0], ![0, 0, 1]⟩, ⟨3000000, ![0, 2, 0], ![0, 0, 1]⟩]
        = some m := by
  refine ⟨fun _ => one_pos, _, (new_integrateAll _ ⟨0, 0⟩ _ _ _).2 ⟨?_, rfl⟩⟩
  show _ ∧ _ ∧ _ ∧ True
  norm_num [QUANT]

end Verif.Props.ImuCov
