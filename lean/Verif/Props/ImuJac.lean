import Verif.Props.Imu
import Verif.Props.LogDeriv

/-!
C80: the Jacobians of `ImuModel::Evaluate`.
-/

namespace Verif.Props.ImuJac

open Verif.Model.Lie Verif.Model.Imu Verif.Lemmas.Lie Verif.Lemmas.LieDeriv Verif.Lemmas.LieCurve
  Verif.Props.Quat Verif.Props.DQuat Verif.Props.So3 Verif.Props.LieJac Verif.Props.Se3Jac Verif.Props.EkfModels
  Verif.Props.LogDeriv Verif.Props.Imu Matrix

/-- Where `Quat::log(jac)` is differentiated: outside the Taylor branch and half a turn, or at the identity. -/
def LogOk (q : Quat) : Prop := q = Quat.identity ∨ (4e-6 < vnorm q.bar ∧ q.w ≠ 0)

theorem log_curve (q : Quat) (hq : UnitQ q) (h : LogOk q) : ∃ L, Quat.logJac .left q = some L ∧
    ∀ (f : ℝ → Quat) (u : V3), f 0 = q → HasQuatDeriv f (leftRate u q) →
      HasVecDeriv (fun t => (f t).logJ) (L.mulVec u) := by
  rcases h with rfl | ⟨hn, hw⟩
  · refine ⟨1, logJac_id, fun f u h0 hf => ?_⟩
    rw [one_mulVec]
    exact (C72_quat_log_identity f u h0 hf).2
  · obtain ⟨⟨L, hL, -⟩, -⟩ := C72_quat_log_partial q hq hn hw
    refine ⟨L, hL, fun f u h0 hf => ?_⟩
    obtain ⟨L', hL', hd⟩ := C72_quat_log_curve_partial f q u h0 hq hn hw hf
    rw [hL] at hL'
    obtain rfl := Option.some.inj hL'
    exact hd

theorem pure_mul (q : Quat) (hq : UnitQ q) (v : V3) :
    q.otimes (Quat.pure v) = (Quat.pure (q.rota v)).otimes q := by
  simp only [UnitQ] at hq
  rw [rota_eq]
  ext <;> simp only [Quat.otimes, Quat.pure] <;> comps
  · ring
  · linear_combination (-2 * (q.y * v 2 - q.z * v 1)) * hq
  · linear_combination (2 * (q.x * v 2 - q.z * v 0)) * hq
  · linear_combination (-2 * (q.x * v 1 - q.y * v 0)) * hq

theorem right_left (q : Quat) (hq : UnitQ q) (v : V3) : rightRate q v = leftRate (q.rota v) q := by
  unfold rightRate leftRate
  rw [pure_mul q hq]

theorem rota_inverse (q : Quat) (v : V3) : q.inverse.rota v = q.rotp v := by
  rw [rota_eq, rotp_eq, inverse_R, transpose_transpose]

theorem leftRate_otimes (u : V3) (p q : Quat) : (leftRate u p).otimes q = leftRate u (p.otimes q) := by
  ext <;> simp only [leftRate, Quat.smul, Quat.otimes, Quat.pure] <;> ring

theorem otimes_rightRate (p q : Quat) (u : V3) : p.otimes (rightRate q u) = rightRate (p.otimes q) u := by
  ext <;> simp only [rightRate, Quat.smul, Quat.otimes, Quat.pure] <;> ring

theorem rightRate_inverse (q : Quat) (u : V3) : (rightRate q u).inverse = leftRate (-u) q.inverse := by
  ext <;> simp only [rightRate, leftRate, Quat.inverse, Quat.smul, Quat.otimes, Quat.pure, Pi.neg_apply] <;> ring

theorem rightRate_leftRate (p : Quat) (u : V3) (q : Quat) : p.otimes (leftRate u q) = (rightRate p u).otimes q := by
  ext <;> simp only [rightRate, leftRate, Quat.smul, Quat.otimes, Quat.pure] <;> ring

theorem zero_add_q (q p : Quat) : ((⟨0, 0, 0, 0⟩ : Quat).otimes p).add q = q := by
  ext <;> simp only [Quat.add, Quat.otimes] <;> ring
theorem add_zero_q (q p : Quat) : q.add (p.otimes ⟨0, 0, 0, 0⟩) = q := by
  ext <;> simp only [Quat.add, Quat.otimes] <;> ring

/-- The derivative of a curve of residuals. -/
def HasErrDeriv (f : ℝ → IErr) (d : IErr) : Prop :=
  HasVecDeriv (fun t => (f t).alpha) d.alpha ∧ HasVecDeriv (fun t => (f t).beta) d.beta ∧
    HasVecDeriv (fun t => (f t).gamma) d.gamma

theorem vunique {f : ℝ → V3} {a b : V3} (h : HasVecDeriv f a) (k : HasVecDeriv f b) : a = b :=
  funext fun i => (h i).unique (k i)

theorem vsmul {f : ℝ → V3} {a : V3} (c : ℝ) (h : HasVecDeriv f a) :
    HasVecDeriv (fun t => c • f t) (c • a) := fun i => (h i).const_mul c

/-- The rotation error is a unit quaternion. -/
theorem rotError_unit {g : Quat} {s f : DQuat} (hg : UnitQ g) (hs : UnitQ s.r) (hf : UnitQ f.r) :
    UnitQ (rotError g s f) := otimes_unit (inverse_unit hg) (otimes_unit (inverse_unit hs) hf)

theorem adjusted_unit (p : Pre) (b : Bias) (hg : UnitQ p.state.gamma) : UnitQ (p.adjusted b).gamma :=
  otimes_unit hg (Verif.Props.Quat.C45_exp_unit _).1

/-- **C80**, start pose: the derivative of the residual when the start pose is moved, for every pose.
The code has `-start.R` in place of `-1` in the position block of the first row and `start.R` as a further factor
in the rotation block of the third, see `C80_start_violated`. -/
theorem start_deriv (p : Pre) (start fin : DQuat) (v v' : V3) (b : Bias) (hg : UnitQ p.state.gamma)
    (hs : UnitQ start.r) (hf : UnitQ fin.r) (hE : LogOk (rotError (p.adjusted b).gamma start fin)) :
    ∃ L, Quat.logJac .left (rotError (p.adjusted b).gamma start fin) = some L ∧
      ∀ ξ : V6, HasErrDeriv (fun t => p.residual (pert start ξ t) fin v v' b)
        ⟨(skew (start.r.rotp (fin.translation - start.translation - (0.5 * p.dt * p.dt) • GRAVITY))).mulVec ξ.w
            - ξ.v,
          (-(p.dt • skew (start.r.rotp GRAVITY))).mulVec ξ.w,
          (-(L * (p.adjusted b).gamma.R)).mulVec ξ.w⟩ := by
  have ha := adjusted_unit p b hg
  obtain ⟨L, hL, hlog⟩ := log_curve _ (rotError_unit ha hs hf) hE
  refine ⟨L, hL, fun ξ => ⟨?_, ?_, ?_⟩⟩
  · have h1 := ((vconst fin.translation).sub (pert_trans start hs ξ)).sub (vconst ((0.5 * p.dt * p.dt) • GRAVITY))
    have h2 := ((pert_rotp start hs ξ h1).sub (vconst (p.dt • v))).sub (vconst (p.adjusted b).alpha)
    refine h2.congr ?_
    dsimp only
    rw [pert_zero, skew_mulVec, cross_comm, sub_zero, sub_zero, sub_zero, zero_sub, rotp_neg, rotp_rota _ hs, neg_neg,
      ← sub_eq_add_neg]
  · have h1 := pert_rotp start hs ξ (vconst GRAVITY)
    have h2 := (((vconst ((p.adjusted b).gamma.rota v')).sub (vconst v)).sub (vsmul p.dt h1)).sub
      (vconst (p.adjusted b).beta)
    refine h2.congr ?_
    have h0 : start.r.rotp 0 = 0 := by rw [rotp_eq, mulVec_zero]
    show _ = (-(p.dt • skew (start.r.rotp GRAVITY))).mulVec ξ.w
    rw [h0, neg_mulVec, smul_mulVec, skew_mulVec, cross_comm ξ.w, neg_neg, sub_zero, sub_zero, add_zero, zero_sub]
  · have hq := otimes_deriv (const_deriv (p.adjusted b).gamma.inverse)
      (otimes_deriv (inverse_deriv (pert_r start ξ)) (const_deriv fin.r))
    have := hlog _ (-((p.adjusted b).gamma.rotp ξ.w)) ?_ (qd_congr hq ?_)
    · refine this.congr ?_
      rw [mulVec_neg, rotp_eq, mulVec_mulVec]
      exact (neg_mulVec _ _).symm
    · rw [pert_zero]; rfl
    · rw [zero_add_q, add_zero_q, rightRate_inverse, leftRate_otimes, rightRate_leftRate,
        right_left _ (inverse_unit ha), rota_inverse, leftRate_otimes, rotp_neg]
      rfl

/-- The derivative of the residual when the end pose is moved, for every pose.  The code has `start.R` in place of
`start.R finᵀ.R` in the position block, and lacks `fin.Rᵀ` in the rotation block. -/
theorem end_deriv (p : Pre) (start fin : DQuat) (v v' : V3) (b : Bias) (hg : UnitQ p.state.gamma)
    (hs : UnitQ start.r) (hf : UnitQ fin.r) (hE : LogOk (rotError (p.adjusted b).gamma start fin)) :
    ∃ L, Quat.logJac .left (rotError (p.adjusted b).gamma start fin) = some L ∧
      ∀ ξ : V6, HasErrDeriv (fun t => p.residual start (pert fin ξ t) v v' b)
        ⟨(start.r.R * fin.r.Rᵀ).mulVec ξ.v, 0,
          (L * (p.adjusted b).gamma.R * start.r.R * fin.r.Rᵀ).mulVec ξ.w⟩ := by
  have ha := adjusted_unit p b hg
  obtain ⟨L, hL, hlog⟩ := log_curve _ (rotError_unit ha hs hf) hE
  refine ⟨L, hL, fun ξ => ⟨?_, ?_, ?_⟩⟩
  · have h1 := ((pert_trans fin hf ξ).sub (vconst start.translation)).sub (vconst ((0.5 * p.dt * p.dt) • GRAVITY))
    have h2 := ((rotp_deriv (const_deriv start.r) h1).sub (vconst (p.dt • v))).sub (vconst (p.adjusted b).alpha)
    refine h2.congr ?_
    have h0 : dR start.r ⟨0, 0, 0, 0⟩ = 0 := by
      apply mat_ext <;> simp only [dR_00, dR_01, dR_02, dR_10, dR_11, dR_12, dR_20, dR_21, dR_22] <;> simp
    rw [h0, zero_mulVec, zero_add, sub_zero, sub_zero, sub_zero, sub_zero, rotp_eq, rota_eq, mulVec_mulVec]
  · exact vconst _
  · have hq := otimes_deriv (const_deriv (p.adjusted b).gamma.inverse)
      (otimes_deriv (const_deriv start.r.inverse) (pert_r fin ξ))
    have := hlog _ ((rotError (p.adjusted b).gamma start fin).rota ξ.w) ?_ (qd_congr hq ?_)
    · refine this.congr ?_
      rw [rota_eq]
      unfold rotError
      rw [R_mul _ _ (inverse_unit ha) (otimes_unit (inverse_unit hs) hf), R_mul _ _ (inverse_unit hs) hf, inverse_R,
        inverse_R, transpose_mul, transpose_mul, transpose_transpose, transpose_transpose, mulVec_mulVec]
      simp only [Matrix.mul_assoc]
    · rw [pert_zero]; rfl
    · rw [zero_add_q, zero_add_q, otimes_rightRate, otimes_rightRate]
      exact right_left _ (rotError_unit ha hs hf) _

/-- **C80**, velocities: exact for every state. -/
theorem C80_velocity (p : Pre) (start fin : DQuat) (v v' : V3) (b : Bias) (δ : V3) :
    HasErrDeriv (fun t => p.residual start fin (v + t • δ) v' b)
      ⟨(p.startVelJac 0).mulVec δ, (p.startVelJac 1).mulVec δ, (p.startVelJac 2).mulVec δ⟩ ∧
    HasErrDeriv (fun t => p.residual start fin v (v' + t • δ) b)
      ⟨(p.endVelJac b 0).mulVec δ, (p.endVelJac b 1).mulVec δ, (p.endVelJac b 2).mulVec δ⟩ := by
  refine ⟨⟨?_, ?_, ?_⟩, ⟨?_, ?_, ?_⟩⟩
  · refine (((vconst _).sub (vsmul p.dt (vline v δ))).sub (vconst _)).congr ?_
    show _ = (-(p.dt • (1 : M3))).mulVec δ
    rw [neg_mulVec, smul_mulVec, one_mulVec, zero_sub, sub_zero]
  · refine ((((vconst _).sub (vline v δ)).sub (vconst _)).sub (vconst _)).congr ?_
    show _ = (-1 : M3).mulVec δ
    rw [neg_mulVec, one_mulVec, zero_sub, sub_zero, sub_zero]
  · refine (vconst _).congr ?_
    show _ = (0 : M3).mulVec δ
    rw [zero_mulVec]
  · refine (vconst _).congr ?_
    show _ = (0 : M3).mulVec δ
    rw [zero_mulVec]
  · refine ((((rota_deriv (const_deriv (p.adjusted b).gamma) (vline v' δ)).sub (vconst _)).sub (vconst _)).sub
      (vconst _)).congr ?_
    have h0 : dR (p.adjusted b).gamma ⟨0, 0, 0, 0⟩ = 0 := by
      apply mat_ext <;> simp only [dR_00, dR_01, dR_02, dR_10, dR_11, dR_12, dR_20, dR_21, dR_22] <;> simp
    rw [h0, transpose_zero, zero_mulVec, zero_add, sub_zero, sub_zero, sub_zero, rota_eq]
    rfl
  · refine (vconst _).congr ?_
    show _ = (0 : M3).mulVec δ
    rw [zero_mulVec]

theorem startJac_apply (p : Pre) (start fin : DQuat) (b : Bias) (L : M3) (ξ : V6) :
    (p.startJac start fin b L).apply ξ =
      ⟨(skew (start.r.rotp (fin.translation - start.translation - (0.5 * p.dt * p.dt) • GRAVITY))).mulVec ξ.w
          - start.r.R.mulVec ξ.v,
        (-(p.dt • skew (start.r.rotp GRAVITY))).mulVec ξ.w,
        (-(L * (p.adjusted b).gamma.R * start.r.R)).mulVec ξ.w⟩ := by
  unfold PoseJac.apply Pre.startJac
  congr 1
  · show _ + (-start.r.R).mulVec ξ.v = _
    rw [neg_mulVec, ← sub_eq_add_neg]; rfl
  · show _ + (0 : M3).mulVec ξ.v = _
    rw [zero_mulVec, add_zero]; rfl
  · show _ + (0 : M3).mulVec ξ.v = _
    rw [zero_mulVec, add_zero]; rfl

theorem endJac_apply (p : Pre) (start : DQuat) (b : Bias) (L : M3) (ξ : V6) :
    (p.endJac start b L).apply ξ =
      ⟨start.r.R.mulVec ξ.v, 0, (L * (p.adjusted b).gamma.R * start.r.R).mulVec ξ.w⟩ := by
  unfold PoseJac.apply Pre.endJac
  congr 1
  · show (0 : M3).mulVec ξ.w + _ = _
    rw [zero_mulVec, zero_add]; rfl
  · show (0 : M3).mulVec ξ.w + (0 : M3).mulVec ξ.v = _
    rw [zero_mulVec, zero_mulVec, add_zero]
  · show _ + (0 : M3).mulVec ξ.v = _
    rw [zero_mulVec, add_zero]; rfl

/-- **C80**, start pose: the reported Jacobian is the derivative when the start pose is not turned.
Missing: `C80_start_violated`. -/
theorem C80_start_partial (p : Pre) (start fin : DQuat) (v v' : V3) (b : Bias) (hg : UnitQ p.state.gamma)
    (hs : UnitQ start.r) (hf : UnitQ fin.r) (hE : LogOk (rotError (p.adjusted b).gamma start fin))
    (hR : start.r.R = 1) :
    ∃ L, Quat.logJac .left (rotError (p.adjusted b).gamma start fin) = some L ∧
      ∀ ξ : V6, HasErrDeriv (fun t => p.residual (pert start ξ t) fin v v' b)
        ((p.startJac start fin b L).apply ξ) := by
  obtain ⟨L, hL, h⟩ := start_deriv p start fin v v' b hg hs hf hE
  refine ⟨L, hL, fun ξ => ?_⟩
  rw [startJac_apply, hR, Matrix.mul_one, one_mulVec]
  exact h ξ

/-- **C80**, end pose: the reported Jacobian is the derivative when the end pose is not turned.
Missing: `C80_end_violated`. -/
theorem C80_end_partial (p : Pre) (start fin : DQuat) (v v' : V3) (b : Bias) (hg : UnitQ p.state.gamma)
    (hs : UnitQ start.r) (hf : UnitQ fin.r) (hE : LogOk (rotError (p.adjusted b).gamma start fin))
    (hR : fin.r.R = 1) :
    ∃ L, Quat.logJac .left (rotError (p.adjusted b).gamma start fin) = some L ∧
      ∀ ξ : V6, HasErrDeriv (fun t => p.residual start (pert fin ξ t) v v' b) ((p.endJac start b L).apply ξ) := by
  obtain ⟨L, hL, h⟩ := end_deriv p start fin v v' b hg hs hf hE
  refine ⟨L, hL, fun ξ => ?_⟩
  rw [endJac_apply]
  have := h ξ
  rw [hR, transpose_one, Matrix.mul_one, Matrix.mul_one] at this
  exact this

theorem id_unit : UnitQ Quat.identity := by norm_num [UnitQ, Quat.identity]

theorem eq_one_of_mulVec {M : M3} (h : ∀ v : V3, M.mulVec v = v) : M = 1 :=
  Matrix.ext_of_mulVec_single fun i => by rw [h, one_mulVec]

/-- **C80**, start pose: whenever the start pose is turned at all the reported Jacobian is wrong. -/
theorem C80_start_violated (p : Pre) (start fin : DQuat) (v v' : V3) (b : Bias) (hg : UnitQ p.state.gamma)
    (hs : UnitQ start.r) (hf : UnitQ fin.r) (hE : LogOk (rotError (p.adjusted b).gamma start fin))
    (hR : start.r.R ≠ 1) (L : M3) :
    ¬ ∀ ξ : V6, HasErrDeriv (fun t => p.residual (pert start ξ t) fin v v' b)
        ((p.startJac start fin b L).apply ξ) := by
  intro h
  obtain ⟨L', -, h'⟩ := start_deriv p start fin v v' b hg hs hf hE
  apply hR
  apply eq_one_of_mulVec
  intro u
  have := vunique (h ⟨0, u⟩).1 (h' ⟨0, u⟩).1
  rw [startJac_apply] at this
  simpa using this

/-- **C80**, end pose: likewise. -/
theorem C80_end_violated (p : Pre) (start fin : DQuat) (v v' : V3) (b : Bias) (hg : UnitQ p.state.gamma)
    (hs : UnitQ start.r) (hf : UnitQ fin.r) (hE : LogOk (rotError (p.adjusted b).gamma start fin))
    (hR : fin.r.R ≠ 1) (L : M3) :
    ¬ ∀ ξ : V6, HasErrDeriv (fun t => p.residual start (pert fin ξ t) v v' b) ((p.endJac start b L).apply ξ) := by
  intro h
  obtain ⟨L', -, h'⟩ := end_deriv p start fin v v' b hg hs hf hE
  apply hR
  have h1 : ∀ u : V3, start.r.R.mulVec u = (start.r.R * fin.r.Rᵀ).mulVec u := by
    intro u
    have := vunique (h ⟨0, u⟩).1 (h' ⟨0, u⟩).1
    rw [endJac_apply] at this
    exact this
  have h2 : fin.r.Rᵀ = 1 := by
    apply eq_one_of_mulVec
    intro u
    have := congrArg (fun w => start.r.Rᵀ.mulVec w) (h1 u)
    rw [mulVec_mulVec, mulVec_mulVec, ← Matrix.mul_assoc, (rot_rel (R_isRot _ hs)).1, one_mulVec, Matrix.one_mul] at this
    exact this.symm
  rw [← transpose_transpose fin.r.R, h2, transpose_one]

/-- The reported Jacobian is right exactly when the pose is not turned; a start pose turned about the vertical. -/
noncomputable def turned : DQuat := ⟨⟨4 / 5, 0, 0, 3 / 5⟩, ⟨0, 0, 0, 0⟩⟩

theorem turned_unit : UnitQ turned.r := by norm_num [UnitQ, turned]
theorem turned_R : turned.r.R ≠ 1 := by
  intro h
  have := congrFun (congrFun h 0) 0
  rw [R_00, one_00] at this
  norm_num [turned] at this

/-- A preintegration that has not moved. -/
noncomputable def restPre : Pre := ⟨0, 1000000000, IState.identity, 0⟩

theorem restPre_adjusted (b : Bias) : (restPre.adjusted b).gamma = Quat.identity := by
  unfold Pre.adjusted Pre.adjustment restPre
  rw [zero_mulVec]
  show (IState.identity.plus ⟨0, 0, 0⟩).gamma = _
  rw [plus_zero]; rfl

theorem rest_ok (s : DQuat) (hs : UnitQ s.r) : LogOk (rotError (restPre.adjusted ⟨0, 0⟩).gamma s s) := by
  left
  unfold rotError
  rw [restPre_adjusted, inverse_otimes hs]
  ext <;> norm_num [Quat.otimes, Quat.inverse, Quat.identity]

/-- The statement: at every pose, the reported Jacobians of the two poses are the derivatives. -/
def C80_statement : Prop :=
  ∀ (p : Pre) (start fin : DQuat) (v v' : V3) (b : Bias), UnitQ p.state.gamma → UnitQ start.r → UnitQ fin.r →
    LogOk (rotError (p.adjusted b).gamma start fin) →
    ∃ L, Quat.logJac .left (rotError (p.adjusted b).gamma start fin) = some L ∧
      (∀ ξ : V6, HasErrDeriv (fun t => p.residual (pert start ξ t) fin v v' b) ((p.startJac start fin b L).apply ξ)) ∧
      (∀ ξ : V6, HasErrDeriv (fun t => p.residual start (pert fin ξ t) v v' b) ((p.endJac start b L).apply ξ))

theorem C80_statement_false : ¬ C80_statement := by
  intro h
  obtain ⟨L, -, h1, -⟩ := h restPre turned turned 0 0 ⟨0, 0⟩ id_unit turned_unit turned_unit
    (rest_ok turned turned_unit)
  exact C80_start_violated restPre turned turned 0 0 ⟨0, 0⟩ id_unit turned_unit turned_unit
    (rest_ok turned turned_unit) turned_R L h1

/-- The hypotheses of the partial theorems are met at the identity. -/
example : UnitQ DQuat.identity.r ∧ DQuat.identity.r.R = 1 ∧
    LogOk (rotError (restPre.adjusted ⟨0, 0⟩).gamma DQuat.identity DQuat.identity) :=
  ⟨id_unit, eq_one_of_mulVec mulVec_id, rest_ok _ id_unit⟩

/-! ### The bias -/

theorem normalize_deriv {f : ℝ → Quat} {e : Quat} (h0 : f 0 = Quat.identity) (hf : HasQuatDeriv f e)
    (he : e.w = 0) : HasQuatDeriv (fun t => (f t).normalize) e := by
  have hw : (f 0).w = 1 := by rw [h0]; rfl
  have hx : (f 0).x = 0 := by rw [h0]; rfl
  have hy : (f 0).y = 0 := by rw [h0]; rfl
  have hz : (f 0).z = 0 := by rw [h0]; rfl
  obtain ⟨dw, dx, dy, dz⟩ := hf
  have hs : HasDerivAt (fun t => (f t).sqNorm) 0 0 := by
    have := (((dw.mul dw).add (dx.mul dx)).add (dy.mul dy)).add (dz.mul dz)
    refine (this.congr_of_eventuallyEq (Filter.Eventually.of_forall fun t => ?_)).congr_deriv ?_
    · simp only [Quat.sqNorm, Pi.add_apply, Pi.mul_apply]
    · rw [hw, hx, hy, hz, he]; ring
  have h1 : (f 0).sqNorm = 1 := by rw [h0]; norm_num [Quat.sqNorm, Quat.identity]
  have hn : HasDerivAt (fun t => (f t).norm) 0 0 := by
    refine (hs.sqrt (by rw [h1]; norm_num)).congr_deriv ?_
    rw [zero_div]
  have hn1 : (f 0).norm = 1 := by unfold Quat.norm; rw [h1, Real.sqrt_one]
  have hne : (f 0).norm ≠ 0 := by rw [hn1]; norm_num
  refine ⟨(dw.div hn hne).congr_deriv ?_, (dx.div hn hne).congr_deriv ?_, (dy.div hn hne).congr_deriv ?_,
    (dz.div hn hne).congr_deriv ?_⟩ <;> rw [hn1] <;> simp

theorem expJac_transpose (w : V3) : (Quat.expJac .left w)ᵀ = Quat.expJac .right w := by
  unfold Quat.expJac
  apply mat_ext <;> simp only [transpose_apply, Matrix.add_apply, Matrix.sub_apply, Matrix.smul_apply, vecMulVec_apply,
    smul_eq_mul, one_00, one_01, one_02, one_10, one_11, one_12, one_20, one_21, one_22,
    skew_00, skew_01, skew_02, skew_10, skew_11, skew_12, skew_20, skew_21, skew_22] <;> ring

theorem expJac_zero (side : Side) : Quat.expJac side 0 = 1 := by
  have h0 : vnorm (0 : V3) = 0 := by unfold vnorm; simp [sqNorm, dot]
  have hS : sqNorm (0 : V3) = 0 := by simp [sqNorm, dot]
  have hk : abcQuat 0 = (1, 1 / 2, 1 / 6) := by
    unfold abcQuat
    dsimp only
    rw [h0, hS, if_neg (by norm_num)]
    unfold abcTaylor
    norm_num
  have hs : skew (0 : V3) = 0 := by apply mat_ext <;> comps <;> simp
  have hv : vecMulVec (0 : V3) (0 : V3) = 0 := by ext i j; simp [vecMulVec_apply]
  unfold Quat.expJac
  rw [hk, hs, hv]
  cases side <;> simp

/-- The exponential along a line from `w`, outside the Taylor branch or at zero. -/
theorem exp_line (w δ : V3) (h : w = 0 ∨ 4e-6 < vnorm w) :
    HasQuatDeriv (fun t => Quat.exp (w + t • δ)) (rightRate (Quat.exp w) ((Quat.expJac .left w)ᵀ.mulVec δ)) := by
  rw [expJac_transpose]
  rcases h with rfl | h
  · rw [exp_zero3, expJac_zero, one_mulVec]
    have hd := (exp_zero_deriv ⟨δ, 0⟩).1
    dsimp only at hd
    have hn := normalize_deriv (f := fun t => (DQuat.exp ⟨t • δ, t • (0 : V3)⟩).r)
      (by rw [zero_smul, zero_smul, exp_zero]; rfl) hd (by simp [Quat.smul, Quat.pure])
    have hev : ∀ᶠ t in nhds (0 : ℝ), (DQuat.exp ⟨t • δ, t • (0 : V3)⟩).r.normalize = Quat.exp (0 + t • δ) := by
      have hc : ContinuousAt (fun t : ℝ => Real.sqrt (t * t * sqNorm δ)) 0 := by fun_prop
      have h0 : Real.sqrt (0 * 0 * sqNorm δ) < 4e-6 := by norm_num
      filter_upwards [small_near δ, hc.eventually (gt_mem_nhds h0)] with t ht h2
      rw [← sqNorm_scale] at h2
      unfold DQuat.exp DQuat.expCoeffs Quat.exp
      dsimp only
      rw [zero_add, if_neg ht, if_neg (not_lt.2 (show vnorm (t • δ) ≤ 4e-6 from h2.le)), ← sqNorm_eq]
      have e1 : Real.sqrt (sqNorm (t • δ)) = vnorm (t • δ) := rfl
      rw [e1]
      congr 1
      ext <;> dsimp only <;> ring
    have he : rightRate Quat.identity δ = Quat.smul (1 / 2) (Quat.pure δ) := by
      unfold rightRate
      rw [id_otimes]
    rw [he]
    refine ⟨?_, ?_, ?_, ?_⟩
    · exact hn.1.congr_of_eventuallyEq (hev.mono fun t h => (congrArg Quat.w h).symm)
    · exact hn.2.1.congr_of_eventuallyEq (hev.mono fun t h => (congrArg Quat.x h).symm)
    · exact hn.2.2.1.congr_of_eventuallyEq (hev.mono fun t h => (congrArg Quat.y h).symm)
    · exact hn.2.2.2.congr_of_eventuallyEq (hev.mono fun t h => (congrArg Quat.z h).symm)
  · exact (C72_quat_exp w δ h).2

theorem leftRate_inj {u v : V3} {q : Quat} (hq : UnitQ q) (h : leftRate u q = leftRate v q) : u = v := by
  have h1 : (leftRate u q).otimes q.inverse = (leftRate v q).otimes q.inverse := by rw [h]
  have h2 : q.otimes q.inverse = Quat.identity := by
    simp only [UnitQ] at hq
    ext <;> simp only [Quat.otimes, Quat.inverse, Quat.identity]
    · linear_combination hq
    · ring
    · ring
    · ring
  rw [leftRate_otimes, leftRate_otimes, h2] at h1
  have hx := congrArg Quat.x h1
  have hy := congrArg Quat.y h1
  have hz := congrArg Quat.z h1
  simp only [leftRate, Quat.smul, Quat.otimes, Quat.pure, Quat.identity] at hx hy hz
  apply vec_ext <;> linarith

theorem HasQuatDeriv.unique {f : ℝ → Quat} {a b : Quat} (h : HasQuatDeriv f a) (k : HasQuatDeriv f b) : a = b :=
  Quat.ext (h.1.unique k.1) (h.2.1.unique k.2.1) (h.2.2.1.unique k.2.2.1) (h.2.2.2.unique k.2.2.2)

/-- The left Jacobian of the exponential is the right one turned by the rotation itself. -/
theorem left_right_jac (w : V3) (h : 4e-6 < vnorm w) :
    Quat.expJac .left w = (Quat.exp w).Rᵀ * Quat.expJac .right w := by
  have hu := (Verif.Props.Quat.C45_exp_unit w).1
  refine Matrix.ext_of_mulVec_single fun i => ?_
  have h1 := C72_quat_exp w (Pi.single i 1) h
  have h2 := HasQuatDeriv.unique h1.1 h1.2
  rw [right_left _ hu] at h2
  rw [leftRate_inj hu h2, rota_eq, mulVec_mulVec]

/-- The Jacobian of the logarithm and its transpose. -/
theorem log_jac_transpose (q : Quat) (hq : UnitQ q) (h : LogOk q) (L : M3) (hL : Quat.logJac .left q = some L) :
    L = Lᵀ * q.R := by
  rcases h with rfl | ⟨hn, hw⟩
  · rw [logJac_id] at hL
    obtain rfl := Option.some.inj hL
    rw [transpose_one, Matrix.one_mul]
    exact (eq_one_of_mulVec mulVec_id).symm
  · obtain ⟨⟨L', hL', hinv⟩, -⟩ := C72_quat_log_partial q hq hn hw
    rw [hL] at hL'
    obtain rfl := Option.some.inj hL'
    have hlog : 4e-6 < vnorm q.log := by
      have hn0 : 0 < vnorm q.bar := lt_trans (by norm_num) hn
      have hu : vnorm q.bar * vnorm q.bar + q.w * q.w = 1 := by
        simp only [UnitQ] at hq
        rw [bar_norm_sq, ← hq]; ring
      obtain ⟨hc, hs, hpos, -⟩ := atan2_unit hu hn0
      have hlen : vnorm q.log = 2 * atan2 (vnorm q.bar) q.w := by
        unfold Quat.log
        simp only [gt_iff_lt, hn, if_true]
        rw [Quat.norm_smul _ (by positivity)]
        field_simp
      have := Real.sin_le hpos.le
      rw [hs] at this
      rw [hlen]
      linarith
    have hJ := left_right_jac q.log hlog
    rw [C67_exp_log_partial q hq hn] at hJ
    have h1 : Quat.expJac .right q.log * Lᵀ = 1 := by
      rw [← expJac_transpose, ← transpose_mul, hinv, transpose_one]
    have h2 : L * q.Rᵀ = Lᵀ := by
      have : L * q.Rᵀ * (Quat.expJac .right q.log * Lᵀ) = Lᵀ := by
        rw [← Matrix.mul_assoc, Matrix.mul_assoc L, ← hJ, hinv, Matrix.one_mul]
      rwa [h1, Matrix.mul_one] at this
    rw [← h2, Matrix.mul_assoc, (rot_rel (R_isRot q hq)).1, Matrix.mul_one]

/-- A bias moving along a line. -/
def biasLine (b e : Bias) (t : ℝ) : Bias := ⟨b.accel + t • e.accel, b.gyro + t • e.gyro⟩

theorem biasLine_vec (b e : Bias) (t : ℝ) : (biasLine b e t).toVec = b.toVec + t • e.toVec := by
  ext ⟨i, j⟩
  fin_cases i <;> rfl

theorem adjustment_line (p : Pre) (b e : Bias) (t : ℝ) :
    (p.adjustment (biasLine b e t)).alpha = (p.adjustment b).alpha + t • (p.adjustment e).alpha ∧
    (p.adjustment (biasLine b e t)).beta = (p.adjustment b).beta + t • (p.adjustment e).beta ∧
    (p.adjustment (biasLine b e t)).gamma = (p.adjustment b).gamma + t • (p.adjustment e).gamma := by
  unfold Pre.adjustment
  rw [biasLine_vec, mulVec_add, mulVec_smul]
  exact ⟨rfl, rfl, rfl⟩

theorem block9 (M : Fin 3 → Fin 3 → M3) (x : I9 → ℝ) (i : Fin 3) :
    (fun k => (of fun (p q : I9) => M p.1 q.1 p.2 q.2).mulVec x (i, k))
      = (M i 0).mulVec (fun k => x (0, k)) + (M i 1).mulVec (fun k => x (1, k)) + (M i 2).mulVec (fun k => x (2, k)) := by
  funext k
  simp only [Pi.add_apply, mulVec, dotProduct, of_apply, Fintype.sum_prod_type, Fin.sum_univ_three]

/-- **C80**, bias: the reported Jacobian is the derivative of the residual, for every state, with the adjustment of
the rotation outside the Taylor branch of `exp` or zero and the rotation error outside that of `log` or zero. -/
theorem C80_bias_partial (p : Pre) (start fin : DQuat) (v v' : V3) (b : Bias) (hg : UnitQ p.state.gamma)
    (hs : UnitQ start.r) (hf : UnitQ fin.r) (hE : LogOk (rotError (p.adjusted b).gamma start fin))
    (hA : (p.adjustment b).gamma = 0 ∨ 4e-6 < vnorm (p.adjustment b).gamma) :
    ∃ L, Quat.logJac .left (rotError (p.adjusted b).gamma start fin) = some L ∧
      ∀ e : Bias, HasErrDeriv (fun t => p.residual start fin v v' (biasLine b e t))
        (IErr.ofVec ((p.biasJac start fin v' b L).mulVec e.toVec)) := by
  have ha := adjusted_unit p b hg
  obtain ⟨L, hL, hlog⟩ := log_curve _ (rotError_unit ha hs hf) hE
  refine ⟨L, hL, fun e => ?_⟩
  have hLt := log_jac_transpose _ (rotError_unit ha hs hf) hE L hL
  set J := (Quat.expJac .left (p.adjustment b).gamma)ᵀ with hJ
  have hγ : HasQuatDeriv (fun t => (p.adjusted (biasLine b e t)).gamma)
      (rightRate (p.adjusted b).gamma (J.mulVec (p.adjustment e).gamma)) := by
    have h1 := otimes_deriv (const_deriv p.state.gamma) (exp_line (p.adjustment b).gamma (p.adjustment e).gamma hA)
    rw [zero_add_q, otimes_rightRate] at h1
    have e1 : (fun t => (p.adjusted (biasLine b e t)).gamma)
        = fun t => p.state.gamma.otimes (Quat.exp ((p.adjustment b).gamma + t • (p.adjustment e).gamma)) := by
      funext t
      rw [← (adjustment_line p b e t).2.2]; rfl
    rw [e1]
    exact h1
  have e0 : p.adjusted (biasLine b e 0) = p.adjusted b := by
    have : biasLine b e 0 = b := by unfold biasLine; rw [zero_smul, zero_smul, add_zero, add_zero]
    rw [this]
  have hα : HasVecDeriv (fun t => (p.adjusted (biasLine b e t)).alpha) (p.adjustment e).alpha := by
    have e1 : (fun t => (p.adjusted (biasLine b e t)).alpha)
        = fun t => p.state.alpha + ((p.adjustment b).alpha + t • (p.adjustment e).alpha) := by
      funext t
      rw [← (adjustment_line p b e t).1]; rfl
    rw [e1]
    exact ((vconst _).add (vline _ _)).congr (zero_add _)
  have hβ : HasVecDeriv (fun t => (p.adjusted (biasLine b e t)).beta) (p.adjustment e).beta := by
    have e1 : (fun t => (p.adjusted (biasLine b e t)).beta)
        = fun t => p.state.beta + ((p.adjustment b).beta + t • (p.adjustment e).beta) := by
      funext t
      rw [← (adjustment_line p b e t).2.1]; rfl
    rw [e1]
    exact ((vconst _).add (vline _ _)).congr (zero_add _)
  have hval : IErr.ofVec ((p.biasJac start fin v' b L).mulVec e.toVec) =
      ⟨-(p.adjustment e).alpha,
        -(p.adjustment e).beta - ((p.adjusted b).gamma.Rᵀ * skew v').mulVec (J.mulVec (p.adjustment e).gamma),
        -(L.mulVec (J.mulVec (p.adjustment e).gamma))⟩ := by
    unfold Pre.biasJac IErr.ofVec
    dsimp only
    rw [← mulVec_mulVec, ← mulVec_mulVec]
    have hAd : ((rotError (p.adjusted b).gamma start fin).Ad * L)ᵀ = L := by
      unfold Quat.Ad
      rw [transpose_mul, transpose_transpose]
      exact hLt.symm
    rw [hAd]
    simp only [block9, Matrix.cons_val, zero_mulVec, one_mulVec, neg_mulVec, add_zero, zero_add]
    rw [sub_eq_add_neg]
    rfl
  rw [hval]
  refine ⟨?_, ?_, ?_⟩
  · exact ((vconst _).sub hα).congr (zero_sub _)
  · have h1 := (((rota_deriv hγ (vconst v')).sub (vconst v)).sub (vconst (p.dt • start.r.rotp GRAVITY))).sub hβ
    refine h1.congr ?_
    have hsk : ∀ w : V3, (skew w)ᵀ = -skew w := fun w => by
      apply mat_ext <;> rw [Matrix.neg_apply, transpose_apply] <;> comps <;> ring
    have h0 : (p.adjusted b).gamma.rota 0 = 0 := by rw [rota_eq, mulVec_zero]
    rw [e0, dR_right _ ha, h0, transpose_neg, transpose_mul, hsk, Matrix.mul_neg, neg_neg, ← mulVec_mulVec,
      skew_mulVec, ← mulVec_mulVec, skew_mulVec, cross_comm v', mulVec_neg, add_zero, sub_zero, sub_zero]
    abel_nf
  · have hq := otimes_deriv (inverse_deriv hγ) (const_deriv (start.r.inverse.otimes fin.r))
    have := hlog _ (-(J.mulVec (p.adjustment e).gamma)) ?_ (qd_congr hq ?_)
    · refine this.congr ?_
      rw [mulVec_neg]
    · rw [e0]; rfl
    · rw [add_zero_q, rightRate_inverse, leftRate_otimes]
      rfl

end Verif.Props.ImuJac
