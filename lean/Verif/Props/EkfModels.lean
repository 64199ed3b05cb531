import Verif.Model.Ekf
import Verif.Lemmas.LieCurve

/-!
The hand-written models of `core/ekf/rtk_ekf_impl.cxx`: measurement Jacobians (C74), the Jacobian of the
dynamics (C75), the clock used for an observation (C76) and the size of a bundle (C78).
-/

namespace Verif.Props.EkfModels

open Verif.Model.Lie Verif.Model.Ekf Verif.Lemmas.Lie Verif.Lemmas.LieDeriv Verif.Lemmas.LieCurve
  Verif.Props.Quat Verif.Props.DQuat Verif.Props.So3 Verif.Props.LieJac Verif.Props.Se3Jac Matrix

theorem inverse_R (p : Quat) : p.inverse.R = p.Rᵀ := by
  apply mat_ext <;> rw [transpose_apply] <;> comps <;> simp only [Quat.inverse] <;> ring

theorem inverse_unit {p : Quat} (h : UnitQ p) : UnitQ p.inverse := by
  simp only [UnitQ, Quat.inverse] at *; linear_combination h

theorem otimes_unit {p q : Quat} (hp : UnitQ p) (hq : UnitQ q) : UnitQ (p.otimes q) := by
  simp only [UnitQ, Quat.otimes] at *
  linear_combination (q.w ^ 2 + q.x ^ 2 + q.y ^ 2 + q.z ^ 2) * hp + hq

/-- The states considered: both poses have unit quaternions. -/
def Unit (x : State) : Prop := UnitQ x.pose.r ∧ UnitQ x.TI2e.r

theorem qB2e_R {x : State} (h : Unit x) : (qB2e x).R = x.TI2e.r.R * x.pose.r.Rᵀ := by
  unfold qB2e
  rw [R_mul _ _ (inverse_unit h.1) h.2, inverse_R]

theorem qB2e_rotp {x : State} (h : Unit x) (v : V3) :
    (qB2e x).rotp v = x.TI2e.r.rotp (x.pose.r.rota v) := by
  rw [rotp_eq, rotp_eq, rota_eq, qB2e_R h, mulVec_mulVec]

theorem rotpM_eq (q : Quat) (m : M3) : rotpM q m = q.R * m := by
  ext i j
  rw [rotpM, of_apply, rotp_eq, mulVec_at, mul_at]

theorem rotaM_eq (q : Quat) (m : M3) : rotaM q m = q.Rᵀ * m := by
  ext i j
  rw [rotaM, of_apply, rota_eq, mulVec_at, mul_at]

theorem rotpM_mulVec (q : Quat) (m : M3) (v : V3) : (rotpM q m).mulVec v = q.rotp (m.mulVec v) := by
  rw [rotpM_eq, ← mulVec_mulVec, rotp_eq]

theorem rotaM_mulVec (q : Quat) (m : M3) (v : V3) : (rotaM q m).mulVec v = q.rota (m.mulVec v) := by
  rw [rotaM_eq, ← mulVec_mulVec, rota_eq]

theorem cross_comm (a b : V3) : cross a b = -cross b a := by
  apply vec_ext <;> rw [Pi.neg_apply] <;> comps <;> ring

theorem rotp_neg (q : Quat) (v : V3) : q.rotp (-v) = -q.rotp v := by
  rw [rotp_eq, rotp_eq, mulVec_neg]

theorem rota_neg (q : Quat) (v : V3) : q.rota (-v) = -q.rota v := by
  rw [rota_eq, rota_eq, mulVec_neg]

/-- The state moved by `t dx`. -/
noncomputable def move (x : State) (dx : ErrorState) (t : ℝ) : State := x.plusAssign (dx.scale t)

theorem move_pose (x : State) (dx : ErrorState) (t : ℝ) : (move x dx t).pose = pert x.pose dx.pose t := rfl
theorem move_TI2e (x : State) (dx : ErrorState) (t : ℝ) : (move x dx t).TI2e = pert x.TI2e dx.TI2e t := rfl
theorem move_pB2g (x : State) (dx : ErrorState) (t : ℝ) : (move x dx t).pB2g = x.pB2g + t • dx.pB2g := rfl
theorem move_vel (x : State) (dx : ErrorState) (t : ℝ) : (move x dx t).vel = x.vel + t • dx.vel := rfl

/-- How the antenna moves. -/
theorem antPos_deriv (x : State) (hx : Unit x) (dx : ErrorState) :
    HasVecDeriv (fun t => antPos (move x dx t))
      (-cross dx.TI2e.w (antPos x) + (x.TI2e.r.rotp (x.pose.r.rota (cross dx.pose.w x.pB2g)
        + x.pose.r.rota dx.pB2g + x.pose.r.rota dx.pose.v) - dx.TI2e.v)) := by
  have h1 := (pert_rota x.pose hx.1 dx.pose (vline x.pB2g dx.pB2g)).add (pert_trans x.pose hx.1 dx.pose)
  have h2 := h1.sub (pert_trans x.TI2e hx.2 dx.TI2e)
  refine (pert_rotp x.TI2e hx.2 dx.TI2e h2).congr ?_
  rw [zero_smul, add_zero, pert_zero, pert_zero, rotp_sub _ _ (x.TI2e.r.rota dx.TI2e.v), rotp_rota _ hx.2]
  rfl

/-- The rate of `q_b2e`. -/
theorem qB2e_deriv (x : State) (dx : ErrorState) :
    HasQuatDeriv (fun t => qB2e (move x dx t))
      ((Quat.smul (-1) (leftRate dx.pose.w (qB2e x))).add (rightRate (qB2e x) dx.TI2e.w)) := by
  refine qd_congr (otimes_deriv (inverse_deriv (pert_r x.pose dx.pose)) (pert_r x.TI2e dx.TI2e)) ?_
  rw [move_pose, move_TI2e, pert_zero, pert_zero]
  unfold qB2e
  apply Quat.ext <;>
    simp only [Quat.add, Quat.smul, leftRate, rightRate, Quat.otimes, Quat.pure, Quat.inverse] <;> ring

theorem qB2e_unit {x : State} (hx : Unit x) : UnitQ (qB2e x) := otimes_unit (inverse_unit hx.1) hx.2

/-- How the velocity of the antenna moves. -/
theorem antVel_deriv (x : State) (hx : Unit x) (u : Input) (dx : ErrorState) :
    HasVecDeriv (fun t => antVel (move x dx t) u)
      ((qB2e x).rotp (cross dx.pose.w (antVelB x u)) - cross dx.TI2e.w (antVel x u)
        + (qB2e x).rotp (cross u.gyro dx.pB2g + dx.vel)) := by
  have h1 := ((vline x.pB2g dx.pB2g).cross_left u.gyro).add (vline x.vel dx.vel)
  refine (rotp_deriv (qB2e_deriv x dx) h1).congr ?_
  have hq := qB2e_unit hx
  have e0 : qB2e (move x dx 0) = qB2e x := by
    unfold qB2e
    rw [move_pose, move_TI2e, pert_zero, pert_zero]
  rw [e0, dR_add, dR_neg, dR_left _ hq, dR_right _ hq, zero_smul, zero_smul, add_zero, add_zero, neg_neg,
    add_mulVec, neg_mulVec, ← mulVec_mulVec, ← mulVec_mulVec, skew_mulVec, skew_mulVec, ← rotp_eq, ← rotp_eq,
    ← sub_eq_add_neg]
  rfl

theorem apply_blocks (a b c d : M3) (ξ : V6) : M6.apply (fromBlocks a b c d) ξ
    = ⟨a.mulVec ξ.w + b.mulVec ξ.v, c.mulVec ξ.w + d.mulVec ξ.v⟩ := by
  unfold M6.apply
  rw [toBlocks_fromBlocks₁₁, toBlocks_fromBlocks₁₂, toBlocks_fromBlocks₂₁, toBlocks_fromBlocks₂₂]

/-- **C74**, position and velocity measurement: the reported Jacobian is the derivative of the residual, at
every state, in every direction of the error state. -/
theorem C74_point_pos (z : V6) (x : State) (hx : Unit x) (u : Input) (dx : ErrorState) (i : Fin 3) :
    HasDerivAt (fun t => (hPointPos z (x.plusAssign (dx.scale t)) u).w i)
      (((pointPosJac x u).apply dx).w i) 0 ∧
    HasDerivAt (fun t => (hPointPos z (x.plusAssign (dx.scale t)) u).v i)
      (((pointPosJac x u).apply dx).v i) 0 := by
  have hq := qB2e_rotp hx
  constructor
  · refine (((vconst z.w).sub (antPos_deriv x hx dx)).congr ?_) i
    unfold PointPosJac.apply pointPosJac
    dsimp only
    rw [apply_blocks, apply_blocks]
    dsimp only
    rw [rotpM_mulVec, skew_mulVec, neg_mulVec, ← rotp_eq, neg_mulVec, ← rotp_eq, neg_mulVec, skew_mulVec,
      one_mulVec, zero_mulVec, hq, hq, hq, cross_comm x.pB2g, rota_neg, rotp_neg, rotp_add, rotp_add,
      cross_comm (antPos x)]
    abel
  · refine (((vconst z.v).sub (antVel_deriv x hx u dx)).congr ?_) i
    unfold PointPosJac.apply pointPosJac
    dsimp only
    rw [apply_blocks, apply_blocks]
    dsimp only
    rw [rotpM_mulVec, rotaM_mulVec, skew_mulVec, zero_mulVec, neg_mulVec, rotpM_mulVec, skew_mulVec, neg_mulVec,
      skew_mulVec, zero_mulVec, neg_mulVec, ← rotp_eq, ← hq, ← hq, cross_comm (antVelB x u), rotp_neg, rotp_add]
    have e : cross ((qB2e x).rotp (antVelB x u)) dx.TI2e.w = -cross dx.TI2e.w (antVel x u) := cross_comm _ _
    rw [e]
    abel

/-- A state with both poses turned and translated. -/
example : Unit ⟨0, ⟨⟨3/5, 0, 4/5, 0⟩, ⟨4, 1, -3, 2⟩⟩, ![1, 2, 3], 0, 0, 0, 0, 0, ![1, 1, 0],
    ⟨⟨1/10, 3/10, 3/10, 9/10⟩, ⟨0, 1, -1, 0⟩⟩, 0, fun _ => 0⟩ := by
  constructor <;> norm_num [UnitQ]

/-- **C74**, fix-and-hold: the reported Jacobian is the derivative of the residual. -/
theorem C74_fix_hold (z : List ℝ) (x : State) (junk : Fin 30 → ℝ) (h : x.numSd = z.length) (hk : x.numSd ≤ 30)
    (dx : ErrorState) (i : Fin x.numSd) :
    ∃ r : ℝ → Fin 30 → ℝ, (∀ t, hFixHold z (x.plusAssign (dx.scale t)) junk = some (r t)) ∧
      HasDerivAt (fun t => r t (Fin.castLE hk i)) ((fixHoldJac x.numSd).mulVec (fun j => dx.sd j.1) i) 0 := by
  refine ⟨fun t i => if i.1 < x.numSd then z.getD i.1 0 - (x.plusAssign (dx.scale t)).sd i.1 else junk i,
    fun t => ?_, ?_⟩
  · unfold hFixHold
    rw [if_pos (show (x.plusAssign (dx.scale t)).numSd = z.length from h)]
    rfl
  · have hi : (Fin.castLE hk i).1 < x.numSd := i.2
    have h1 : HasDerivAt (fun t : ℝ => z.getD i.1 0 - (x.sd i.1 + dx.sd i.1 * t)) (-(dx.sd i.1 * 1)) 0 :=
      (((hasDerivAt_id (0 : ℝ)).const_mul (dx.sd i.1)).const_add (x.sd i.1)).const_sub _
    refine (h1.congr_of_eventuallyEq (Filter.Eventually.of_forall fun t => ?_)).congr_deriv ?_
    · dsimp only
      rw [if_pos hi]
      simp only [State.plusAssign, ErrorState.scale]
      rw [if_pos hi]
      rfl
    · unfold fixHoldJac
      rw [neg_mulVec, one_mulVec, Pi.neg_apply, mul_one]

/-! ### The observation model -/

theorem vnorm_curve {f : ℝ → V3} {a : V3} (hf : HasVecDeriv f a) (h0 : 0 < vnorm (f 0)) :
    HasDerivAt (fun t => vnorm (f t)) (dot ((vnorm (f 0))⁻¹ • f 0) a) 0 := by
  have hs : HasDerivAt (fun t => sqNorm (f t)) (2 * dot (f 0) a) 0 := by
    refine ((((hf 0).mul (hf 0)).add ((hf 1).mul (hf 1))).add ((hf 2).mul (hf 2))).congr_deriv ?_
    simp only [dot]; ring
  have hne : sqNorm (f 0) ≠ 0 := by rw [sqNorm_eq]; positivity
  refine (hs.sqrt hne).congr_deriv ?_
  rw [sqrt_sqNorm]
  simp only [dot, Pi.smul_apply, smul_eq_mul]
  field_simp

theorem dot_add (a b c : V3) : dot a (b + c) = dot a b + dot a c := by
  simp only [dot, Pi.add_apply]; ring
theorem dot_sub (a b c : V3) : dot a (b - c) = dot a b - dot a c := by
  simp only [dot, Pi.sub_apply]; ring
theorem dot_neg (a b : V3) : dot a (-b) = -dot a b := by
  simp only [dot, Pi.neg_apply]; ring

theorem move_clk (x : State) (dx : ErrorState) (t : ℝ) : (move x dx t).gpsClk = x.gpsClk + t • dx.gpsClk ∧
    (move x dx t).galClk = x.galClk + t • dx.galClk ∧ (move x dx t).gloClk = x.gloClk + t • dx.gloClk :=
  ⟨rfl, rfl, rfl⟩

theorem obs_range_clk (o : ObsData) (x : State) (hx : Unit x) (dx : ErrorState)
    (hs : 0 < vnorm (o.sat.pos - antPos x)) (c dc : V2) :
    HasDerivAt (fun t => o.z 0 - estPrange (antPos (move x dx t)) (c + t • dc) o.sat)
      (-dot (los o x) ((qB2e x).R.mulVec ((skew x.pB2g).mulVec dx.pose.w))
        + dot (los o x) ((qB2e x).R.mulVec dx.pose.v)
        + dot (los o x) ((skew (antPos x)).mulVec dx.TI2e.w) - dot (los o x) dx.TI2e.v
        + dot (los o x) ((qB2e x).R.mulVec dx.pB2g) + -cLight / 1e9 * dc 0) 0 := by
  have e0 : antPos (move x dx 0) = antPos x := by
    unfold antPos
    rw [move_pose, move_TI2e, move_pB2g, pert_zero, pert_zero, zero_smul, add_zero]
  have h1 := (vconst o.sat.pos).sub (antPos_deriv x hx dx)
  have h2 := vnorm_curve h1 (by rw [e0]; exact hs)
  rw [e0] at h2
  have hc : HasDerivAt (fun t : ℝ => (c + t • dc) 0) (dc 0) 0 := by
    have h : HasDerivAt (fun t : ℝ => c 0 + t * dc 0) (1 * dc 0) 0 :=
      ((hasDerivAt_id (0 : ℝ)).mul_const (dc 0)).const_add (c 0)
    rw [one_mul] at h
    exact h
  have h3 := ((((h2.add_const o.sat.sagnac).add_const o.sat.iono).add_const o.sat.tropo).add
    (((hc.div_const 1e9).sub_const (o.sat.clk 0)).const_mul cLight)).const_sub (o.z 0)
  refine h3.congr_deriv ?_
  have hq := qB2e_rotp hx
  rw [← rotp_eq, ← rotp_eq, ← rotp_eq, skew_mulVec, skew_mulVec, hq, hq, hq, rotp_add, rotp_add,
    cross_comm x.pB2g, rota_neg, rotp_neg, cross_comm (antPos x)]
  unfold los
  simp only [dot_add, dot_sub, dot_neg]
  have hz : ∀ a : V3, dot a 0 = 0 := fun a => by simp [dot]
  rw [hz]
  ring

/-- **C74**, pseudorange row of the observation model: the reported row is the derivative of the residual for
each constellation, whenever the antenna is not at the satellite. -/
theorem C74_obs_range (o : ObsData) (x : State) (hx : Unit x) (u : Input) (dx : ErrorState)
    (hs : 0 < vnorm (o.sat.pos - antPos x)) (hg : o.gnssId = GPS ∨ o.gnssId = GALILEO ∨ o.gnssId = GLONASS) :
    ∃ r : ℝ → V2, (∀ t, hObs o (x.plusAssign (dx.scale t)) u = some (r t)) ∧
      HasDerivAt (fun t => r t 0) (obsJacRange o x dx) 0 := by
  unfold obsJacRange
  rcases hg with h | h | h
  · refine ⟨fun t => ![o.z 0 - estPrange (antPos (move x dx t)) (x.gpsClk + t • dx.gpsClk) o.sat,
      o.z 1 - estDoppler (antPos (move x dx t)) (antVel (move x dx t) u) (x.gpsClk + t • dx.gpsClk) o.sat],
      fun t => ?_, ?_⟩
    · unfold hObs obsClk
      rw [if_pos h]
      rfl
    · rw [if_pos h]
      exact obs_range_clk o x hx dx hs _ _
  · have h0 : ¬ o.gnssId = GPS := by rw [h]; decide
    refine ⟨fun t => ![o.z 0 - estPrange (antPos (move x dx t)) (x.galClk + t • dx.galClk) o.sat,
      o.z 1 - estDoppler (antPos (move x dx t)) (antVel (move x dx t) u) (x.galClk + t • dx.galClk) o.sat],
      fun t => ?_, ?_⟩
    · unfold hObs obsClk
      rw [if_neg h0, if_pos h]
      rfl
    · rw [if_neg h0, if_pos h]
      exact obs_range_clk o x hx dx hs _ _
  · have h0 : ¬ o.gnssId = GPS := by rw [h]; decide
    have h1 : ¬ o.gnssId = GALILEO := by rw [h]; decide
    refine ⟨fun t => ![o.z 0 - estPrange (antPos (move x dx t)) (x.gloClk + t • dx.gloClk) o.sat,
      o.z 1 - estDoppler (antPos (move x dx t)) (antVel (move x dx t) u) (x.gloClk + t • dx.gloClk) o.sat],
      fun t => ?_, ?_⟩
    · unfold hObs obsClk
      rw [if_neg h0, if_neg h1, if_pos h]
      rfl
    · rw [if_neg h0, if_neg h1, if_pos h]
      exact obs_range_clk o x hx dx hs _ _

/-- How the antenna position and velocity move. -/
def pRate (x : State) (dx : ErrorState) : V3 :=
  -cross dx.TI2e.w (antPos x) + (x.TI2e.r.rotp (x.pose.r.rota (cross dx.pose.w x.pB2g)
    + x.pose.r.rota dx.pB2g + x.pose.r.rota dx.pose.v) - dx.TI2e.v)

def vRate (x : State) (u : Input) (dx : ErrorState) : V3 :=
  (qB2e x).rotp (cross dx.pose.w (antVelB x u)) - cross dx.TI2e.w (antVel x u)
    + (qB2e x).rotp (cross u.gyro dx.pB2g + dx.vel)

/-- The part of the derivative of the expected Doppler the code leaves out: the turning of the line of sight
as the antenna moves, and the whole Sagnac term. -/
noncomputable def dopplerRest (o : ObsData) (x : State) (u : Input) (dx : ErrorState) : ℝ :=
  (dot (o.sat.vel - antVel x u) (los o x) * dot (los o x) (pRate x dx)
      - dot (o.sat.vel - antVel x u) (pRate x dx)) / vnorm (o.sat.pos - antPos x)
    + omegaEarth / cLight * (o.sat.vel 1 * pRate x dx 0 + o.sat.pos 1 * vRate x u dx 0
      - o.sat.vel 0 * pRate x dx 1 - o.sat.pos 0 * vRate x u dx 1)

theorem move_zero_pos (x : State) (dx : ErrorState) : antPos (move x dx 0) = antPos x := by
  unfold antPos
  rw [move_pose, move_TI2e, move_pB2g, pert_zero, pert_zero, zero_smul, add_zero]

theorem move_zero_vel (x : State) (u : Input) (dx : ErrorState) : antVel (move x dx 0) u = antVel x u := by
  unfold antVel qB2e antVelB
  rw [move_pose, move_TI2e, move_pB2g, move_vel, pert_zero, pert_zero, zero_smul, add_zero, zero_smul, add_zero]

theorem dot_deriv {f g : ℝ → V3} {a b : V3} (hf : HasVecDeriv f a) (hg : HasVecDeriv g b) :
    HasDerivAt (fun t => dot (f t) (g t)) (dot a (g 0) + dot (f 0) b) 0 := by
  refine ((((hf 0).mul (hg 0)).add ((hf 1).mul (hg 1))).add ((hf 2).mul (hg 2))).congr_deriv ?_
  simp only [dot]; ring

theorem unit_deriv {f : ℝ → V3} {a : V3} (hf : HasVecDeriv f a) (h0 : 0 < vnorm (f 0)) :
    HasVecDeriv (fun t => (vnorm (f t))⁻¹ • f t)
      ((vnorm (f 0))⁻¹ • (a - dot ((vnorm (f 0))⁻¹ • f 0) a • ((vnorm (f 0))⁻¹ • f 0))) := by
  intro i
  have h := ((vnorm_curve hf h0).inv h0.ne').mul (hf i)
  refine h.congr_deriv ?_
  simp only [Pi.smul_apply, Pi.sub_apply, Pi.inv_apply, smul_eq_mul]
  field_simp
  ring

theorem turn_eq (A e p : V3) (N : ℝ) : dot A (N⁻¹ • (0 - p - dot e (0 - p) • e))
    = (dot A e * dot e p - dot A p) / N := by
  simp only [dot, Pi.smul_apply, Pi.sub_apply, Pi.zero_apply, smul_eq_mul]
  ring

theorem obs_doppler_clk (o : ObsData) (x : State) (hx : Unit x) (u : Input) (dx : ErrorState)
    (hs : 0 < vnorm (o.sat.pos - antPos x)) (c dc : V2) :
    HasDerivAt (fun t => o.z 1 - estDoppler (antPos (move x dx t)) (antVel (move x dx t) u) (c + t • dc) o.sat)
      (-dot (los o x) ((qB2e x).R.mulVec ((skew (antVelB x u)).mulVec dx.pose.w))
        + dot (los o x) ((qB2e x).R.mulVec dx.vel)
        + dot (los o x) ((skew ((qB2e x).R.mulVec (antVelB x u))).mulVec dx.TI2e.w)
        + dot (los o x) ((rotpM (qB2e x) (skew u.gyro)).mulVec dx.pB2g) + -cLight / 1e9 * dc 1
        - dopplerRest o x u dx) 0 := by
  have e0 := move_zero_pos x dx
  have e1 := move_zero_vel x u dx
  have hp : HasVecDeriv (fun t => antPos (move x dx t)) (pRate x dx) := antPos_deriv x hx dx
  have hv : HasVecDeriv (fun t => antVel (move x dx t) u) (vRate x u dx) := antVel_deriv x hx u dx
  have h1 := (vconst o.sat.pos).sub hp
  have h2 := unit_deriv h1 (by rw [e0]; exact hs)
  have h4 := dot_deriv ((vconst o.sat.vel).sub hv) h2
  have hc : HasDerivAt (fun t : ℝ => (c + t • dc) 1) (dc 1) 0 := by
    have h : HasDerivAt (fun t : ℝ => c 1 + t * dc 1) (1 * dc 1) 0 :=
      ((hasDerivAt_id (0 : ℝ)).mul_const (dc 1)).const_add (c 1)
    rw [one_mul] at h
    exact h
  have h5 := ((((hp 0).const_mul (o.sat.vel 1)).add ((hv 0).const_mul (o.sat.pos 1))).sub
    ((hp 1).const_mul (o.sat.vel 0))).sub ((hv 1).const_mul (o.sat.pos 0))
  have h3 := ((h4.add (h5.const_mul (omegaEarth / cLight))).add
    (((hc.div_const 1e9).sub_const (o.sat.clk 1)).const_mul cLight)).const_sub (o.z 1)
  refine h3.congr_deriv ?_
  rw [e0, e1]
  have eV : dot (0 - vRate x u dx) ((vnorm (o.sat.pos - antPos x))⁻¹ • (o.sat.pos - antPos x))
      = -dot (los o x) (vRate x u dx) := by
    unfold los; simp only [dot, Pi.sub_apply, Pi.zero_apply]; ring
  have eR : dot (los o x) (vRate x u dx)
      = dot (los o x) ((qB2e x).R.mulVec ((skew (antVelB x u)).mulVec dx.pose.w)) * (-1)
        - dot (los o x) ((skew ((qB2e x).R.mulVec (antVelB x u))).mulVec dx.TI2e.w) * (-1)
        + dot (los o x) ((rotpM (qB2e x) (skew u.gyro)).mulVec dx.pB2g)
        + dot (los o x) ((qB2e x).R.mulVec dx.vel) := by
    unfold vRate
    rw [rotpM_mulVec, ← rotp_eq, ← rotp_eq, ← rotp_eq, skew_mulVec, skew_mulVec, skew_mulVec, rotp_add,
      cross_comm dx.pose.w, rotp_neg, cross_comm dx.TI2e.w]
    simp only [dot_add, dot_sub, dot_neg]
    unfold antVel
    ring
  have eT := turn_eq (o.sat.vel - antVel x u) (los o x) (pRate x dx) (vnorm (o.sat.pos - antPos x))
  rw [eV, eR]
  unfold dopplerRest
  rw [← eT]
  unfold los
  ring

/-- **C74**, Doppler row: the derivative of the residual is the reported row minus `dopplerRest`.  What is
missing is that `dopplerRest` vanishes, see `C74_obs_doppler_violated`. -/
theorem C74_obs_doppler_partial (o : ObsData) (x : State) (hx : Unit x) (u : Input) (dx : ErrorState)
    (hs : 0 < vnorm (o.sat.pos - antPos x)) (hg : o.gnssId = GPS ∨ o.gnssId = GALILEO ∨ o.gnssId = GLONASS) :
    ∃ r : ℝ → V2, (∀ t, hObs o (x.plusAssign (dx.scale t)) u = some (r t)) ∧
      HasDerivAt (fun t => r t 1) (obsJacDoppler o x u dx - dopplerRest o x u dx) 0 := by
  unfold obsJacDoppler
  rcases hg with h | h | h
  · refine ⟨fun t => ![o.z 0 - estPrange (antPos (move x dx t)) (x.gpsClk + t • dx.gpsClk) o.sat,
      o.z 1 - estDoppler (antPos (move x dx t)) (antVel (move x dx t) u) (x.gpsClk + t • dx.gpsClk) o.sat],
      fun t => ?_, ?_⟩
    · unfold hObs obsClk
      rw [if_pos h]
      rfl
    · rw [if_pos h]
      exact obs_doppler_clk o x hx u dx hs _ _
  · have h0 : ¬ o.gnssId = GPS := by rw [h]; decide
    refine ⟨fun t => ![o.z 0 - estPrange (antPos (move x dx t)) (x.galClk + t • dx.galClk) o.sat,
      o.z 1 - estDoppler (antPos (move x dx t)) (antVel (move x dx t) u) (x.galClk + t • dx.galClk) o.sat],
      fun t => ?_, ?_⟩
    · unfold hObs obsClk
      rw [if_neg h0, if_pos h]
      rfl
    · rw [if_neg h0, if_pos h]
      exact obs_doppler_clk o x hx u dx hs _ _
  · have h0 : ¬ o.gnssId = GPS := by rw [h]; decide
    have h1 : ¬ o.gnssId = GALILEO := by rw [h]; decide
    refine ⟨fun t => ![o.z 0 - estPrange (antPos (move x dx t)) (x.gloClk + t • dx.gloClk) o.sat,
      o.z 1 - estDoppler (antPos (move x dx t)) (antVel (move x dx t) u) (x.gloClk + t • dx.gloClk) o.sat],
      fun t => ?_, ?_⟩
    · unfold hObs obsClk
      rw [if_neg h0, if_neg h1, if_pos h]
      rfl
    · rw [if_neg h0, if_neg h1, if_pos h]
      exact obs_doppler_clk o x hx u dx hs _ _

/-- The state at the origin, with nothing turned. -/
def origin : State :=
  ⟨0, DQuat.identity, 0, 0, 0, 0, 0, 0, 0, DQuat.identity, 0, fun _ => 0⟩

/-- The zero error. -/
def still : ErrorState := ⟨⟨0, 0⟩, 0, 0, 0, 0, 0, 0, 0, ⟨0, 0⟩, fun _ => 0⟩

theorem origin_unit : Unit origin := by
  constructor <;> norm_num [UnitQ, origin, DQuat.identity, Quat.identity]

/-- A GPS satellite twenty thousand kilometres along the first axis, at rest. -/
def aboveSat : ObsData := ⟨0, ⟨![2e7, 0, 0], 0, 0, 0, 0, 0⟩, GPS⟩

theorem cross_zero_r (a : V3) : cross a 0 = 0 := by apply vec_ext <;> comps <;> simp
theorem cross_zero_l (a : V3) : cross 0 a = 0 := by apply vec_ext <;> comps <;> simp

theorem rota_id (v : V3) : Quat.identity.rota v = v := by
  rw [rota_eq]
  apply vec_ext <;> rw [mulVec_at] <;> simp only [transpose_apply] <;> comps <;> simp only [Quat.identity] <;> ring

theorem rotp_id (v : V3) : Quat.identity.rotp v = v := by
  rw [rotp_eq]
  apply vec_ext <;> rw [mulVec_at] <;> comps <;> simp only [Quat.identity] <;> ring

theorem qB2e_origin : qB2e origin = Quat.identity := by
  unfold qB2e origin DQuat.identity Quat.identity Quat.inverse Quat.otimes
  apply Quat.ext <;> simp

theorem translation_id : DQuat.identity.translation = 0 := by
  unfold DQuat.translation DQuat.identity Quat.identity Quat.inverse Quat.otimes Quat.bar
  ext i; fin_cases i <;> simp

theorem antPos_origin : antPos origin = 0 := by
  unfold antPos origin DQuat.transforma DQuat.transformp
  dsimp only
  rw [translation_id, show DQuat.identity.r = Quat.identity from rfl, rota_id, rotp_id, add_zero, sub_zero]

theorem antVel_origin : antVel origin ⟨0, 0⟩ = 0 := by
  unfold antVel
  rw [qB2e_origin, rotp_id]
  unfold antVelB origin
  dsimp only
  rw [cross_zero_r, add_zero]

/-- Pushing the velocity sideways. -/
def push : ErrorState := { still with vel := ![0, 1, 0] }

theorem pRate_push : pRate origin push = 0 := by
  unfold pRate
  rw [antPos_origin]
  unfold push still
  dsimp only
  rw [cross_zero_r, cross_zero_l, show origin.pose.r = Quat.identity from rfl,
    show origin.TI2e.r = Quat.identity from rfl, rota_id, rotp_id]
  simp

theorem vRate_push : vRate origin ⟨0, 0⟩ push = ![0, 1, 0] := by
  unfold vRate
  rw [antVel_origin, qB2e_origin, rotp_id, rotp_id]
  unfold push still
  dsimp only
  rw [cross_zero_l, cross_zero_r]
  simp

theorem mulVec_id (v : V3) : Quat.identity.R.mulVec v = v := by rw [← rotp_eq, rotp_id]

/-- **C74** fails for the Doppler row: the velocity enters the Sagnac term of the expected Doppler, the
reported row says it does not. -/
theorem C74_obs_doppler_violated : ∃ (o : ObsData) (x : State) (u : Input) (dx : ErrorState) (r : ℝ → V2),
    Unit x ∧ 0 < vnorm (o.sat.pos - antPos x) ∧ o.gnssId = GPS ∧
    (∀ t, hObs o (x.plusAssign (dx.scale t)) u = some (r t)) ∧
    obsJacDoppler o x u dx = 0 ∧ HasDerivAt (fun t => r t 1) (2e7 * omegaEarth / cLight) 0 := by
  have hN : vnorm (aboveSat.sat.pos - antPos origin) = 2e7 := by
    rw [antPos_origin, sub_zero]
    unfold vnorm aboveSat sqNorm dot
    rw [show ((![2e7, 0, 0] : V3) 0 * (![2e7, 0, 0] : V3) 0 + (![2e7, 0, 0] : V3) 1 * (![2e7, 0, 0] : V3) 1
      + (![2e7, 0, 0] : V3) 2 * (![2e7, 0, 0] : V3) 2) = 2e7 * 2e7 by simp, Real.sqrt_mul_self (by norm_num)]
  have hpos : 0 < vnorm (aboveSat.sat.pos - antPos origin) := by rw [hN]; norm_num
  obtain ⟨r, hr, hd⟩ := C74_obs_doppler_partial aboveSat origin origin_unit ⟨0, 0⟩ push hpos (.inl rfl)
  have hl : los aboveSat origin = ![1, 0, 0] := by
    unfold los
    rw [hN, antPos_origin, sub_zero]
    unfold aboveSat
    ext i; fin_cases i <;> norm_num
  have hJ : obsJacDoppler aboveSat origin ⟨0, 0⟩ push = 0 := by
    unfold obsJacDoppler
    rw [hl, qB2e_origin, mulVec_id, mulVec_id, mulVec_id, rotpM_mulVec, rotp_id, skew_mulVec, skew_mulVec,
      skew_mulVec]
    unfold push still
    dsimp only
    rw [cross_zero_r, cross_zero_r]
    norm_num [dot, aboveSat]
    exact Or.inl rfl
  refine ⟨aboveSat, origin, ⟨0, 0⟩, push, r, origin_unit, hpos, rfl, hr, hJ, hd.congr_deriv ?_⟩
  rw [hJ]
  unfold dopplerRest
  rw [pRate_push, vRate_push]
  have hz : ∀ a : V3, dot a 0 = 0 := fun a => by simp [dot]
  rw [hz, hz]
  unfold aboveSat
  simp only [Matrix.cons_val_zero, Matrix.cons_val_one, Pi.zero_apply]
  ring

/-- **C74** in full, the Doppler row included. -/
def C74_statement : Prop :=
  ∀ (o : ObsData) (x : State) (u : Input) (dx : ErrorState) (r : ℝ → V2), Unit x →
    0 < vnorm (o.sat.pos - antPos x) → (∀ t, hObs o (x.plusAssign (dx.scale t)) u = some (r t)) →
    HasDerivAt (fun t => r t 0) (obsJacRange o x dx) 0 ∧ HasDerivAt (fun t => r t 1) (obsJacDoppler o x u dx) 0

theorem C74_statement_false : ¬ C74_statement := by
  intro h
  obtain ⟨o, x, u, dx, r, hx, hs, _, hr, h0, hd⟩ := C74_obs_doppler_violated
  have := (h o x u dx r hx hs hr).2.unique hd
  rw [h0] at this
  unfold omegaEarth cLight at this
  norm_num at this

/-! ### The dynamics -/

/-- `dynamics` at a moved state, velocity rows: the attitude enters through gravity only. -/
theorem vel_rate (x : State) (hx : Unit x) (u : Input) (dx : ErrorState) :
    HasVecDeriv (fun s => (dynamics (x.plusAssign (dx.scale s)) u).vel)
      (x.pose.r.rota (cross dx.pose.w gravity) - dx.accBias) := by
  have h := (pert_rota x.pose hx.1 dx.pose (vconst gravity)).add
    ((vconst u.accel).sub (vline x.accBias dx.accBias))
  refine h.congr ?_
  rw [rota_eq x.pose.r 0, mulVec_zero, add_zero, zero_sub, sub_eq_add_neg]

/-- **C75**, columns of the accelerometer bias, the gyroscope bias and the velocity, and inputs: with the
attitude fixed the velocity rows of the state Jacobian are the derivative of the dynamics.  Missing: the
attitude, `C75_velocity_violated`. -/
theorem C75_velocity_partial (x : State) (hx : Unit x) (u : Input) (dx : ErrorState) (h : dx.pose.w = 0) :
    HasVecDeriv (fun s => (dynamics (x.plusAssign (dx.scale s)) u).vel) (stateJac x u dx).vel := by
  refine (vel_rate x hx u dx).congr ?_
  unfold stateJac
  dsimp only
  rw [h, cross_zero_l, rota_eq, mulVec_zero, mulVec_zero, neg_mulVec, one_mulVec, zero_add, zero_sub]

/-- The velocity rows are right exactly where gravity turned twice is the specific force. -/
theorem C75_velocity_iff_partial (x : State) (hx : Unit x) (u : Input) (dx : ErrorState) :
    HasVecDeriv (fun s => (dynamics (x.plusAssign (dx.scale s)) u).vel) (stateJac x u dx).vel ↔
      x.pose.r.rota (cross dx.pose.w gravity) = cross dx.pose.w (u.accel - x.accBias) := by
  have h := vel_rate x hx u dx
  have e : (stateJac x u dx).vel = cross dx.pose.w (u.accel - x.accBias) - dx.accBias := by
    unfold stateJac
    dsimp only
    rw [neg_mulVec, neg_mulVec, one_mulVec, skew_mulVec, cross_comm dx.pose.w]
    rfl
  rw [e]
  constructor
  · intro h'
    have : x.pose.r.rota (cross dx.pose.w gravity) - dx.accBias
        = cross dx.pose.w (u.accel - x.accBias) - dx.accBias := funext fun i => (h i).unique (h' i)
    exact sub_left_injective this
  · intro h'
    rw [← h']
    exact h

/-- **C75** fails in the velocity rows: in free fall, tilting the body changes the derivative of the velocity
by the tilted gravity, the Jacobian reports no change. -/
theorem C75_velocity_violated : ∃ (x : State) (u : Input) (dx : ErrorState), Unit x ∧
    (stateJac x u dx).vel = 0 ∧
    HasVecDeriv (fun s => (dynamics (x.plusAssign (dx.scale s)) u).vel) ![0, -9.80665, 0] := by
  refine ⟨origin, ⟨0, 0⟩, { still with pose := ⟨![1, 0, 0], 0⟩ }, origin_unit, ?_, ?_⟩
  · unfold stateJac
    dsimp only
    rw [neg_mulVec, neg_mulVec, skew_mulVec]
    simp only [origin, still]
    rw [sub_zero, cross_zero_l]
    simp
  · refine (vel_rate origin origin_unit ⟨0, 0⟩ _).congr ?_
    rw [show origin.pose.r = Quat.identity from rfl, rota_id]
    simp only [still, sub_zero]
    unfold gravity
    apply vec_ext <;> comps <;> norm_num

/-- **C75** fails in the clock rows: the bias of each clock is driven by its drift, the Jacobian has zeros
there. -/
theorem C75_clock_violated : ∃ (x : State) (u : Input) (dx : ErrorState), Unit x ∧
    (stateJac x u dx).gpsClk = 0 ∧ (stateJac x u dx).galClk = 0 ∧ (stateJac x u dx).gloClk = 0 ∧
    HasDerivAt (fun s => (dynamics (x.plusAssign (dx.scale s)) u).gpsClk 0) 1 0 ∧
    HasDerivAt (fun s => (dynamics (x.plusAssign (dx.scale s)) u).galClk 0) 1 0 ∧
    HasDerivAt (fun s => (dynamics (x.plusAssign (dx.scale s)) u).gloClk 0) 1 0 := by
  have h : HasDerivAt (fun s : ℝ => 0 + s * 1) (1 * 1) 0 :=
    ((hasDerivAt_id (0 : ℝ)).mul_const 1).const_add 0
  rw [one_mul] at h
  exact ⟨origin, ⟨0, 0⟩, { still with gpsClk := ![0, 1], galClk := ![0, 1], gloClk := ![0, 1] }, origin_unit,
    rfl, rfl, rfl, h, h, h⟩

/-- Two motions of a pose, each driven by its own body rate; the pose of the second seen from the first,
`p⁻¹ ⊗ q`, changes at half of `E ⊗ ξ_q − ξ_p ⊗ E` (rotation part and dual part). -/
theorem relative_rate (p q : ℝ → DQuat) (a b : V6)
    (hpr : HasQuatDeriv (fun t => (p t).r) (rightRate (p 0).r a.w))
    (hpv : HasQuatDeriv (fun t => (p t).d) ((rightRate (p 0).r a.v).add (rightRate (p 0).d a.w)))
    (hqr : HasQuatDeriv (fun t => (q t).r) (rightRate (q 0).r b.w))
    (hqv : HasQuatDeriv (fun t => (q t).d) ((rightRate (q 0).r b.v).add (rightRate (q 0).d b.w))) :
    let E := (p 0).inverse.otimes (q 0)
    HasQuatDeriv (fun t => ((p t).inverse.otimes (q t)).r) ((rightRate E.r b.w).add
      (Quat.smul (-1) (leftRate a.w E.r))) ∧
    HasQuatDeriv (fun t => ((p t).inverse.otimes (q t)).d)
      (((rightRate E.r b.v).add (rightRate E.d b.w)).add
        (Quat.smul (-1) ((leftRate a.v E.r).add (leftRate a.w E.d)))) := by
  intro E
  constructor
  · refine qd_congr (otimes_deriv (inverse_deriv hpr) hqr) ?_
    simp only [E, DQuat.otimes, DQuat.inverse]
    apply Quat.ext <;>
      simp only [Quat.add, Quat.smul, leftRate, rightRate, Quat.otimes, Quat.pure, Quat.inverse] <;> ring
  · refine qd_congr (add_deriv (otimes_deriv (inverse_deriv hpr) hqv) (otimes_deriv (inverse_deriv hpv) hqr)) ?_
    simp only [E, DQuat.otimes, DQuat.inverse]
    apply Quat.ext <;>
      simp only [Quat.add, Quat.smul, leftRate, rightRate, Quat.otimes, Quat.pure, Quat.inverse] <;> ring

/-- The error rate of the pose rows, for a state moved by `s dx`: twice the rate of `relative_rate`, with the
body rates given by `dynamics` at the two states.  Twice the vector part of a small relative pose is its error
vector, so the derivative of this in `s` is what the pose rows of the state Jacobian stand for. -/
noncomputable def poseErrorRate (x : State) (u : Input) (dx : ErrorState) (s : ℝ) : Quat × Quat :=
  let E := DQuat.exp ⟨s • dx.pose.w, s • dx.pose.v⟩
  let a := (dynamics x u).pose
  let b := (dynamics (x.plusAssign (dx.scale s)) u).pose
  (Quat.smul 2 ((rightRate E.r b.w).add (Quat.smul (-1) (leftRate a.w E.r))),
   Quat.smul 2 (((rightRate E.r b.v).add (rightRate E.d b.w)).add
        (Quat.smul (-1) ((leftRate a.v E.r).add (leftRate a.w E.d)))))

theorem pure_deriv {f : ℝ → V3} {a : V3} (hf : HasVecDeriv f a) :
    HasQuatDeriv (fun s => Quat.pure (f s)) (Quat.pure a) :=
  ⟨hasDerivAt_const _ _, hf 0, hf 1, hf 2⟩

theorem smul_deriv (c : ℝ) {f : ℝ → Quat} {a : Quat} (hf : HasQuatDeriv f a) :
    HasQuatDeriv (fun s => Quat.smul c (f s)) (Quat.smul c a) :=
  ⟨hf.1.const_mul c, hf.2.1.const_mul c, hf.2.2.1.const_mul c, hf.2.2.2.const_mul c⟩

theorem right_deriv {q : ℝ → Quat} {e : Quat} (hq : HasQuatDeriv q e) {f : ℝ → V3} {a : V3}
    (hf : HasVecDeriv f a) :
    HasQuatDeriv (fun s => rightRate (q s) (f s)) ((rightRate e (f 0)).add (rightRate (q 0) a)) := by
  refine qd_congr (smul_deriv (1 / 2) (otimes_deriv hq (pure_deriv hf))) ?_
  apply Quat.ext <;> simp only [rightRate, Quat.smul, Quat.add] <;> ring

theorem left_deriv {q : ℝ → Quat} {e : Quat} (hq : HasQuatDeriv q e) (v : V3) :
    HasQuatDeriv (fun s => leftRate v (q s)) (leftRate v e) := by
  refine qd_congr (smul_deriv (1 / 2) (otimes_deriv (const_deriv (Quat.pure v)) hq)) ?_
  apply Quat.ext <;> simp only [leftRate, Quat.smul, Quat.add, Quat.otimes] <;> ring

theorem gyro_rate (x : State) (u : Input) (dx : ErrorState) :
    HasVecDeriv (fun s => (dynamics (x.plusAssign (dx.scale s)) u).pose.w) (-dx.gyroBias) :=
  ((vconst u.gyro).sub (vline x.gyroBias dx.gyroBias)).congr (zero_sub _)

theorem v_rate (x : State) (u : Input) (dx : ErrorState) :
    HasVecDeriv (fun s => (dynamics (x.plusAssign (dx.scale s)) u).pose.v) dx.vel := vline x.vel dx.vel

theorem zero_move (x : State) (u : Input) (dx : ErrorState) :
    (dynamics (x.plusAssign (dx.scale 0)) u).pose = (dynamics x u).pose := by
  unfold dynamics State.plusAssign ErrorState.scale
  dsimp only
  rw [zero_smul, zero_smul, add_zero, add_zero]

/-- **C75**, rotation rows: they are the linearisation of the error dynamics. -/
theorem C75_rotation (x : State) (u : Input) (dx : ErrorState) :
    HasQuatDeriv (fun s => (poseErrorRate x u dx s).1) (Quat.pure (stateJac x u dx).pose.w) := by
  have e0 : DQuat.exp ⟨(0 : ℝ) • dx.pose.w, (0 : ℝ) • dx.pose.v⟩ = DQuat.identity := by
    rw [zero_smul, zero_smul, exp_zero]
  have hE := (exp_zero_deriv dx.pose).1
  refine qd_congr (smul_deriv 2 (add_deriv (right_deriv hE (gyro_rate x u dx))
    (smul_deriv (-1) (left_deriv hE (dynamics x u).pose.w)))) ?_
  rw [e0, zero_move]
  have hJ : (stateJac x u dx).pose.w = cross dx.pose.w (u.gyro - x.gyroBias) - dx.gyroBias := by
    unfold stateJac
    dsimp only
    rw [neg_mulVec, neg_mulVec, one_mulVec, skew_mulVec, cross_comm dx.pose.w]
    rfl
  rw [hJ, show (dynamics x u).pose.w = u.gyro - x.gyroBias from rfl]
  generalize u.gyro - x.gyroBias = w
  apply Quat.ext <;>
    simp only [rightRate, leftRate, Quat.smul, Quat.add, Quat.otimes, Quat.pure, DQuat.identity, Quat.identity,
      Pi.neg_apply, Pi.sub_apply] <;> (try comps) <;> ring

/-- **C75**, translation rows: the linearisation is the reported rows minus `ω × δp`.  Missing: that term,
`C75_translation_violated`. -/
theorem C75_translation_partial (x : State) (u : Input) (dx : ErrorState) :
    HasQuatDeriv (fun s => (poseErrorRate x u dx s).2)
      (Quat.pure ((stateJac x u dx).pose.v - cross (u.gyro - x.gyroBias) dx.pose.v)) := by
  have e0 : DQuat.exp ⟨(0 : ℝ) • dx.pose.w, (0 : ℝ) • dx.pose.v⟩ = DQuat.identity := by
    rw [zero_smul, zero_smul, exp_zero]
  have hE := exp_zero_deriv dx.pose
  refine qd_congr (smul_deriv 2 (add_deriv (add_deriv (right_deriv hE.1 (v_rate x u dx))
    (right_deriv hE.2 (gyro_rate x u dx)))
    (smul_deriv (-1) (add_deriv (left_deriv hE.1 (dynamics x u).pose.v)
      (left_deriv hE.2 (dynamics x u).pose.w))))) ?_
  rw [e0, zero_move]
  have hJ : (stateJac x u dx).pose.v = cross dx.pose.w x.vel + dx.vel := by
    unfold stateJac
    dsimp only
    rw [neg_mulVec, skew_mulVec, cross_comm dx.pose.w]
  rw [hJ, show (dynamics x u).pose.w = u.gyro - x.gyroBias from rfl, show (dynamics x u).pose.v = x.vel from rfl]
  generalize u.gyro - x.gyroBias = w
  apply Quat.ext <;>
    simp only [rightRate, leftRate, Quat.smul, Quat.add, Quat.otimes, Quat.pure, DQuat.identity, Quat.identity,
      Pi.neg_apply, Pi.sub_apply, Pi.add_apply] <;> (try comps) <;> ring

/-- **C75** fails in the translation rows: turning at one radian per second, a position error along the first
axis moves to the second; the Jacobian reports no change. -/
theorem C75_translation_violated : ∃ (x : State) (u : Input) (dx : ErrorState), Unit x ∧
    (stateJac x u dx).pose.v = 0 ∧
    HasQuatDeriv (fun s => (poseErrorRate x u dx s).2) (Quat.pure ![0, -1, 0]) := by
  have hJ : (stateJac origin ⟨0, ![0, 0, 1]⟩ { still with pose := ⟨0, ![1, 0, 0]⟩ }).pose.v = 0 := by
    unfold stateJac
    dsimp only
    simp only [still, mulVec_zero, zero_add]
  refine ⟨origin, ⟨0, ![0, 0, 1]⟩, { still with pose := ⟨0, ![1, 0, 0]⟩ }, origin_unit, hJ, ?_⟩
  refine qd_congr (C75_translation_partial _ _ _) ?_
  rw [hJ]
  simp only [origin, sub_zero, zero_sub]
  congr 1
  apply vec_ext <;> rw [Pi.neg_apply] <;> comps <;> norm_num

/-- **C75** in full for the components that carry a linearisation error: position, velocity, clocks. -/
def C75_statement : Prop :=
  ∀ (x : State) (u : Input) (dx : ErrorState), Unit x →
    HasQuatDeriv (fun s => (poseErrorRate x u dx s).1) (Quat.pure (stateJac x u dx).pose.w) ∧
    HasQuatDeriv (fun s => (poseErrorRate x u dx s).2) (Quat.pure (stateJac x u dx).pose.v) ∧
    HasVecDeriv (fun s => (dynamics (x.plusAssign (dx.scale s)) u).vel) (stateJac x u dx).vel ∧
    HasDerivAt (fun s => (dynamics (x.plusAssign (dx.scale s)) u).gpsClk 0) ((stateJac x u dx).gpsClk 0) 0

theorem C75_statement_false : ¬ C75_statement := by
  intro h
  obtain ⟨x, u, dx, hx, h0, hd⟩ := C75_velocity_violated
  have := ((h x u dx hx).2.2.1 1).unique (hd 1)
  rw [h0] at this
  norm_num at this

/-- **C75**, input Jacobian: it is the derivative of the dynamics in the input. -/
theorem C75_input (x : State) (u eta : Input) (i : Fin 3) :
    HasDerivAt (fun s : ℝ => (dynamics x ⟨u.accel + s • eta.accel, u.gyro + s • eta.gyro⟩).pose.w i)
      ((inputJac eta).pose.w i) 0 ∧
    HasDerivAt (fun s : ℝ => (dynamics x ⟨u.accel + s • eta.accel, u.gyro + s • eta.gyro⟩).pose.v i)
      ((inputJac eta).pose.v i) 0 ∧
    HasDerivAt (fun s : ℝ => (dynamics x ⟨u.accel + s • eta.accel, u.gyro + s • eta.gyro⟩).vel i)
      ((inputJac eta).vel i) 0 := by
  refine ⟨?_, ?_, ?_⟩
  · exact (((vline u.gyro eta.gyro).sub (vconst x.gyroBias)).congr (sub_zero _)) i
  · exact hasDerivAt_const _ _
  · exact (((vconst (x.pose.r.rota gravity)).add ((vline u.accel eta.accel).sub (vconst x.accBias))).congr
      (by rw [sub_zero, zero_add]; rfl)) i

/-- **C75**, `errorStateDynamics` is the sum of what the two Jacobians give. -/
theorem C75_error_dynamics (x : State) (u eta : Input) (dx : ErrorState) :
    (errorStateDynamics dx x u eta).pose.w = (stateJac x u dx).pose.w + (inputJac eta).pose.w ∧
    (errorStateDynamics dx x u eta).pose.v = (stateJac x u dx).pose.v + (inputJac eta).pose.v ∧
    (errorStateDynamics dx x u eta).vel = (stateJac x u dx).vel + (inputJac eta).vel := by
  unfold errorStateDynamics stateJac inputJac
  dsimp only
  simp only [neg_mulVec, one_mulVec, skew_mulVec]
  refine ⟨?_, ?_, ?_⟩ <;> abel

/-- **C75**, the components without an error dynamics: neither the input nor its noise enters the biases, the
clocks, the lever arm, the frame and the single differences. -/
theorem C75_input_rest (x : State) (u eta : Input) (dx : ErrorState) :
    (let d := dynamics x ⟨u.accel + eta.accel, u.gyro + eta.gyro⟩
     let e := dynamics x u
     let b := inputJac eta
     d.accBias = e.accBias + b.accBias ∧ d.gyroBias = e.gyroBias + b.gyroBias ∧ d.gpsClk = e.gpsClk + b.gpsClk ∧
     d.galClk = e.galClk + b.galClk ∧ d.gloClk = e.gloClk + b.gloClk ∧ d.pB2g = e.pB2g + b.pB2g ∧
     d.TI2e = ⟨e.TI2e.w + b.TI2e.w, e.TI2e.v + b.TI2e.v⟩ ∧ d.sd = e.sd + b.sd) ∧
    (let d := errorStateDynamics dx x u eta
     let a := stateJac x u dx
     let b := inputJac eta
     d.accBias = a.accBias + b.accBias ∧ d.gyroBias = a.gyroBias + b.gyroBias ∧ d.gpsClk = a.gpsClk + b.gpsClk ∧
     d.galClk = a.galClk + b.galClk ∧ d.gloClk = a.gloClk + b.gloClk ∧ d.pB2g = a.pB2g + b.pB2g ∧
     d.TI2e = ⟨a.TI2e.w + b.TI2e.w, a.TI2e.v + b.TI2e.v⟩ ∧ d.sd = a.sd + b.sd) := by
  have z : (fun _ : ℕ => (0 : ℝ)) = (fun _ => 0) + fun _ => 0 := by funext i; simp
  unfold dynamics errorStateDynamics stateJac inputJac
  dsimp only
  simp only [add_zero, true_and]
  exact ⟨z, z⟩

/-! ### Kinematics of the prediction -/

/-- **C79**: the inertial acceleration of the predicted motion, with the attitude turning at the predicted
body rate, is gravity plus the specific force exactly where `ω × v` and the two rotations of gravity cancel. -/
theorem C79_acceleration_partial (x : State) (hx : Unit x) (u : Input) :
    ∃ acc : V3, HasVecDeriv
      (fun t => (pert x.pose (dynamics x u).pose t).r.rota (x.vel + t • (dynamics x u).vel)) acc ∧
      (acc = gravity + x.pose.r.rota (u.accel - x.accBias) ↔
        cross (u.gyro - x.gyroBias) x.vel + x.pose.r.rota gravity = x.pose.r.rotp gravity) := by
  refine ⟨_, pert_rota x.pose hx.1 (dynamics x u).pose (vline x.vel (dynamics x u).vel), ?_⟩
  rw [zero_smul, add_zero]
  have e : x.pose.r.rota (cross (dynamics x u).pose.w x.vel) + x.pose.r.rota (dynamics x u).vel
      = x.pose.r.rota (cross (u.gyro - x.gyroBias) x.vel + x.pose.r.rota gravity)
        + x.pose.r.rota (u.accel - x.accBias) := by
    simp only [rota_eq, ← mulVec_add]
    unfold dynamics
    dsimp only
    rw [rota_eq]
    congr 1
    abel
  rw [e, add_left_inj]
  constructor
  · intro h
    have h' := congrArg x.pose.r.rotp h
    rwa [rotp_rota _ hx.1] at h'
  · intro h
    rw [h, rota_rotp _ hx.1]

/-- The predicted velocity obeys Newton's law: the inertial acceleration is gravity plus the specific force
turned into the inertial frame. -/
def C79_statement : Prop :=
  ∀ (x : State) (u : Input), Unit x →
    HasVecDeriv (fun t => (pert x.pose (dynamics x u).pose t).r.rota (x.vel + t • (dynamics x u).vel))
      (gravity + x.pose.r.rota (u.accel - x.accBias))

/-- Lying on its side at rest, with the accelerometer reading what it should. -/
noncomputable def onSide : State := { origin with pose := ⟨⟨4 / 5, 3 / 5, 0, 0⟩, ⟨0, 0, 0, 0⟩⟩ }

theorem onSide_unit : Unit onSide := by
  constructor <;> norm_num [UnitQ, onSide, origin, DQuat.identity, Quat.identity]

/-- **C79** fails: a tilted body at rest, whose accelerometer measures exactly the reaction to gravity, is
predicted to accelerate. -/
theorem C79_at_rest_violated : ∃ (x : State) (u : Input), Unit x ∧ x.vel = 0 ∧ x.accBias = 0 ∧ u.gyro = 0 ∧
    u.accel = -x.pose.r.rotp gravity ∧ (dynamics x u).vel ≠ 0 := by
  refine ⟨onSide, ⟨-onSide.pose.r.rotp gravity, 0⟩, onSide_unit, rfl, rfl, rfl, rfl, ?_⟩
  intro h
  have h1 := congrFun h 1
  simp only [dynamics, rota_eq, rotp_eq, onSide, origin, Pi.add_apply, Pi.sub_apply, Pi.neg_apply, mulVec_at,
    transpose_apply, gravity] at h1
  revert h1
  comps
  norm_num

/-- **C79** fails: coasting and turning, the inertial velocity is predicted to turn with the body. -/
theorem C79_statement_false : ¬ C79_statement := by
  intro h
  obtain ⟨acc, ha, hiff⟩ := C79_acceleration_partial { origin with vel := ![1, 0, 0] } origin_unit ⟨0, ![0, 0, 1]⟩
  have := hiff.1 (funext fun i => (ha i).unique (h { origin with vel := ![1, 0, 0] } ⟨0, ![0, 0, 1]⟩ origin_unit i))
  rw [show ({ origin with vel := ![1, 0, 0] } : State).pose.r = Quat.identity from rfl, rota_id, rotp_id] at this
  have h1 := congrFun this 1
  rw [Pi.add_apply] at h1
  simp only [origin] at h1
  revert h1
  comps
  norm_num

/-! ### Observations -/

/-- **C76** for GPS satellites: the residual the estimator hands to the filter is that of the observation,
with its own constellation.  Missing: the other constellations, `C76_clock_violated`. -/
theorem C76_gps_partial (o : GnssObs) (h : o.gnssId = GPS) (x : State) (u : Input) :
    hObs (obsData o) x u = hObs ⟨![o.pseudorange, o.doppler], o.sat, o.gnssId⟩ x u := by
  rw [h]; rfl

/-- **C76** for the other constellations holds exactly when the clock of the constellation agrees with that of
GPS. -/
theorem C76_galileo_partial (o : GnssObs) (h : o.gnssId = GALILEO) (x : State) (u : Input)
    (hc : x.galClk = x.gpsClk) :
    hObs (obsData o) x u = hObs ⟨![o.pseudorange, o.doppler], o.sat, o.gnssId⟩ x u := by
  rw [h]
  unfold hObs obsData obsClk
  dsimp only
  rw [if_pos (show (0 : ℤ) = GPS from rfl), if_neg (show ¬ GALILEO = GPS by decide), if_pos rfl, hc]

def C76_statement : Prop :=
  ∀ (o : GnssObs), (o.gnssId = GPS ∨ o.gnssId = GALILEO ∨ o.gnssId = GLONASS) → ∀ (x : State) (u : Input),
    hObs (obsData o) x u = hObs ⟨![o.pseudorange, o.doppler], o.sat, o.gnssId⟩ x u

/-- **C76** fails: a Galileo observation that agrees exactly with the state is given a residual of a whole
light-nanosecond, because it is compared with the clock of GPS. -/
theorem C76_clock_violated : ∃ (o : GnssObs) (x : State) (u : Input) (r : V2), o.gnssId = GALILEO ∧
    hObs ⟨![o.pseudorange, o.doppler], o.sat, o.gnssId⟩ x u = some 0 ∧ hObs (obsData o) x u = some r ∧
    r 0 = 0.299792458 := by
  let sat : SatCache := ⟨![2e7, 0, 0], 0, 0, 0, 0, 0⟩
  let x : State := { origin with galClk := ![1, 0] }
  have hx1 : x.gpsClk = 0 := rfl
  have hx2 : x.galClk = ![1, 0] := rfl
  refine ⟨⟨estPrange (antPos x) x.galClk sat, estDoppler (antPos x) (antVel x ⟨0, 0⟩) x.galClk sat, GALILEO, sat⟩,
    x, ⟨0, 0⟩, _, rfl, ?_, rfl, ?_⟩
  · unfold hObs obsClk
    dsimp only
    rw [if_neg (show ¬ GALILEO = GPS by decide), if_pos rfl, Option.map_some]
    congr 1
    ext i; fin_cases i <;> simp
  · change estPrange (antPos x) x.galClk sat - estPrange (antPos x) x.gpsClk sat = _
    unfold estPrange cLight
    rw [hx1, hx2]
    simp only [Matrix.cons_val_zero, Pi.zero_apply]
    rw [add_sub_add_left_eq_sub, ← mul_sub, sub_sub_sub_cancel_right]
    norm_num

theorem C76_statement_false : ¬ C76_statement := by
  intro h
  obtain ⟨o, x, u, r, hg, h0, h1, h2⟩ := C76_clock_violated
  rw [h o (.inr (.inl hg)) x u, h0] at h1
  rw [← Option.some.inj h1] at h2
  norm_num at h2

theorem mapM_some {α β : Type} (f : α → Option β) (l : List α) (h : ∀ a ∈ l, ∃ b, f a = some b) :
    ∃ r, l.mapM f = some r ∧ r.length = l.length ∧ ∀ i (hi : i < l.length), r[i]? = f l[i] := by
  induction l with
  | nil => exact ⟨[], rfl, rfl, fun i hi => absurd hi (Nat.not_lt_zero i)⟩
  | cons a t ih =>
    obtain ⟨b, hb⟩ := h a List.mem_cons_self
    obtain ⟨r, h1, h2, h3⟩ := ih fun x hx => h x (List.mem_cons_of_mem a hx)
    refine ⟨b :: r, ?_, by rw [List.length_cons, List.length_cons, h2], ?_⟩
    · rw [List.mapM_cons, hb, h1]; rfl
    · intro i hi
      cases i with
      | zero => exact hb.symm
      | succ i => exact h3 i (Nat.lt_of_succ_lt_succ hi)

/-- **C78**, up to thirty observations: each has its own residual.  Missing: larger bundles,
`C78_bundle_violated`. -/
theorem C78_bundle_partial (z : List ObsData) (x : State) (u : Input) (hn : z.length ≤ 30)
    (hz : ∀ o ∈ z, o.gnssId = GPS ∨ o.gnssId = GALILEO ∨ o.gnssId = GLONASS) :
    ∃ r, hObsAll z x u = some r ∧ r.length = z.length ∧ ∀ i (hi : i < z.length), r[i]? = hObs z[i] x u := by
  unfold hObsAll
  rw [if_pos hn]
  refine mapM_some (fun o => hObs o x u) z fun o ho => ?_
  unfold hObs obsClk
  rcases hz o ho with h | h | h
  · rw [if_pos h]; exact ⟨_, rfl⟩
  · rw [if_neg (by rw [h]; decide), if_pos h]; exact ⟨_, rfl⟩
  · rw [if_neg (by rw [h]; decide), if_neg (by rw [h]; decide), if_pos h]; exact ⟨_, rfl⟩

def C78_statement : Prop :=
  ∀ (z : List ObsData) (x : State) (u : Input),
    (∀ o ∈ z, o.gnssId = GPS ∨ o.gnssId = GALILEO ∨ o.gnssId = GLONASS) →
    ∃ r, hObsAll z x u = some r ∧ r.length = z.length

/-- **C78** fails: any bundle of more than thirty observations writes outside the residual. -/
theorem C78_bundle_violated (z : List ObsData) (h : 30 < z.length) (x : State) (u : Input) :
    hObsAll z x u = none := if_neg (by omega)

theorem C78_statement_false : ¬ C78_statement := by
  intro h
  obtain ⟨r, hr, _⟩ := h (List.replicate 31 aboveSat) origin ⟨0, 0⟩ fun o ho => .inl (by
    rw [List.eq_of_mem_replicate ho]; rfl)
  rw [C78_bundle_violated _ (by simp)] at hr
  exact absurd hr (by simp)

end Verif.Props.EkfModels
