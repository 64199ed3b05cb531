import Verif.Spec.EkfState
import Verif.Props.LieRound
import Verif.Props.LightTime
import Verif.Props.QuatLog
import Verif.Props.So3Log
import Verif.Props.Se3Jac

/-!
C116: the arithmetic of the generated states, for every configuration.
-/

namespace Verif.Props.EkfState

open Verif.EkfState Verif.Model.Lie Verif.Spec.Lie Verif.Lemmas.Lie Verif.Props.Quat Verif.Props.DQuat Verif.Props.So3
  Verif.Props.LieSeries Matrix

/-! ### Vectors -/

theorem vnorm_smul (s : ℝ) (a : V3) : vnorm (s • a) = |s| * vnorm a := by
  rw [LightTime.vnorm_eq, LightTime.vnorm_eq, WithLp.toLp_smul, _root_.norm_smul, Real.norm_eq_abs]

theorem vnorm_add (a b : V3) : vnorm (a + b) ≤ vnorm a + vnorm b := by
  rw [LightTime.vnorm_eq, LightTime.vnorm_eq, LightTime.vnorm_eq, WithLp.toLp_add]
  exact norm_add_le _ _

theorem vnorm_cross (a b : V3) : vnorm (cross a b) ≤ vnorm a * vnorm b := by
  rw [vnorm, vnorm, vnorm, ← Real.sqrt_mul (sqNorm_nonneg a)]
  apply Real.sqrt_le_sqrt
  simp only [sqNorm, dot, cross_0, cross_1, cross_2]
  nlinarith [sq_nonneg (a 0 * b 0 + a 1 * b 1 + a 2 * b 2)]

theorem dot_le (a b : V3) : |dot a b| ≤ vnorm a * vnorm b := by
  rw [vnorm, vnorm, ← Real.sqrt_mul (sqNorm_nonneg a)]
  apply Real.abs_le_sqrt
  simp only [sqNorm, dot]
  nlinarith [sq_nonneg (a 0 * b 1 - a 1 * b 0), sq_nonneg (a 0 * b 2 - a 2 * b 0), sq_nonneg (a 1 * b 2 - a 2 * b 1)]

theorem vnorm_zero : vnorm (0 : V3) = 0 := by simp [vnorm, sqNorm, dot]

/-! ### One element -/

theorem dquat_exp_zero : DQuat.exp ⟨0, 0⟩ = DQuat.identity := by
  have h0 : sqNorm (0 : V3) = 0 := by simp [sqNorm, dot]
  have h1 : dot (0 : V3) 0 = 0 := by simp [dot]
  apply dext
  · ext <;> simp [DQuat.exp, DQuat.identity, Quat.identity, h0]
  · ext <;> simp [DQuat.exp, DQuat.identity, h0, h1]

theorem skew_zero : skew 0 = 0 := by
  apply mat_ext <;> simp [skew_00, skew_01, skew_02, skew_10, skew_11, skew_12, skew_20, skew_21, skew_22]

theorem so3_exp_zero : SO3.exp 0 = 1 := by
  simp [SO3.exp, rodrigues, skew_zero]

theorem se3_exp_zero : SE3.exp ⟨0, 0⟩ = SE3.identity := by
  simp [SE3.exp, SE3.identity, rodrigues, skew_zero]

theorem plus_zero : (k : Kind) → (x : El k) → plusEl k x (Tan.zero k) = x
  | .vec _, x => funext fun i => add_zero (x i)
  | .quat, x => by
    change Quat.otimes x (Quat.exp 0) = x
    rw [Imu.exp_zero3]
    ext <;> simp [Quat.otimes, Quat.identity]
  | .dquat, x => by
    change DQuat.otimes x (DQuat.exp ⟨0, 0⟩) = x
    rw [dquat_exp_zero]
    apply dext <;> ext <;> simp [DQuat.otimes, Quat.otimes, DQuat.identity, Quat.identity, Quat.add]
  | .so3, x => by
    change SO3.times x (SO3.exp 0) = x
    rw [so3_exp_zero]
    exact mul_one _
  | .se3, x => by
    change SE3.mul x (SE3.exp ⟨0, 0⟩) = x
    rw [se3_exp_zero]
    cases x
    simp [SE3.mul, SE3.identity]

/-- The way from an element back to itself after adding `d` is that of the exponential of `d`. -/
theorem quat_back (x e : Quat) (hx : UnitQ x) : x.inverse.otimes (x.otimes e) = e := by
  have h := C43_group x.inverse x e (C43_group x x x hx hx).2.1 hx
  have h2 := C43_group x x e hx hx
  have h3 := (C43_group x.inverse x e (C43_group x x x hx hx).2.1 hx).2.2.2.1
  rw [← h3, h2.2.2.2.2.2.2.2]
  ext <;> simp [Quat.otimes, Quat.identity]

theorem dquat_back (x e : DQuat) (hx : UnitD x) : x.inverse.otimes (x.otimes e) = e := by
  have h2 := C46_group x x e hx hx
  rw [← (C46_group x.inverse x e h2.2.1 hx).2.2.2.1, h2.2.2.2.2.2.2.2]
  apply dext <;> ext <;> simp [DQuat.otimes, Quat.otimes, DQuat.identity, Quat.identity, Quat.add]

theorem so3_back (x e : M3) (hx : IsRot x) : SO3.times (SO3.inverse x) (SO3.times x e) = e := by
  have h := (C48_so3 x x hx hx).2.2.1
  simp only [SO3.times] at *
  rw [← mul_assoc, h, one_mul]

theorem se3_back (x e : SE3) (hx : IsRot x.r) : x.inverse.mul (x.mul e) = e := by
  have h := C48_se3 x x e hx hx
  have hi : IsRot x.inverse.r := h.2.1
  rw [← (C48_se3 x.inverse x e hi hx).2.2.1, h.2.2.2.2.2.2.1]
  simp [SE3.mul, SE3.identity]

theorem smul_sub_self (κ : ℝ) (w : V3) : κ • w - w = (κ - 1) • w := by rw [sub_smul, one_smul]

theorem near_smul {κ : ℝ} (h : |κ - 1| ≤ 1e-8) (w : V3) : vnorm (κ • w - w) ≤ 3e-8 * vnorm w := by
  rw [smul_sub_self, vnorm_smul]
  exact mul_le_mul_of_nonneg_right (by linarith) (LightTime.vnorm_nonneg w)

theorem turn_gap {θ : ℝ} (h0 : 0 ≤ θ) (h : θ ≤ 3.14) : -1 + 1e-8 < 1 + 2 * Real.cos θ := by
  have hp := Real.pi_gt_d4
  have hp2 := Real.pi_lt_d4
  have hs := Real.mul_le_sin (x := (Real.pi - θ) / 2) (by linarith) (by linarith)
  have hc : Real.cos θ = 2 * Real.sin ((Real.pi - θ) / 2) ^ 2 - 1 := by
    rw [show (Real.pi - θ) / 2 = Real.pi / 2 - θ / 2 by ring, Real.sin_pi_div_two_sub, ← Real.cos_two_mul]
    congr 1; ring
  have h1 : (0.5 : ℝ) ≤ 2 / Real.pi := by
    rw [le_div_iff₀ (by positivity)]
    linarith
  have h2 : (0.5 : ℝ) * 7e-4 ≤ 2 / Real.pi * ((Real.pi - θ) / 2) := by gcongr; linarith
  have h3 := h2.trans hs
  rw [hc]
  norm_num at h3 ⊢
  nlinarith

theorem quat_round (x : Quat) (d : V3) (hx : UnitQ x) (ha : vnorm d ≤ 3.14) :
    vnorm ((x.inverse.otimes (x.otimes (Quat.exp d))).log - d) ≤ 3e-8 * vnorm d := by
  have hp := Real.pi_gt_d2
  obtain ⟨κ, h1, h2, h3⟩ := C112_quat_round d (by linarith) (fun h => by linarith)
  rw [quat_back x _ hx, h3]
  exact near_smul (by rw [abs_of_nonneg (by linarith)]; linarith) d

theorem dquat_round (x : DQuat) (d : V6) (hx : UnitD x) (ha : vnorm d.w ≤ 3.14) :
    vnorm ((x.inverse.otimes (x.otimes (DQuat.exp d))).log.w - d.w) ≤ 3e-8 * vnorm d.w ∧
      vnorm ((x.inverse.otimes (x.otimes (DQuat.exp d))).log.v - d.v) ≤ 3e-8 * vnorm d.v := by
  have hp := Real.pi_gt_d2
  obtain ⟨κ, β, h1, h2, h3⟩ := C112_dquat_round d (by linarith) (fun h => by linarith)
  rw [dquat_back x _ hx, h3]
  refine ⟨near_smul h1 _, ?_⟩
  dsimp only
  rw [show κ • d.v + (β * dot d.w d.v) • d.w - d.v = (κ - 1) • d.v + (β * dot d.w d.v) • d.w by
    rw [sub_smul, one_smul]; abel]
  refine (vnorm_add _ _).trans ?_
  rw [vnorm_smul, vnorm_smul, abs_mul]
  have h4 := dot_le d.w d.v
  have h5 := LightTime.vnorm_nonneg d.w
  have h6 := LightTime.vnorm_nonneg d.v
  have h7 : |β| * |dot d.w d.v| * vnorm d.w ≤ |β| * sqNorm d.w * vnorm d.v := by
    rw [sqNorm_eq]
    have : |β| * |dot d.w d.v| * vnorm d.w ≤ |β| * (vnorm d.w * vnorm d.v) * vnorm d.w := by gcongr
    linarith
  have h8 : |β| * sqNorm d.w * vnorm d.v ≤ 2e-8 * vnorm d.v := by gcongr
  have h9 : |κ - 1| * vnorm d.v ≤ 1e-8 * vnorm d.v := by gcongr
  linarith

theorem so3_round (x : M3) (d : V3) (hx : IsRot x) (ha : vnorm d ≤ 3.14) :
    vnorm (SO3.log (SO3.times (SO3.inverse x) (SO3.times x (SO3.exp d))) - d) ≤ 3e-8 * vnorm d := by
  have hp := Real.pi_gt_d2
  obtain ⟨κ, h1, h2, -⟩ := C112_so3_round d (by linarith) (turn_gap (LightTime.vnorm_nonneg _) ha)
  rw [so3_back x _ hx, h2]
  exact near_smul (by linarith) d

theorem se3_round (x : SE3) (d : V6) (hx : IsRot x.r) (ha : vnorm d.w ≤ 3.14) :
    ∃ e : V6, SE3.log (x.inverse.mul (x.mul (SE3.exp d))) = some e ∧
      vnorm (e.w - d.w) ≤ 3e-8 * vnorm d.w ∧ vnorm (e.v - d.v) ≤ 3e-8 * vnorm d.v := by
  have hp := Real.pi_gt_d2
  obtain ⟨κ, p, q, h1, h2, h3, h4⟩ := C112_se3_round d (by linarith) (turn_gap (LightTime.vnorm_nonneg _) ha)
  rw [se3_back x _ hx, h4]
  refine ⟨_, rfl, near_smul (by linarith) _, ?_⟩
  dsimp only
  rw [show d.v + p • cross d.w d.v + q • cross d.w (cross d.w d.v) - d.v =
    p • cross d.w d.v + q • cross d.w (cross d.w d.v) by abel]
  refine (vnorm_add _ _).trans ?_
  rw [vnorm_smul, vnorm_smul]
  have h5 := vnorm_cross d.w d.v
  have h6 := vnorm_cross d.w (cross d.w d.v)
  have h7 := LightTime.vnorm_nonneg d.v
  have hA := LightTime.vnorm_nonneg (cross d.w d.v)
  have hB := LightTime.vnorm_nonneg (cross d.w (cross d.w d.v))
  have h8 : vnorm (cross d.w d.v) ≤ 4 * vnorm d.v := h5.trans (by gcongr; linarith)
  have h9 : vnorm (cross d.w (cross d.w d.v)) ≤ 4 * (4 * vnorm d.v) := h6.trans (by gcongr; linarith)
  have e1 : |p| * vnorm (cross d.w d.v) ≤ 1e-17 * (4 * vnorm d.v) := by gcongr
  have e2 : |q| * vnorm (cross d.w (cross d.w d.v)) ≤ 1e-17 * (4 * (4 * vnorm d.v)) := by gcongr
  linarith

theorem quat_comm (x y : Quat) (hy : UnitQ y) : y.otimes (y.inverse.otimes x) = x := by
  have h2 := C43_group y y x hy hy
  rw [← (C43_group y y.inverse x hy h2.2.1).2.2.2.1, h2.2.2.2.2.2.2.1]
  ext <;> simp [Quat.otimes, Quat.identity]

theorem dquat_comm (x y : DQuat) (hy : UnitD y) : y.otimes (y.inverse.otimes x) = x := by
  have h2 := C46_group y y x hy hy
  rw [← (C46_group y y.inverse x hy h2.2.1).2.2.2.1, h2.2.2.2.2.2.2.1]
  apply dext <;> ext <;> simp [DQuat.otimes, Quat.otimes, DQuat.identity, Quat.identity, Quat.add]

theorem so3_comm (x y : M3) (hy : IsRot y) : SO3.times y (SO3.times (SO3.inverse y) x) = x := by
  have h := (C48_so3 y y hy hy).2.2.2.1
  simp only [SO3.times] at *
  rw [← mul_assoc, h, one_mul]

theorem se3_comm (x y : SE3) (hy : IsRot y.r) : y.mul (y.inverse.mul x) = x := by
  have h := C48_se3 y y x hy hy
  rw [← (C48_se3 y y.inverse x hy h.2.1).2.2.1, h.2.2.2.2.2.1]
  simp [SE3.mul, SE3.identity]

/-- **C116, one element.** The difference to the element before is what was added. -/
theorem round_el : (k : Kind) → (x : El k) → (d : Tan k) → Good k x → angle k d ≤ 3.14 →
    ∃ e, minusEl k (plusEl k x d) x = some e ∧ Near k e d
  | .vec _, x, d, _, _ => ⟨_, rfl, funext fun i => add_sub_cancel_left (x i) (d i)⟩
  | .quat, x, d, hx, ha => ⟨_, rfl, quat_round x d hx ha⟩
  | .dquat, x, d, hx, ha => ⟨_, rfl, dquat_round x d hx ha⟩
  | .so3, x, d, hx, ha => ⟨_, rfl, so3_round x d hx ha⟩
  | .se3, x, d, hx, ha => se3_round x d hx ha

/-- Two elements that are apart: adding the difference leads from the one to the other. -/
theorem apart_el : (k : Kind) → (x y : El k) → Good k x → Good k y → Apart k x y →
    ∃ e, minusEl k x y = some e ∧ plusEl k y e = x
  | .vec _, x, y, _, _, _ => ⟨_, rfl, funext fun i => add_sub_cancel (y i) (x i)⟩
  | .quat, x, y, hx, hy, h => ⟨_, rfl, by
      have hi := (C43_group y y x hy hy).2.1
      have hr : UnitQ (Quat.otimes (Quat.inverse y) x) := (C43_group _ x x hi hx).1
      change Quat.otimes y (Quat.exp (Quat.log (Quat.otimes (Quat.inverse y) x))) = x
      rw [C67_exp_log_partial _ hr h, quat_comm x y hy]⟩
  | .dquat, x, y, hx, hy, h => ⟨_, rfl, by
      have hi := (C46_group y y x hy hy).2.1
      have hr : UnitD (DQuat.otimes (DQuat.inverse y) x) := (C46_group _ x x hi hx).1
      change DQuat.otimes y (DQuat.exp (DQuat.log (DQuat.otimes (DQuat.inverse y) x))) = x
      rw [C70_exp_log_partial _ hr h.1 h.2, dquat_comm x y hy]⟩
  | .so3, x, y, hx, hy, h => ⟨_, rfl, by
      have hi := (C48_so3 y y hy hy).2.1
      have hr := (C48_so3 _ x hi hx).1
      change SO3.times y (SO3.exp (SO3.log (SO3.times (SO3.inverse y) x))) = x
      rw [So3Log.C71_exp_log_partial _ hr h.1 h.2]
      exact so3_comm x y hy⟩
  | .se3, x, y, hx, hy, h => by
      have hi := (C48_se3 y y x hy hy).2.1
      have hr := (C48_se3 _ x x hi hx).1
      obtain ⟨e, h1, h2⟩ := Se3Jac.C71_se3_exp_log_partial (SE3.mul (SE3.inverse y) x) hr h.1 h.2
      refine ⟨e, h1, ?_⟩
      change SE3.mul y (SE3.exp e) = x
      rw [h2]
      exact se3_comm x y hy

theorem vn0 (e : V3) (h : vnorm (e - 0) ≤ 3e-8 * vnorm 0) : e = 0 := by
  rw [vnorm_zero, mul_zero, sub_zero, LightTime.vnorm_eq] at h
  have h2 := norm_eq_zero.1 (le_antisymm h (_root_.norm_nonneg _))
  exact congrArg WithLp.ofLp h2

theorem near_zero : (k : Kind) → (e : Tan k) → Near k e (Tan.zero k) → e = Tan.zero k
  | .vec _, _, h => h
  | .quat, e, h => vn0 e h
  | .dquat, e, h => by
    have h1 := vn0 (V6.w e) h.1
    have h2 := vn0 (V6.v e) h.2
    exact V6.ext h1 h2
  | .so3, e, h => vn0 e h
  | .se3, e, h => by
    have h1 := vn0 (V6.w e) h.1
    have h2 := vn0 (V6.v e) h.2
    exact V6.ext h1 h2

theorem angle_zero : (k : Kind) → angle k (Tan.zero k) ≤ 3.14
  | .vec _ => by norm_num [angle]
  | .quat => by change vnorm 0 ≤ _; rw [vnorm_zero]; norm_num
  | .dquat => by change vnorm 0 ≤ _; rw [vnorm_zero]; norm_num
  | .so3 => by change vnorm 0 ≤ _; rw [vnorm_zero]; norm_num
  | .se3 => by change vnorm 0 ≤ _; rw [vnorm_zero]; norm_num

/-- An element minus itself is exactly zero. -/
theorem self_el (k : Kind) (x : El k) (hx : Good k x) : minusEl k x x = some (Tan.zero k) := by
  obtain ⟨e, h1, h2⟩ := round_el k x (Tan.zero k) hx (angle_zero k)
  rw [plus_zero] at h1
  rw [h1, near_zero k e h2]

/-! ### Whole states -/

variable {τ : Type} {c : Cfg}

theorem loops_some {β : c.V → Type} (step : (v : c.V) → Option (β v)) (g : (v : c.V) → β v) (h : ∀ v, step v = some (g v)) :
    loops β step = some g := by
  unfold loops
  rw [dif_pos fun v => by rw [h v]; rfl]
  congr 1
  funext v
  simp [h v]

theorem loops_none {β : c.V → Type} (step : (v : c.V) → Option (β v)) (v : c.V) (h : step v = none) : loops β step = none := by
  unfold loops
  rw [dif_neg]
  intro hv
  have := hv v
  rw [h] at this
  cases this

theorem fill_some {α : Type} {cap n : ℕ} (h : n ≤ cap) (old f : Fin cap → α) :
    fill n old f = some fun i => if i.1 < n then f i else old i := if_pos h

theorem fillM_some {α : Type} {cap n : ℕ} (h : n ≤ cap) (old : Fin cap → α) (f : Fin cap → Option α) (g : Fin cap → α)
    (hf : ∀ i : Fin cap, i.1 < n → f i = some (g i)) :
    fillM n old f = some fun i => if i.1 < n then g i else old i := by
  unfold fillM
  rw [if_pos ⟨h, fun i hi => by rw [hf i hi]; rfl⟩]
  congr 1
  funext i
  by_cases hi : i.1 < n
  · rw [if_pos hi, if_pos hi, hf i hi]; rfl
  · rw [if_neg hi, if_neg hi]

theorem plus_some (fresh x : State τ c) (dx : Err c) (h : Fits x) : plus fresh x dx = some
    { t := fresh.t, fixed := fun f => plusEl _ (x.fixed f) (dx.fixed f),
      arr := fun v i => if i.1 < x.num v then plusEl _ (x.arr v i) (dx.buf v i) else fresh.arr v i, num := x.num } := by
  unfold plus
  rw [loops_some _ _ fun v => fill_some (h v) _ _]
  rfl

theorem plusAssign_some (x : State τ c) (dx : Err c) (h : Fits x) : plusAssign x dx = some
    { t := x.t, fixed := fun f => plusEl _ (x.fixed f) (dx.fixed f),
      arr := fun v i => if i.1 < x.num v then plusEl _ (x.arr v i) (dx.buf v i) else x.arr v i, num := x.num } := by
  unfold plusAssign
  rw [loops_some _ _ fun v => fill_some (h v) _ _]
  rfl

theorem assign_some (self other : State τ c) (h : Fits other) : assign self other = some
    { t := self.t, fixed := other.fixed,
      arr := fun v i => if i.1 < other.num v then other.arr v i else self.arr v i, num := other.num } := by
  unfold assign
  rw [loops_some _ _ fun v => fill_some (h v) _ _]
  rfl

theorem minus_some (fresh : Err c) (x y : State τ c) (h : Fits x) (a : (f : c.F) → Tan (c.kf f))
    (b : (v : c.V) → Fin (c.cap v) → Tan (c.kv v)) (ha : ∀ f, minusEl _ (x.fixed f) (y.fixed f) = some (a f))
    (hb : ∀ v (i : Fin (c.cap v)), i.1 < x.num v → minusEl _ (x.arr v i) (y.arr v i) = some (b v i)) :
    minus fresh x y = some { fixed := a, buf := fun v i => if i.1 < x.num v then b v i else fresh.buf v i } := by
  unfold minus
  rw [dif_pos fun f => by rw [ha f]; rfl, loops_some _ _ fun v => fillM_some (h v) _ _ (b v) (hb v)]
  simp only [Option.map_some]
  congr 2
  funext f
  simp [ha f]

/-- **C116, adding.**  The sum exists exactly if the counters fit the arrays.  Its elements in use are the sums of the
elements; the counters are kept, the time is not: it stays that of the new object. -/
theorem C116_plus (fresh x : State τ c) (dx : Err c) :
    ((plus fresh x dx).isSome ↔ Fits x) ∧ ((plusAssign x dx).isSome ↔ Fits x) ∧
    ∀ y, plus fresh x dx = some y → y.t = fresh.t ∧ y.num = x.num ∧
      (∀ f, y.fixed f = plusEl _ (x.fixed f) (dx.fixed f)) ∧
      ∀ v (i : Fin (c.cap v)), i.1 < x.num v → y.arr v i = plusEl _ (x.arr v i) (dx.buf v i) := by
  have key : ¬ Fits x → ∃ v, ∀ (a b : Fin (c.cap v) → El (c.kv v)), fill (x.num v) a b = none := by
    intro h
    unfold Fits at h
    push Not at h
    obtain ⟨v, hv⟩ := h
    exact ⟨v, fun a b => if_neg (by omega)⟩
  refine ⟨⟨fun h => ?_, fun h => by rw [plus_some _ _ _ h]; rfl⟩,
    ⟨fun h => ?_, fun h => by rw [plusAssign_some _ _ h]; rfl⟩, fun y h => ?_⟩
  · by_contra hc
    obtain ⟨v, hv⟩ := key hc
    unfold plus at h
    rw [loops_none _ v (hv _ _)] at h
    cases h
  · by_contra hc
    obtain ⟨v, hv⟩ := key hc
    unfold plusAssign at h
    rw [loops_none _ v (hv _ _)] at h
    cases h
  · have hf : Fits x := by
      by_contra hc
      obtain ⟨v, hv⟩ := key hc
      unfold plus at h
      rw [loops_none _ v (hv _ _)] at h
      cases h
    rw [plus_some _ _ _ hf] at h
    cases h
    exact ⟨rfl, rfl, fun f => rfl, fun v i hi => if_pos hi⟩

/-- **C116, the two additions.**  `x += dx` has the elements of `x + dx`, whatever memory the latter starts from, and
keeps the time. -/
theorem C116_assign (fresh x y z : State τ c) (dx : Err c) (h1 : plus fresh x dx = some y) (h2 : plusAssign x dx = some z) :
    Same y z ∧ z.t = x.t ∧ z.num = x.num ∧ ∀ v (i : Fin (c.cap v)), ¬ i.1 < x.num v → z.arr v i = x.arr v i := by
  have hf : Fits x := (C116_plus fresh x dx).1.1 (by rw [h1]; rfl)
  rw [plus_some _ _ _ hf] at h1
  rw [plusAssign_some _ _ hf] at h2
  cases h1
  cases h2
  exact ⟨⟨rfl, rfl, fun v i hi => by dsimp only at hi ⊢; rw [if_pos hi, if_pos hi]⟩, rfl, rfl, fun v i hi => if_neg hi⟩

/-- **C116, adding nothing.** -/
theorem C116_zero (fresh x : State τ c) (h : Fits x) : plusAssign x Err.zero = some x ∧
    ∃ y, plus fresh x Err.zero = some y ∧ Same y x := by
  refine ⟨?_, _, plus_some _ _ _ h, funext fun f => plus_zero _ _, rfl, fun v i hi => ?_⟩
  · rw [plusAssign_some _ _ h]
    have e1 : (fun f => plusEl _ (x.fixed f) ((Err.zero (c := c)).fixed f)) = x.fixed := funext fun f => plus_zero _ _
    have e2 : (fun v (i : Fin (c.cap v)) => if i.1 < x.num v then plusEl _ (x.arr v i) ((Err.zero (c := c)).buf v i)
        else x.arr v i) = x.arr := by
      funext v i
      by_cases hi : i.1 < x.num v
      · rw [if_pos hi]; exact plus_zero _ _
      · rw [if_neg hi]
    rw [e1, e2]
  · dsimp only at hi ⊢
    rw [if_pos hi]
    exact plus_zero _ _

/-- **C116, what is not in use does not matter.**  Sum and difference of states with the same elements in use are the
same. -/
theorem C116_same (f1 f2 x x' : State τ c) (g1 g2 : Err c) (y y' : State τ c) (dx dx' : Err c) (hx : Same x x') (hy : Same y y')
    (hn : y.num = x.num) (hd : SameErr x.num dx dx') :
    (∀ s s', plus f1 x dx = some s → plus f2 x' dx' = some s' → Same s s') ∧
    (∀ d d', minus g1 x y = some d → minus g2 x' y' = some d' → SameErr x.num d d') := by
  obtain ⟨a1, a2, a3⟩ := hx
  obtain ⟨b1, b2, b3⟩ := hy
  constructor
  · intro s s' h1 h2
    have p1 := (C116_plus f1 x dx).2.2 s h1
    have p2 := (C116_plus f2 x' dx').2.2 s' h2
    refine ⟨funext fun f => ?_, ?_, fun v i hi => ?_⟩
    · rw [p1.2.2.1, p2.2.2.1, a1, hd.1]
    · rw [p1.2.1, p2.2.1, a2]
    · rw [p1.2.1] at hi
      rw [p1.2.2.2 v i hi, p2.2.2.2 v i (a2 ▸ hi), a3 v i hi, hd.2 v i hi]
  · intro d d' h1 h2
    have main : ∀ (g : Err c) (x y : State τ c) d, minus g x y = some d →
        (∀ f, minusEl _ (x.fixed f) (y.fixed f) = some (d.fixed f)) ∧
        ∀ v (i : Fin (c.cap v)), i.1 < x.num v → minusEl _ (x.arr v i) (y.arr v i) = some (d.buf v i) := by
      intro g x y d h
      unfold minus at h
      by_cases h0 : ∀ f, (minusEl _ (x.fixed f) (y.fixed f)).isSome
      · rw [dif_pos h0] at h
        unfold loops at h
        by_cases h3 : ∀ v, (fillM (x.num v) (g.buf v) fun i => minusEl _ (x.arr v i) (y.arr v i)).isSome
        · rw [dif_pos h3] at h
          cases h
          refine ⟨fun f => by simp, fun v i hi => ?_⟩
          have h4 := h3 v
          have h5 : x.num v ≤ c.cap v ∧ ∀ i : Fin (c.cap v), i.1 < x.num v → (minusEl _ (x.arr v i) (y.arr v i)).isSome := by
            by_contra hc
            unfold fillM at h4
            rw [if_neg hc] at h4
            cases h4
          have h6 := fillM_some h5.1 (g.buf v) (fun i => minusEl _ (x.arr v i) (y.arr v i))
            (fun i => (minusEl _ (x.arr v i) (y.arr v i)).getD (g.buf v i)) (fun i hi => by
              obtain ⟨e, he⟩ := Option.isSome_iff_exists.1 (h5.2 i hi)
              rw [he]; rfl)
          obtain ⟨e, he⟩ := Option.isSome_iff_exists.1 (h5.2 i hi)
          have h7 : ((fillM (x.num v) (g.buf v) fun i => minusEl _ (x.arr v i) (y.arr v i)).get h4) i = e := by
            rw [Option.get_of_eq_some h4 h6]
            dsimp only
            rw [if_pos hi, he]
            rfl
          rw [he]
          exact congrArg some h7.symm
        · rw [dif_neg h3] at h
          cases h
      · rw [dif_neg h0] at h
        cases h
    have p1 := main g1 x y d h1
    have p2 := main g2 x' y' d' h2
    refine ⟨funext fun f => ?_, fun v i hi => ?_⟩
    · have := p1.1 f
      rw [a1, b1, p2.1 f] at this
      exact (Option.some.inj this).symm
    · have h3 := p1.2 v i hi
      rw [a3 v i hi, b3 v i (hn ▸ hi), p2.2 v i (a2 ▸ hi)] at h3
      exact (Option.some.inj h3).symm

/-- **C116, there and back.**  If the elements are members of their groups and no element turns by more than 3.14 radians,
`(x + dx) - x` exists and is `dx`: exactly for vectors, to 30 billionths for rotations and motions. -/
theorem C116_round (fresh x : State τ c) (g dx : Err c) (h : Fits x) (hx : Each Good x)
    (hd : EachErr (fun k d => angle k d ≤ 3.14) x.num dx) :
    ∃ y e, plus fresh x dx = some y ∧ minus g y x = some e ∧ EachErr₂ Near x.num e dx := by
  choose a ha1 ha2 using fun f => round_el _ (x.fixed f) (dx.fixed f) (hx.1 f) (hd.1 f)
  have hb : ∀ v (i : Fin (c.cap v)), ∃ e, i.1 < x.num v →
      minusEl _ (plusEl _ (x.arr v i) (dx.buf v i)) (x.arr v i) = some e ∧ Near _ e (dx.buf v i) := by
    intro v i
    by_cases hi : i.1 < x.num v
    · obtain ⟨e, h1, h2⟩ := round_el _ (x.arr v i) (dx.buf v i) (hx.2 v i hi) (hd.2 v i hi)
      exact ⟨e, fun _ => ⟨h1, h2⟩⟩
    · exact ⟨dx.buf v i, fun h => absurd h hi⟩
  choose b hb using hb
  have hm := minus_some g (⟨fresh.t, fun f => plusEl _ (x.fixed f) (dx.fixed f),
      fun v i => if i.1 < x.num v then plusEl _ (x.arr v i) (dx.buf v i) else fresh.arr v i, x.num⟩ : State τ c) x h a b ha1
    (fun v i hi => by dsimp only at hi ⊢; rw [if_pos hi]; exact (hb v i hi).1)
  refine ⟨_, _, plus_some _ _ _ h, hm, ha2, fun v i hi => ?_⟩
  dsimp only
  rw [if_pos hi]
  exact (hb v i hi).2

/-- **C116, a state minus itself** is zero, exactly. -/
theorem C116_self (x : State τ c) (g : Err c) (h : Fits x) (hx : Each Good x) :
    ∃ e, minus g x x = some e ∧ SameErr x.num e Err.zero :=
  ⟨_, minus_some g x x h _ (fun v i => Tan.zero _) (fun f => self_el _ _ (hx.1 f)) (fun v i hi => self_el _ _ (hx.2 v i hi)),
    rfl, fun v i hi => by dsimp only; rw [if_pos hi]; rfl⟩

/-- **C116, from one state to the other (part).**  With equal counters and elements that are apart, `y + (x - y)` is `x`. -/
theorem C116_back_partial (fresh x y : State τ c) (g : Err c) (h : Fits x) (hn : y.num = x.num) (hx : Each Good x)
    (hy : Each Good y) (ha : Each₂ Apart x y) :
    ∃ e z, minus g x y = some e ∧ plus fresh y e = some z ∧ Same z x := by
  choose a ha1 ha2 using fun f => apart_el _ (x.fixed f) (y.fixed f) (hx.1 f) (hy.1 f) (ha.1 f)
  have hb : ∀ v (i : Fin (c.cap v)), ∃ e, i.1 < x.num v →
      minusEl _ (x.arr v i) (y.arr v i) = some e ∧ plusEl _ (y.arr v i) e = x.arr v i := by
    intro v i
    by_cases hi : i.1 < x.num v
    · obtain ⟨e, h1, h2⟩ := apart_el _ (x.arr v i) (y.arr v i) (hx.2 v i hi) (hy.2 v i (hn ▸ hi)) (ha.2 v i hi)
      exact ⟨e, fun _ => ⟨h1, h2⟩⟩
    · exact ⟨g.buf v i, fun h => absurd h hi⟩
  choose b hb using hb
  have hfy : Fits y := fun v => by rw [hn]; exact h v
  refine ⟨_, _, minus_some g x y h a b ha1 fun v i hi => (hb v i hi).1, plus_some _ _ _ hfy, funext ha2, hn, fun v i hi => ?_⟩
  dsimp only at hi ⊢
  rw [if_pos hi, if_pos (hn ▸ hi)]
  exact (hb v i (hn ▸ hi)).2

/-- The property without the hypothesis. -/
def C116_back_statement : Prop := ∀ (c : Cfg) (fresh x y : State ℝ c) (g : Err c), Fits x → y.num = x.num → Each Good x →
  Each Good y → ∃ e z, minus g x y = some e ∧ plus fresh y e = some z ∧ Same z x

/-- One pose. -/
abbrev oneDq : Cfg := ⟨Unit, Empty, fun _ => .dquat, fun v => v.elim, fun v => v.elim⟩

abbrev stDq (p : DQuat) : State ℝ oneDq := ⟨0, fun _ => p, fun v => v.elim, fun v => v.elim⟩

/-- **C116, the other sign.**  Two poses with the same attitude, stored with opposite signs: the step from the one to
the other goes the opposite way. -/
theorem C116_back_violated (t : V3) :
    let x := stDq ⟨⟨-1, 0, 0, 0⟩, ⟨0, -t 0 / 2, -t 1 / 2, -t 2 / 2⟩⟩
    let y := stDq DQuat.identity
    Each Good x ∧ Each Good y ∧ ∀ fresh g, ∃ e z, minus g x y = some e ∧ plus fresh y e = some z ∧
      (DQuat.transforma (x.fixed ()) 0 = t) ∧ DQuat.transforma (z.fixed ()) 0 = -t := by
  obtain ⟨h1, h2, h3, h4⟩ := C70_sign_violated t
  refine ⟨⟨fun _ => h1, fun v => v.elim⟩, ⟨fun _ => ⟨by norm_num [DQuat.identity, Quat.identity], by
    norm_num [DQuat.identity, Quat.identity]⟩, fun v => v.elim⟩, fun fresh g => ?_⟩
  have e1 : DQuat.otimes (DQuat.inverse DQuat.identity) ⟨⟨-1, 0, 0, 0⟩, ⟨0, -t 0 / 2, -t 1 / 2, -t 2 / 2⟩⟩ =
      ⟨⟨-1, 0, 0, 0⟩, ⟨0, -t 0 / 2, -t 1 / 2, -t 2 / 2⟩⟩ := by
    apply dext <;> ext <;>
      simp [DQuat.otimes, Quat.otimes, DQuat.identity, Quat.identity, Quat.add, DQuat.inverse, Quat.inverse]
  refine ⟨_, _, minus_some g _ _ (fun v => v.elim) _ (fun v => v.elim) (fun _ => rfl) (fun v => v.elim),
    plus_some _ _ _ (fun v => v.elim), h2, ?_⟩
  change (DQuat.otimes DQuat.identity (DQuat.exp (DQuat.log (DQuat.otimes (DQuat.inverse DQuat.identity) _)))).transforma 0 = -t
  rw [e1]
  have e2 : ∀ p : DQuat, DQuat.otimes DQuat.identity p = p := by
    intro p
    apply dext <;> ext <;> simp [DQuat.otimes, Quat.otimes, DQuat.identity, Quat.identity, Quat.add]
  rw [e2]
  exact h4

theorem C116_back_statement_false : ¬ C116_back_statement := by
  intro h
  obtain ⟨h1, h2, h3⟩ := C116_back_violated ![2, 0, 0]
  obtain ⟨e, z, a1, a2, a3⟩ := h oneDq (stDq DQuat.identity) _ _ ⟨fun _ => ⟨0, 0⟩, fun v => v.elim⟩ (fun v => v.elim)
    (funext fun v => v.elim) h1 h2
  obtain ⟨e', z', b1, b2, b3, b4⟩ := h3 (stDq DQuat.identity) ⟨fun _ => ⟨0, 0⟩, fun v => v.elim⟩
  rw [a1] at b1
  cases b1
  rw [a2] at b2
  cases b2
  rw [a3.1] at b4
  have b5 := b3.symm.trans b4
  have := congrFun b5 0
  norm_num at this

/-- One array of at most one number. -/
abbrev oneVar : Cfg := ⟨Empty, Unit, fun f => f.elim, fun _ => .vec 1, fun _ => 1⟩

abbrev stV (a : ℝ) (n : ℕ) : State ℝ oneVar := ⟨0, fun f => f.elim, fun _ _ _ => a, fun _ => n⟩

/-- **C116, different counters.**  `x - y` loops over the counter of `x`.  If `y` has fewer elements the difference
contains what the memory of `y` holds behind its last element, any number. -/
theorem C116_counter_violated (s : ℝ) (g : Err oneVar) :
    Fits (stV 5 1) ∧ Fits (stV s 0) ∧ Same (stV s 0) (stV 0 0) ∧
      ∃ e, minus g (stV 5 1) (stV s 0) = some e ∧ (e.buf () 0 : Fin 1 → ℝ) 0 = 5 - s := by
  refine ⟨fun _ => le_refl _, fun _ => by simp, ⟨funext fun f => f.elim, rfl, fun v i hi => by simp at hi⟩, ?_⟩
  refine ⟨_, minus_some g _ _ (fun _ => le_refl _) (fun f => f.elim) (fun _ _ => fun _ => 5 - s) (fun f => f.elim)
    (fun v i hi => rfl), ?_⟩
  simp

/-- **C116, the step of the filter.**  If the counters fit and all elements of state and rate - in use or not - pass the
test for finite values, `predict` ends at the later time with each element in use moved by rate times time. -/
theorem C116_predict (finX : (k : Kind) → El k → Prop) (finD : (k : Kind) → Tan k → Prop) (tadd : τ → ℝ → τ)
    (out fresh x : State τ c) (xdot : Err c) (dt : ℝ) :
    ((predict finX finD tadd out fresh x xdot dt).isSome ↔
      Fits x ∧ (∀ f, finX _ (x.fixed f) ∧ finD _ (xdot.fixed f)) ∧ ∀ v i, finX _ (x.arr v i) ∧ finD _ (xdot.buf v i)) ∧
    ∀ y, predict finX finD tadd out fresh x xdot dt = some y → y.t = tadd x.t dt ∧ y.num = x.num ∧
      (∀ f, y.fixed f = plusEl _ (x.fixed f) (Tan.smul dt _ (xdot.fixed f))) ∧
      ∀ v (i : Fin (c.cap v)), i.1 < x.num v → y.arr v i = plusEl _ (x.arr v i) (Tan.smul dt _ (xdot.buf v i)) := by
  have hval : isFinite finX x ∧ xdot.isFinite finD → Fits x → predict finX finD tadd out fresh x xdot dt = some
      { t := tadd x.t dt, fixed := fun f => plusEl _ (x.fixed f) (Tan.smul dt _ (xdot.fixed f)),
        arr := fun v i => if i.1 < x.num v then plusEl _ (x.arr v i) (Tan.smul dt _ (xdot.buf v i)) else out.arr v i,
        num := x.num } := by
    intro h1 h2
    unfold predict
    rw [if_pos h1, plus_some _ _ _ h2, Option.bind_some, assign_some out _ (by exact h2), Option.map_some]
    congr 2
    funext v i
    by_cases hi : i.1 < x.num v
    · simp only [if_pos hi]; rfl
    · simp only [if_neg hi]
  have hdef : ∀ y, predict finX finD tadd out fresh x xdot dt = some y → (isFinite finX x ∧ xdot.isFinite finD) ∧ Fits x := by
    intro y h
    unfold predict at h
    by_cases h1 : isFinite finX x ∧ xdot.isFinite finD
    · refine ⟨h1, (C116_plus fresh x (xdot.scale dt)).1.1 ?_⟩
      rw [if_pos h1] at h
      cases hp : plus fresh x (xdot.scale dt) with
      | none => rw [hp] at h; cases h
      | some _ => rfl
    · rw [if_neg h1] at h; cases h
  refine ⟨⟨fun h => ?_, fun h => ?_⟩, fun y h => ?_⟩
  · obtain ⟨y, hy⟩ := Option.isSome_iff_exists.1 h
    obtain ⟨⟨⟨a, b⟩, a', b'⟩, h2⟩ := hdef y hy
    exact ⟨h2, fun f => ⟨a f, a' f⟩, fun v i => ⟨b v i, b' v i⟩⟩
  · rw [hval ⟨⟨fun f => (h.2.1 f).1, fun v i => (h.2.2 v i).1⟩, fun f => (h.2.1 f).2, fun v i => (h.2.2 v i).2⟩ h.1]
    rfl
  · obtain ⟨h1, h2⟩ := hdef y h
    rw [hval h1 h2] at h
    cases h
    exact ⟨rfl, rfl, fun f => rfl, fun v i hi => if_pos hi⟩

/-- **C116, finite in memory only.**  The test for finite values also tests the elements which are not in use.  Two states
without any element in use, the same for all of the arithmetic: for the one `predict` runs, for the other, whose unused
memory holds a value that fails the test, it stops. -/
theorem C116_finite_violated (finX : (k : Kind) → El k → Prop) (finD : (k : Kind) → Tan k → Prop) (a b : ℝ)
    (ha : finX (.vec 1) fun _ => a) (hb : ¬ finX (.vec 1) fun _ => b) (hd : finD (.vec 1) fun _ => 0) (out fresh : State ℝ oneVar)
    (dt : ℝ) :
    Same (stV a 0) (stV b 0) ∧ Fits (stV b 0) ∧
    (predict finX finD (· + ·) out fresh (stV a 0) Err.zero dt).isSome ∧
    predict finX finD (· + ·) out fresh (stV b 0) Err.zero dt = none := by
  refine ⟨⟨funext fun f => f.elim, rfl, fun v i hi => by simp at hi⟩, fun _ => by simp, ?_, ?_⟩
  · exact (C116_predict finX finD _ out fresh (stV a 0) Err.zero dt).1.2
      ⟨fun _ => by simp, fun f => f.elim, fun v i => ⟨ha, hd⟩⟩
  · rw [← Option.not_isSome_iff_eq_none, (C116_predict finX finD _ out fresh (stV b 0) Err.zero dt).1]
    rintro ⟨-, -, h⟩
    exact hb (h () 0).1

/-- A state with one element of each kind, two of at most three numbers in use, and an error state which turns by half a
radian: the hypotheses of `C116_round` and `C116_self` hold. -/
example :
    let c : Cfg := ⟨Kind, Unit, id, fun _ => .quat, fun _ => 3⟩
    let x : State ℝ c := setIdentity ⟨0, fun k => El.identity k, fun _ _ => Quat.mk 1 0 0 0, fun _ => 2⟩
    let dx : Err c := ⟨fun k => Tan.zero k, fun _ _ => (![1 / 2, 0, 0] : V3)⟩
    Fits x ∧ Each Good x ∧ EachErr (fun k d => angle k d ≤ 3.14) x.num dx := by
  have good : ∀ k, Good k (El.identity k) := by
    intro k
    match k with
    | .vec _ => trivial
    | .quat => change _ = _; norm_num [El.identity, Quat.identity]
    | .dquat => constructor <;> norm_num [El.identity, DQuat.identity, Quat.identity]
    | .so3 => exact ⟨by simp [El.identity], by simp [El.identity]⟩
    | .se3 => exact ⟨by simp [El.identity, SE3.identity], by simp [El.identity, SE3.identity]⟩
  refine ⟨fun _ => by simp [setIdentity], ⟨fun k => good k, fun v i hi => good .quat⟩, fun k => angle_zero k, fun v i hi => ?_⟩
  change vnorm ![1 / 2, 0, 0] ≤ 3.14
  rw [vnorm, show sqNorm ![1 / 2, 0, 0] = (1 / 2) ^ 2 by simp [sqNorm, dot]; norm_num, Real.sqrt_sq (by norm_num)]
  norm_num

end Verif.Props.EkfState
