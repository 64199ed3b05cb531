import Verif.Model.Factor
import Verif.Props.EkfModels
import Verif.Props.DQuatTaylor

/-!
C88: the anchor `PoseError` (models/pose_error_model.cxx).
-/

namespace Verif.Props.PoseError

open Verif.Model.Lie Verif.Model.Factor Verif.Lemmas.Lie Verif.Props.Quat Verif.Props.DQuat
  Verif.Props.DQuatTaylor Matrix

/-- The same pose with the opposite sign. -/
def neg (p : DQuat) : DQuat := ⟨Quat.smul (-1) p.r, Quat.smul (-1) p.d⟩

/-- All six weights are nonzero. -/
def Weighted (f : PoseErr) : Prop := (∀ i, f.Xi.w i ≠ 0) ∧ ∀ i, f.Xi.v i ≠ 0

/-- The factor of the Taylor branch is positive. -/
theorem taylor_pos {r0 s : ℝ} (hu : r0 * r0 + s = 1) (h0 : 0 ≤ s) (h : ¬ s > 1e-8) :
    0 < 1 - 1 / (3 * (r0 * r0 * r0)) * s + 1 / (5 * (r0 * r0 * r0 * (r0 * r0))) * (s * s) := by
  have hs : s ≤ 1e-8 := not_lt.mp h
  norm_num at hs
  have hr2 : 1 / 2 < r0 * r0 := by linarith
  have ha : |r0| ≤ 1 := abs_le_one_iff_mul_self_le_one.mpr (by linarith)
  have hb : 1 / 2 < |r0| := by
    by_contra hc
    push Not at hc
    have : |r0| * |r0| ≤ 1 / 2 * (1 / 2) := mul_le_mul hc hc (abs_nonneg _) (by norm_num)
    rw [abs_mul_abs_self] at this
    linarith
  have h3 : 1 / 4 ≤ |r0 * r0 * r0| := by
    rw [abs_mul, abs_of_pos (by linarith : 0 < r0 * r0)]
    nlinarith
  have h5 : 1 / 8 ≤ |r0 * r0 * r0 * (r0 * r0)| := by
    rw [abs_mul, abs_of_pos (by linarith : 0 < r0 * r0)]
    nlinarith
  have k3 : |1 / (3 * (r0 * r0 * r0)) * s| ≤ 2 * s := by
    rw [abs_mul, abs_div, abs_one, abs_mul, abs_of_pos (by norm_num : (0 : ℝ) < 3), abs_of_nonneg h0]
    apply mul_le_mul_of_nonneg_right _ h0
    rw [div_le_iff₀ (by linarith)]
    linarith
  have k5 : |1 / (5 * (r0 * r0 * r0 * (r0 * r0))) * (s * s)| ≤ 2 * (s * s) := by
    rw [abs_mul, abs_div, abs_one, abs_mul, abs_of_pos (by norm_num : (0 : ℝ) < 5),
      abs_of_nonneg (mul_nonneg h0 h0)]
    apply mul_le_mul_of_nonneg_right _ (mul_nonneg h0 h0)
    rw [div_le_iff₀ (by linarith)]
    linarith
  have l3 := (abs_le.mp k3).2
  have l5 := (abs_le.mp k5).1
  nlinarith

theorem bar_zero {q : Quat} (h : q.bar = 0) : q.x = 0 ∧ q.y = 0 ∧ q.z = 0 :=
  ⟨congrFun h 0, congrFun h 1, congrFun h 2⟩

theorem sqNorm_nonneg (v : V3) : 0 ≤ sqNorm v := by
  unfold sqNorm dot; nlinarith [mul_self_nonneg (v 0), mul_self_nonneg (v 1), mul_self_nonneg (v 2)]

/-- The logarithm of a unit dual quaternion vanishes only at the identity and its negative. -/
theorem log_zero_iff (p : DQuat) (hp : UnitD p) :
    p.log = ⟨0, 0⟩ ↔ p = DQuat.identity ∨ p = neg DQuat.identity := by
  have z : sqNorm (0 : V3) = 0 := by simp [sqNorm, dot]
  constructor
  · intro h
    have hbar : p.r.bar = 0 := by
      unfold DQuat.log at h
      dsimp only at h
      by_cases hc : sqNorm p.r.bar > 1e-8
      · rw [if_pos hc] at h
        have hw := congrArg V6.w h
        dsimp only at hw
        have hpos : 0 < sqNorm p.r.bar := lt_trans (by norm_num) hc
        have hth : 0 < Real.sqrt (sqNorm p.r.bar) := Real.sqrt_pos.mpr hpos
        have hat : 0 < atan2 (Real.sqrt (sqNorm p.r.bar)) p.r.w := by
          unfold atan2
          have h1 : 0 ≤ Complex.arg ⟨p.r.w, Real.sqrt (sqNorm p.r.bar)⟩ := Complex.arg_nonneg_iff.mpr hth.le
          rcases h1.lt_or_eq with h2 | h2
          · exact h2
          · exact absurd (Complex.arg_eq_zero_iff.mp h2.symm).2 hth.ne'
        exact (smul_eq_zero.mp hw).resolve_left (by positivity)
      · rw [if_neg hc] at h
        have hw := congrArg V6.w h
        dsimp only at hw
        have hu : p.r.w * p.r.w + sqNorm p.r.bar = 1 := by
          have := hp.1
          simp only [UnitQ] at this
          unfold sqNorm dot
          rw [bar_0, bar_1, bar_2]
          linear_combination this
        have := taylor_pos hu (sqNorm_nonneg _) hc
        exact (smul_eq_zero.mp hw).resolve_left (by positivity)
    obtain ⟨hx, hy, hz⟩ := bar_zero hbar
    have hv := congrArg V6.v h
    unfold DQuat.log at hv
    dsimp only at hv
    rw [hbar, z, if_neg (by norm_num)] at hv
    dsimp only at hv
    have hd : p.d.bar = 0 := by simpa using hv
    obtain ⟨dx, dy, dz⟩ := bar_zero hd
    obtain ⟨h1, h2⟩ := hp
    simp only [UnitQ] at h1
    rw [hx, hy, hz] at h1 h2
    have hw : p.r.w = 1 ∨ p.r.w = -1 := by
      have : (p.r.w - 1) * (p.r.w + 1) = 0 := by linear_combination h1
      rcases mul_eq_zero.mp this with k | k
      · exact Or.inl (by linarith)
      · exact Or.inr (by linarith)
    have hd0 : p.d.w = 0 := by
      rcases hw with k | k <;> rw [k] at h2 <;> linarith
    rcases hw with k | k
    · left
      apply DQuat.ext <;> apply Quat.ext <;> simp [DQuat.identity, Quat.identity, *]
    · right
      apply DQuat.ext <;> apply Quat.ext <;> simp [neg, Quat.smul, DQuat.identity, Quat.identity, *]
  · intro h
    have hb : p.r.bar = 0 ∧ p.d.bar = 0 := by
      rcases h with h | h <;> rw [h] <;> constructor <;> apply vec_ext <;>
        simp [neg, Quat.smul, DQuat.identity, Quat.identity, Quat.bar]
    unfold DQuat.log
    dsimp only
    rw [hb.1, hb.2, z, if_neg (by norm_num)]
    simp

/-- Cancelling a unit dual quaternion on the left. -/
theorem cancel_left (p q s : DQuat) (hp : UnitD p) (hq : UnitD q) (h : p.inverse.otimes q = s) :
    q = p.otimes s := by
  have g := C46_group p q s hp hq
  have ga := (C46_group p p.inverse q hp g.2.1).2.2.2.1
  rw [← h, ← ga, g.2.2.2.2.2.2.1]
  exact (C46_group q q q hq hq).2.2.2.2.2.1.symm

theorem otimes_neg_id (p : DQuat) : p.otimes (neg DQuat.identity) = neg p := by
  apply DQuat.ext <;> apply Quat.ext <;>
    simp [DQuat.otimes, neg, Quat.otimes, Quat.add, Quat.smul, DQuat.identity, Quat.identity]

theorem inverse_otimes_neg (p q : DQuat) : p.inverse.otimes (neg q) = neg (p.inverse.otimes q) := by
  apply DQuat.ext <;> apply Quat.ext <;>
    simp only [DQuat.otimes, neg, Quat.otimes, Quat.add, Quat.smul] <;> ring

/-- **C88**: with nonzero weights the residual evaluated without Jacobians vanishes exactly at the anchor (and at its
negative, the same pose). -/
theorem C88_zero (f : PoseErr) (pose : DQuat) (hf : Weighted f) (ha : UnitD f.anchor) (hp : UnitD pose) :
    f.plain pose = ⟨0, 0⟩ ↔ pose = f.anchor ∨ pose = neg f.anchor := by
  have g := C46_group f.anchor pose pose ha hp
  have hu : UnitD (f.anchor.inverse.otimes pose) := (C46_group _ pose pose g.2.1 hp).1
  have e : f.plain pose = ⟨0, 0⟩ ↔ (f.anchor.inverse.otimes pose).log = ⟨0, 0⟩ := by
    unfold PoseErr.plain
    dsimp only
    constructor
    · intro h
      have hw := congrArg V6.w h
      have hv := congrArg V6.v h
      dsimp only at hw hv
      apply V6.ext
      · funext i
        exact (mul_eq_zero.mp (congrFun hw i)).resolve_left (hf.1 i)
      · funext i
        exact (mul_eq_zero.mp (congrFun hv i)).resolve_left (hf.2 i)
    · intro h
      rw [h]
      apply V6.ext <;> funext i <;> exact mul_zero _
  rw [e, log_zero_iff _ hu]
  constructor
  · rintro (h | h)
    · left
      rw [cancel_left _ _ _ ha hp h, g.2.2.2.2.1]
    · right
      rw [cancel_left _ _ _ ha hp h, otimes_neg_id]
  · rintro (h | h)
    · left
      rw [h]
      exact g.2.2.2.2.2.2.2
    · right
      rw [h, inverse_otimes_neg, g.2.2.2.2.2.2.2]

/-- The full property also asks that the residual of a pose does not depend on whether Jacobians are requested, and
that it depends on the pose only, not on the sign of the eight numbers. -/
def C88_statement : Prop := ∀ (f : PoseErr) (pose : DQuat), UnitD f.anchor → UnitD pose →
  f.withJac pose = f.plain pose ∧ ((f.plain (neg pose)).v = (f.plain pose).v)

def ones : PoseErr := ⟨DQuat.identity, ⟨fun _ => 1, fun _ => 1⟩⟩

theorem id_unit : UnitD DQuat.identity := by norm_num [UnitD, UnitQ, DQuat.identity, Quat.identity]

theorem ones_delta (p : DQuat) : ones.anchor.inverse.otimes p = p := by
  apply DQuat.ext <;> apply Quat.ext <;>
    simp [ones, DQuat.otimes, DQuat.inverse, Quat.inverse, Quat.otimes, Quat.add, DQuat.identity, Quat.identity]

theorem ones_plain (p : DQuat) : ones.plain p = p.log := by
  unfold PoseErr.plain
  rw [ones_delta]
  apply V6.ext <;> funext i <;> exact one_mul _

theorem ones_withJac (p : DQuat) : ones.withJac p = p.logJ := by
  unfold PoseErr.withJac
  rw [ones_delta]
  apply V6.ext <;> funext i <;> exact one_mul _

/-- **C88** is violated: the residual of one pose (a screw motion by one Earth radius with a rotation of 1.6
milliradians) is more than one metre larger when the Jacobian is requested. -/
theorem C88_overload_violated : ∃ pose, UnitD pose ∧ 1 < (ones.withJac pose).v 0 - (ones.plain pose).v 0 := by
  obtain ⟨h1, -, h3⟩ := C70_overloads_violated
  exact ⟨_, h1, by rw [ones_withJac, ones_plain]; exact h3⟩

/-- **C88** is violated: a pure translation by `t` has residual `t` or `-t`, depending on the sign of the numbers. -/
theorem C88_sign_violated (t : V3) :
    let p : DQuat := ⟨⟨1, 0, 0, 0⟩, ⟨0, t 0 / 2, t 1 / 2, t 2 / 2⟩⟩
    UnitD p ∧ (neg p).transforma 0 = p.transforma 0 ∧ (ones.plain p).v = t ∧ (ones.plain (neg p)).v = -t := by
  intro p
  have e : neg p = ⟨⟨-1, 0, 0, 0⟩, ⟨0, -t 0 / 2, -t 1 / 2, -t 2 / 2⟩⟩ := by
    apply DQuat.ext <;> apply Quat.ext <;> simp [neg, p, Quat.smul] <;> ring
  obtain ⟨h1, h2, h3, h4⟩ := C70_sign_violated t
  have hl : p.log = ⟨0, t⟩ := by
    have h0 : Quat.bar ⟨1, 0, 0, 0⟩ = 0 := by apply vec_ext <;> rfl
    have z : sqNorm (0 : V3) = 0 := by simp [sqNorm, dot]
    unfold DQuat.log
    dsimp only [p]
    rw [h0, z, if_neg (by norm_num)]
    apply V6.ext
    · simp
    · apply vec_ext <;> simp only [Pi.smul_apply, Pi.add_apply, smul_eq_mul, bar_0, bar_1, bar_2,
        Pi.zero_apply] <;> ring
  refine ⟨⟨by norm_num [UnitQ, p], by norm_num [p]⟩, ?_, ?_, ?_⟩
  · rw [e, h2]
    unfold DQuat.transforma
    rw [rota_eq, mulVec_zero, zero_add]
    apply vec_ext <;> simp only [trans_0, trans_1, trans_2, p] <;> ring
  · rw [ones_plain, hl]
  · rw [ones_plain, e, h3]

theorem C88_statement_false : ¬ C88_statement := by
  intro h
  obtain ⟨pose, hp, hl⟩ := C88_overload_violated
  rw [(h ones pose id_unit hp).1, sub_self] at hl
  norm_num at hl

/-- An anchor that turns and translates, with unequal weights. -/
example : Weighted ⟨⟨⟨3/5, 0, 4/5, 0⟩, ⟨4, 1, -3, 2⟩⟩, ⟨![1, 2, 3], ![4, 5, 6]⟩⟩ ∧
    UnitD ⟨⟨3/5, 0, 4/5, 0⟩, ⟨4, 1, -3, 2⟩⟩ := by
  refine ⟨⟨?_, ?_⟩, by norm_num [UnitD, UnitQ]⟩ <;> intro i <;> fin_cases i <;> simp

end Verif.Props.PoseError
