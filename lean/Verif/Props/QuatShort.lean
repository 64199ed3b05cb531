import Verif.Props.QuatLog
import Mathlib.Analysis.SpecialFunctions.Trigonometric.Bounds

/-!
# C156: the logarithm takes the long way for quaternions with a negative scalar part

common/math/quat.h 219-237 (`Quat::log`).
-/

namespace Verif.Props.QuatShort

open Verif.Model.Lie Verif.Props.Quat

/-- The property: the logarithm is the same for both quaternions of a rotation (other than half a turn) and at most half a turn long. -/
def C156_statement : Prop := ∀ q : Quat, UnitQ q → q.w ≠ 0 → (Quat.smul (-1) q).log = q.log ∧ vnorm q.log ≤ Real.pi

theorem vnorm_smul' (s : ℝ) (a : V3) : vnorm (s • a) = |s| * vnorm a := by
  unfold vnorm
  rw [show sqNorm (s • a) = s ^ 2 * sqNorm a by simp [sqNorm, dot]; ring, Real.sqrt_mul (sq_nonneg s), Real.sqrt_sq_eq_abs]

theorem opp_bar (q : Quat) : (Quat.smul (-1) q).bar = (-1 : ℝ) • q.bar := by
  funext i
  fin_cases i <;> simp [Quat.smul, Quat.bar]

theorem opp_bar_norm (q : Quat) : vnorm (Quat.smul (-1) q).bar = vnorm q.bar := by
  rw [opp_bar, vnorm_smul']; simp

theorem opp_unit {q : Quat} (h : UnitQ q) : UnitQ (Quat.smul (-1) q) := by
  simp only [UnitQ, Quat.smul] at h ⊢
  linarith

theorem unit_bar {q : Quat} (h : UnitQ q) : vnorm q.bar * vnorm q.bar + q.w * q.w = 1 := by
  unfold vnorm
  rw [Real.mul_self_sqrt (by unfold sqNorm dot; nlinarith [mul_self_nonneg (q.bar 0), mul_self_nonneg (q.bar 1), mul_self_nonneg (q.bar 2)])]
  simp only [UnitQ] at h
  simp [sqNorm, dot, Quat.bar]
  linarith

/-- Twice the angle of the half turn: the length of the logarithm. -/
theorem log_len {q : Quat} (hq : UnitQ q) (h : 4e-6 < vnorm q.bar) : vnorm q.log = 2 * atan2 (vnorm q.bar) q.w := by
  have h0 : 0 < vnorm q.bar := lt_trans (by norm_num) h
  obtain ⟨-, -, hp, -⟩ := atan2_unit (unit_bar hq) h0
  unfold Quat.log
  simp only
  rw [if_pos h, vnorm_smul', abs_of_pos (by positivity)]
  field_simp

theorem atan2_opp {n w : ℝ} (h : n * n + w * w = 1) (hn : 0 < n) : atan2 n (-w) = Real.pi - atan2 n w := by
  obtain ⟨c1, s1, p1, l1⟩ := atan2_unit h hn
  obtain ⟨c2, s2, p2, l2⟩ := atan2_unit (show n * n + -w * -w = 1 by linarith) hn
  have hlt : atan2 n w < Real.pi := by
    rcases l1.lt_or_eq with h' | h'
    · exact h'
    · rw [h', Real.sin_pi] at s1; linarith
  apply Real.injOn_cos ⟨p2.le, l2⟩ ⟨by linarith, by linarith⟩
  rw [c2, Real.cos_pi_sub, c1]

/-- **C156.**  The two quaternions of a rotation have logarithms whose lengths add to a full turn. -/
theorem C156_sum (q : Quat) (hq : UnitQ q) (h : 4e-6 < vnorm q.bar) :
    (Quat.smul (-1) q).R = q.R ∧ vnorm q.log + vnorm (Quat.smul (-1) q).log = 2 * Real.pi := by
  refine ⟨?_, ?_⟩
  · unfold Quat.R Quat.smul
    ext i j
    fin_cases i <;> fin_cases j <;> simp
  · rw [log_len hq h, log_len (opp_unit hq) (by rwa [opp_bar_norm]), opp_bar_norm,
      show (Quat.smul (-1) q).w = -q.w by simp [Quat.smul], atan2_opp (unit_bar hq) (lt_trans (by norm_num) h)]
    ring

/-- **C156, restricted.**  With a scalar part that is not negative the logarithm is at most half a turn long; in the branch for small
vector parts it is the same for both signs. -/
theorem C156_short_partial (q : Quat) (hq : UnitQ q) :
    (4e-6 < vnorm q.bar → 0 ≤ q.w → vnorm q.log ≤ Real.pi) ∧ (vnorm q.bar ≤ 4e-6 → (Quat.smul (-1) q).log = q.log) := by
  constructor
  · intro h hw
    rw [log_len hq h]
    obtain ⟨c, -, p, l⟩ := atan2_unit (unit_bar hq) (lt_trans (by norm_num) h)
    by_contra hc
    have := Real.cos_neg_of_pi_div_two_lt_of_lt (x := atan2 (vnorm q.bar) q.w) (by linarith) (by linarith)
    linarith
  · intro h
    unfold Quat.log
    simp only
    rw [opp_bar_norm, if_neg (not_lt.2 h), if_neg (not_lt.2 h), opp_bar, smul_smul, show (Quat.smul (-1) q).w = -q.w by simp [Quat.smul]]
    congr 1
    rw [show -q.w * -q.w * -q.w = -(q.w * q.w * q.w) by ring,
      show -(q.w * q.w * q.w) * -q.w * -q.w = -(q.w * q.w * q.w * q.w * q.w) by ring, mul_neg (3 : ℝ), mul_neg (5 : ℝ), div_neg, div_neg, div_neg]
    ring

/-- **C156, violated.**  With a negative scalar part the logarithm is the long way round: more than half a turn, where the same rotation by
the other quaternion is less. -/
theorem C156_long_violated (q : Quat) (hq : UnitQ q) (h : 4e-6 < vnorm q.bar) (hw : q.w < 0) :
    Real.pi < vnorm q.log ∧ vnorm (Quat.smul (-1) q).log < Real.pi := by
  have hs := (C156_sum q hq h).2
  have : Real.pi < vnorm q.log := by
    rw [log_len hq h]
    obtain ⟨c, -, p, l⟩ := atan2_unit (unit_bar hq) (lt_trans (by norm_num) h)
    by_contra hc
    have := Real.cos_nonneg_of_neg_pi_div_two_le_of_le (x := atan2 (vnorm q.bar) q.w) (by linarith) (by linarith)
    linarith
  exact ⟨this, by linarith⟩

/-- Near the negative of the identity: a turn about `x` by the half angle with the tangent `t`. -/
noncomputable def nearNeg (t : ℝ) : Quat := ⟨-((1 - t ^ 2) / (1 + t ^ 2)), 2 * t / (1 + t ^ 2), 0, 0⟩

theorem nearNeg_unit (t : ℝ) : UnitQ (nearNeg t) := by
  have : 1 + t ^ 2 ≠ 0 := by positivity
  simp only [UnitQ, nearNeg]
  field_simp
  ring

theorem nearNeg_bar {t : ℝ} (h : 0 ≤ t) : vnorm (nearNeg t).bar = 2 * t / (1 + t ^ 2) := by
  have : 0 ≤ 2 * t / (1 + t ^ 2) := by positivity
  unfold vnorm nearNeg Quat.bar
  simp only [sqNorm, dot]
  simp [Real.sqrt_mul_self this]

/-- **C156, violated.**  The logarithm jumps by almost a full turn: two quaternions that differ by less than a millionth, one of them with
a logarithm below a hundred thousandth, the other with one above six. -/
theorem C156_jump_violated : ∃ p q : Quat, UnitQ p ∧ UnitQ q ∧ p.w < 0 ∧ q.w < 0 ∧
    |p.w - q.w| < 1e-6 ∧ |p.x - q.x| < 1e-6 ∧ p.y = q.y ∧ p.z = q.z ∧ vnorm p.log < 1e-5 ∧ 6 < vnorm q.log := by
  have hb := nearNeg_bar (t := 2e-6) (by norm_num)
  have hb' := nearNeg_bar (t := 2.1e-6) (by norm_num)
  refine ⟨nearNeg 2e-6, nearNeg 2.1e-6, nearNeg_unit _, nearNeg_unit _, by norm_num [nearNeg], by norm_num [nearNeg], ?_, ?_, rfl, rfl, ?_, ?_⟩
  · rw [abs_lt]; constructor <;> norm_num [nearNeg]
  · rw [abs_lt]; constructor <;> norm_num [nearNeg]
  · unfold Quat.log
    simp only
    rw [hb, if_neg (by norm_num), vnorm_smul', hb]
    norm_num [nearNeg, abs_lt, abs_of_neg, abs_of_pos]
  · have hlt : (4e-6 : ℝ) < vnorm (nearNeg 2.1e-6).bar := by rw [hb']; norm_num
    have hs := (C156_sum _ (nearNeg_unit 2.1e-6) hlt).2
    have hu := opp_unit (nearNeg_unit 2.1e-6)
    have hlt' : (4e-6 : ℝ) < vnorm (Quat.smul (-1) (nearNeg 2.1e-6)).bar := by rwa [opp_bar_norm]
    have hshort := (C156_short_partial _ hu).1 hlt' (by norm_num [Quat.smul, nearNeg])
    have hl := log_len hu hlt'
    obtain ⟨-, s, p, -⟩ := atan2_unit (unit_bar hu) (lt_trans (by norm_num) hlt')
    have hj := Real.mul_le_sin p.le (by linarith)
    rw [s, opp_bar_norm, hb'] at hj
    rw [opp_bar_norm, hb'] at hl
    have hpi := Real.pi_gt_d2
    have hpi' := Real.pi_lt_d2
    have h1 : 2 / Real.pi > 0.6 := by rw [gt_iff_lt, lt_div_iff₀ Real.pi_pos]; linarith
    rw [opp_bar_norm, hb'] at p
    have h2 : 2 * 2.1e-6 / (1 + 2.1e-6 ^ 2) ≤ (5e-6 : ℝ) := by norm_num
    have h3 : 0.6 * atan2 (2 * 2.1e-6 / (1 + 2.1e-6 ^ 2)) (Quat.smul (-1) (nearNeg 2.1e-6)).w ≤ 5e-6 := by
      refine le_trans ?_ (hj.trans h2)
      exact mul_le_mul_of_nonneg_right h1.le p.le
    linarith

theorem C156_statement_false : ¬ C156_statement := by
  intro h
  obtain ⟨p, q, -, hq, -, hw, -, -, -, -, -, h6⟩ := C156_jump_violated
  have := (h q hq hw.ne).2
  linarith [Real.pi_lt_d2]

/-- A turn by 74 degrees, by the quaternion with negative scalar part: 286 degrees the other way. -/
example : Real.pi < vnorm (Quat.log ⟨-(4 / 5), 3 / 5, 0, 0⟩) :=
  (C156_long_violated ⟨-(4 / 5), 3 / 5, 0, 0⟩ (by norm_num [UnitQ])
    (by
      have e : vnorm (Quat.bar ⟨-(4 / 5), 3 / 5, 0, 0⟩) = 3 / 5 := by
        unfold vnorm
        rw [show sqNorm (Quat.bar ⟨-(4 / 5), 3 / 5, 0, 0⟩) = (3 / 5) * (3 / 5) by simp [sqNorm, dot, Quat.bar],
          Real.sqrt_mul_self (by norm_num)]
      rw [e]; norm_num) (by norm_num)).1

end Verif.Props.QuatShort
