import Verif.Props.QuatExp

/-!
C67, C68: logarithm and Euler angles of quaternions.
-/

namespace Verif.Props.Quat

open Verif.Model.Lie Verif.Spec.Lie Verif.Lemmas.Lie Matrix

theorem bar_norm_sq (q : Quat) : vnorm q.bar * vnorm q.bar = q.x * q.x + q.y * q.y + q.z * q.z :=
  norm_sq q.bar

theorem atan2_polar {r θ : ℝ} (hr : 0 < r) (h1 : -Real.pi < θ) (h2 : θ ≤ Real.pi) :
    atan2 (r * Real.sin θ) (r * Real.cos θ) = θ := by
  unfold atan2
  have e : (⟨r * Real.cos θ, r * Real.sin θ⟩ : ℂ)
      = (r : ℂ) * (Complex.cos θ + Complex.sin θ * Complex.I) := by
    apply Complex.ext <;>
      simp [Complex.cos_ofReal_re, Complex.sin_ofReal_re, Complex.cos_ofReal_im,
        Complex.sin_ofReal_im]
  rw [e, Complex.arg_mul_cos_add_sin_mul_I hr ⟨h1, h2⟩]

/-- The angle computed from a unit quaternion. -/
theorem atan2_unit {n w : ℝ} (h : n * n + w * w = 1) (hn : 0 < n) :
    Real.cos (atan2 n w) = w ∧ Real.sin (atan2 n w) = n ∧ 0 < atan2 n w ∧
    atan2 n w ≤ Real.pi := by
  have hne : (⟨w, n⟩ : ℂ) ≠ 0 := by
    intro hz
    have := congrArg Complex.im hz
    exact hn.ne' this
  have habs : ‖(⟨w, n⟩ : ℂ)‖ = 1 := by
    rw [← sq_eq_sq₀ (_root_.norm_nonneg _) zero_le_one, ← Complex.normSq_eq_norm_sq,
      Complex.normSq_mk]
    linarith
  have hc : Real.cos (atan2 n w) = w := by
    unfold atan2; rw [Complex.cos_arg hne, habs, div_one]
  have hs : Real.sin (atan2 n w) = n := by
    unfold atan2; rw [Complex.sin_arg, habs, div_one]
  have h0 : 0 ≤ atan2 n w := Complex.arg_nonneg_iff.mpr hn.le
  refine ⟨hc, hs, lt_of_le_of_ne h0 ?_, Complex.arg_le_pi _⟩
  intro hz
  rw [← hz, Real.sin_zero] at hs
  exact hn.ne hs

/-- C67: `exp(log(q)) = q` for every unit quaternion with a vector part above the threshold
(including those with negative real part, whose logarithm is longer than `π`). -/
theorem C67_exp_log_partial (q : Quat) (hq : UnitQ q) (h : 4e-6 < vnorm q.bar) :
    Quat.exp q.log = q := by
  have hn0 : 0 < vnorm q.bar := lt_trans (by norm_num) h
  have hsq := bar_norm_sq q
  have hu : vnorm q.bar * vnorm q.bar + q.w * q.w = 1 := by
    rw [hsq, ← hq]; ring
  obtain ⟨hc, hs, hpos, -⟩ := atan2_unit hu hn0
  set φ := atan2 (vnorm q.bar) q.w with hφ
  have hlog : q.log = (2 * φ / vnorm q.bar) • q.bar := by
    unfold Quat.log
    simp only [gt_iff_lt, h, if_true]
    rfl
  have hnorm : vnorm q.log = 2 * φ := by
    rw [hlog, norm_smul _ (by positivity)]
    field_simp
  have hbig : 4e-6 < vnorm q.log := by
    rw [hnorm]
    have := Real.sin_lt hpos
    rw [hs] at this
    linarith
  rw [exp_large hbig, hnorm, hlog]
  have h2 : 2 * φ / 2 = φ := by ring
  ext <;> simp only [half, h2, hc, hs, Pi.smul_apply, smul_eq_mul, bar_0, bar_1, bar_2] <;>
    field_simp

/-- The hypotheses hold for a quaternion with negative real part. -/
example : UnitQ ⟨-3/5, 0, 4/5, 0⟩ ∧ 4e-6 < vnorm (Quat.bar ⟨-3/5, 0, 4/5, 0⟩) := by
  refine ⟨by norm_num [UnitQ], ?_⟩
  unfold vnorm sqNorm dot
  rw [bar_0, bar_1, bar_2]
  apply Real.lt_sqrt_of_sq_lt
  norm_num

/-- C67: `log(exp(v)) = v` for every vector shorter than a full turn whose quaternion is above the
threshold. -/
theorem C67_log_exp_partial (v : V3) (h : 4e-6 < vnorm v) (h2 : vnorm v < 2 * Real.pi)
    (hs : 4e-6 < Real.sin (vnorm v / 2)) : (Quat.exp v).log = v := by
  have h0 : 0 < vnorm v := lt_trans (by norm_num) h
  have hsp : 0 < Real.sin (vnorm v / 2) := lt_trans (by norm_num) hs
  have hbar : (Quat.exp v).bar = (Real.sin (vnorm v / 2) / vnorm v) • v := by
    rw [exp_large h]
    apply vec_ext <;>
      simp only [half, Quat.bar, vec_0, vec_1, vec_2, Pi.smul_apply, smul_eq_mul] <;> ring
  have hw : (Quat.exp v).w = Real.cos (vnorm v / 2) := by rw [exp_large h]; rfl
  have hn : vnorm (Quat.exp v).bar = Real.sin (vnorm v / 2) := by
    rw [hbar, norm_smul _ (by positivity)]
    field_simp
  have ha : atan2 (Real.sin (vnorm v / 2)) (Real.cos (vnorm v / 2)) = vnorm v / 2 := by
    have := atan2_polar (r := 1) one_pos (θ := vnorm v / 2) (by linarith [Real.pi_pos])
      (by linarith)
    rwa [one_mul, one_mul] at this
  unfold Quat.log
  dsimp only
  rw [hn, if_pos hs, hw, ha, hbar]
  apply vec_ext <;> simp only [Pi.smul_apply, smul_eq_mul] <;> field_simp

/-- C67: at a full turn the logarithm does not return the vector: `exp` of it is `-1`, whose
logarithm is zero. -/
theorem C67_full_turn (v : V3) (h : vnorm v = 2 * Real.pi) :
    Quat.exp v = ⟨-1, 0, 0, 0⟩ ∧ (Quat.exp v).log = 0 := by
  have hb : 4e-6 < vnorm v := by rw [h]; linarith [Real.pi_gt_three]
  have e : Quat.exp v = ⟨-1, 0, 0, 0⟩ := by
    rw [exp_large hb, h]
    have : 2 * Real.pi / 2 = Real.pi := by ring
    ext <;> simp [half, this]
  refine ⟨e, ?_⟩
  rw [e]
  have hz : Quat.bar ⟨-1, 0, 0, 0⟩ = 0 := by
    apply vec_ext <;> rfl
  have hn : vnorm (0 : V3) = 0 := by simp [vnorm, sqNorm, dot]
  unfold Quat.log
  simp only [hz, hn, gt_iff_lt]
  split_ifs <;> simp

/-- C67 for the two overloads of `log`: both compute the same vector above the threshold. -/
theorem C67_overloads_partial (q : Quat) (h : 4e-6 < vnorm q.bar) : q.logJ = q.log := by
  unfold Quat.log Quat.logJ
  simp only [gt_iff_lt, h, if_true, smul_smul]
  rfl

/-- Two overloads of a function compute the same value. -/
def C67_overloads_statement : Prop := ∀ q : Quat, UnitQ q → q.logJ = q.log

/-- C67: below the threshold the overload with a Jacobian multiplies by the fifth power of `w` where
the other one divides by it, so that they differ for every unit quaternion with a non-zero vector
part there. -/
theorem C67_overloads_violated (q : Quat) (hq : UnitQ q) (h0 : 0 < vnorm q.bar)
    (h : vnorm q.bar ≤ 4e-6) (hw : 0 < q.w) : q.logJ ≠ q.log := by
  intro he
  have hn : ¬ vnorm q.bar > 4e-6 := not_lt.mpr h
  have hsq := bar_norm_sq q
  have hu : vnorm q.bar * vnorm q.bar + q.w * q.w = 1 := by rw [hsq, ← hq]; ring
  unfold Quat.log Quat.logJ at he
  simp only [hn, if_false, h0.ne'] at he
  set n := vnorm q.bar with hndef
  have hdiff : ∀ i, (2 * (n / q.w - n * n * n / (3 * (q.w * q.w * q.w))
        + n * n * n * (n * n) / 5 * (q.w * q.w * q.w * (q.w * q.w)))) * (n⁻¹ * q.bar i)
      = (2 * (1 / q.w - n * n / (3 * (q.w * q.w * q.w))
        + n * n * (n * n) / (5 * (q.w * q.w * q.w * q.w * q.w)))) * q.bar i := by
    intro i
    exact congrFun he i
  -- the difference is `2/5 n^4 (w^5 - 1/w^5) q.bar i`
  have hbar : ∀ i, q.bar i = 0 := by
    intro i
    have hd := hdiff i
    have hw1 : q.w < 1 := by nlinarith [mul_pos h0 h0]
    have hw10 : q.w ^ 10 < 1 := pow_lt_one₀ hw.le hw1 (by norm_num)
    field_simp at hd
    by_contra hb
    have hn4 : 0 < n ^ 4 := by positivity
    have : n ^ 4 * (q.w ^ 10 - 1) * q.bar i = 0 := by
      linear_combination hd / 3
    have h3 : n ^ 4 * (q.w ^ 10 - 1) ≠ 0 := mul_ne_zero hn4.ne' (by linarith)
    exact (mul_ne_zero h3 hb) this
  have : n * n = 0 := by
    have h0' := hbar 0
    have h1' := hbar 1
    have h2' := hbar 2
    rw [bar_0] at h0'
    rw [bar_1] at h1'
    rw [bar_2] at h2'
    rw [hsq, h0', h1', h2']; ring
  exact h0.ne' (mul_self_eq_zero.mp this)

/-- A unit quaternion to which `C67_overloads_violated` applies. -/
theorem tiny_ok : UnitQ ⟨(1 - 1e-12) / (1 + 1e-12), 2e-6 / (1 + 1e-12), 0, 0⟩ ∧
    vnorm (Quat.bar ⟨(1 - 1e-12) / (1 + 1e-12), 2e-6 / (1 + 1e-12), 0, 0⟩)
      = 2e-6 / (1 + 1e-12) := by
  refine ⟨by norm_num [UnitQ], ?_⟩
  unfold vnorm sqNorm dot
  rw [bar_0, bar_1, bar_2]
  dsimp only
  rw [mul_zero, add_zero, add_zero, Real.sqrt_mul_self (by norm_num)]

theorem C67_overloads_statement_false : ¬ C67_overloads_statement := by
  intro h
  obtain ⟨h1, h2⟩ := tiny_ok
  refine C67_overloads_violated _ h1 ?_ ?_ ?_ (h _ h1)
  · rw [h2]; norm_num
  · rw [h2]; norm_num
  · norm_num

/-! ### C68 -/

/-- C68: the Euler angles of `from_euler(roll, pitch, yaw)` are the given ones, for pitch strictly
between `-π/2` and `π/2` and roll and yaw in `(-π, π]`. -/
theorem C68_angles (r p y : ℝ) (hr : -Real.pi < r) (hr' : r ≤ Real.pi) (hp : -(Real.pi / 2) < p)
    (hp' : p < Real.pi / 2) (hy : -Real.pi < y) (hy' : y ≤ Real.pi) :
    (Quat.fromEuler r p y).roll = r ∧ (Quat.fromEuler r p y).pitch = p ∧
    (Quat.fromEuler r p y).yaw = y := by
  have hcp : 0 < Real.cos p := Real.cos_pos_of_mem_Ioo ⟨hp, hp'⟩
  have dbl : ∀ a : ℝ, Real.sin a = 2 * Real.sin (a / 2) * Real.cos (a / 2) ∧
      Real.cos a = 2 * Real.cos (a / 2) ^ 2 - 1 ∧ Real.sin (a / 2) ^ 2 + Real.cos (a / 2) ^ 2 = 1 := by
    intro a
    refine ⟨?_, ?_, Real.sin_sq_add_cos_sq _⟩
    · rw [← Real.sin_two_mul]; congr 1; ring
    · rw [← Real.cos_two_mul]; congr 1; ring
  obtain ⟨sr, cr, er⟩ := dbl r
  obtain ⟨sp, cp, ep⟩ := dbl p
  obtain ⟨sy, cy, ey⟩ := dbl y
  refine ⟨?_, ?_, ?_⟩
  · refine Eq.trans ?_ (atan2_polar hcp hr hr')
    unfold Quat.roll Quat.fromEuler
    dsimp only
    rw [sr, cr, cp]
    generalize Real.sin (r / 2) = a at *
    generalize Real.cos (r / 2) = b at *
    generalize Real.sin (p / 2) = c at *
    generalize Real.cos (p / 2) = d at *
    generalize Real.sin (y / 2) = e at *
    generalize Real.cos (y / 2) = f at *
    congr 1
    · linear_combination 2 * a * b * (d ^ 2 - c ^ 2) * ey - 2 * a * b * ep
    · linear_combination (-2) * (a ^ 2 * d ^ 2 + b ^ 2 * c ^ 2) * ey - 2 * d ^ 2 * er
        - 2 * b ^ 2 * ep
  · have hv : 2 * ((Quat.fromEuler r p y).w * (Quat.fromEuler r p y).y
        - (Quat.fromEuler r p y).x * (Quat.fromEuler r p y).z) = Real.sin p := by
      rw [sp]
      unfold Quat.fromEuler
      dsimp only
      generalize Real.sin (r / 2) = a at *
      generalize Real.cos (r / 2) = b at *
      generalize Real.sin (p / 2) = c at *
      generalize Real.cos (p / 2) = d at *
      generalize Real.sin (y / 2) = e at *
      generalize Real.cos (y / 2) = f at *
      linear_combination 2 * c * d * (e ^ 2 + f ^ 2) * er + 2 * c * d * ey
    unfold Quat.pitch
    rw [hv]
    dsimp only
    rw [if_neg (not_lt.mpr (Real.abs_sin_le_one p)), Real.arcsin_sin hp.le hp'.le]
  · refine Eq.trans ?_ (atan2_polar hcp hy hy')
    unfold Quat.yaw Quat.fromEuler
    dsimp only
    rw [sy, cy, cp]
    generalize Real.sin (r / 2) = a at *
    generalize Real.cos (r / 2) = b at *
    generalize Real.sin (p / 2) = c at *
    generalize Real.cos (p / 2) = d at *
    generalize Real.sin (y / 2) = e at *
    generalize Real.cos (y / 2) = f at *
    congr 1
    · linear_combination 2 * e * f * (d ^ 2 - c ^ 2) * er - 2 * e * f * ep
    · linear_combination (-2) * (c ^ 2 * f ^ 2 + d ^ 2 * e ^ 2) * er - 2 * f ^ 2 * ep
        - 2 * d ^ 2 * ey

/-- Angles that meet the hypotheses of `C68_angles`: half a turn of yaw, backwards roll. -/
example : -Real.pi < -3 ∧ (-3 : ℝ) ≤ Real.pi ∧ -(Real.pi / 2) < (1 : ℝ) ∧ (1 : ℝ) < Real.pi / 2 ∧
    -Real.pi < Real.pi ∧ Real.pi ≤ Real.pi := by
  have := Real.pi_gt_three
  refine ⟨?_, ?_, ?_, ?_, ?_, le_refl _⟩ <;> linarith

/-- C68 as stated: a unit quaternion is recovered, up to sign, from its Euler angles. -/
def C68_statement : Prop :=
  ∀ q : Quat, UnitQ q → Quat.fromEuler q.roll q.pitch q.yaw = q ∨
    Quat.fromEuler q.roll q.pitch q.yaw = Quat.smul (-1) q

/-- Two rotation matrices with the same first row and the same last column are equal, unless the
corner entry is `±1`. -/
theorem rot_unique {M N : M3} (hM : IsRot M) (hN : IsRot N) (h00 : M 0 0 = N 0 0)
    (h01 : M 0 1 = N 0 1) (h02 : M 0 2 = N 0 2) (h12 : M 1 2 = N 1 2) (h22 : M 2 2 = N 2 2)
    (hc : N 0 0 * N 0 0 + N 0 1 * N 0 1 ≠ 0) : M = N := by
  have rel : ∀ A : M3, IsRot A → A 0 0 * A 1 0 + A 0 1 * A 1 1 + A 0 2 * A 1 2 = 0 ∧
      A 0 0 * A 2 0 + A 0 1 * A 2 1 + A 0 2 * A 2 2 = 0 ∧
      A 0 0 * A 1 1 - A 0 1 * A 1 0 = A 2 2 ∧ -(A 0 0 * A 2 1) + A 0 1 * A 2 0 = A 1 2 := by
    intro A hA
    have r : ∀ i j, (A * A.transpose) i j = (1 : M3) i j := fun i j => by rw [hA.1]
    have a : ∀ i j, A.adjugate i j = A j i := fun i j => by
      rw [(rot_rel hA).2, transpose_apply]
    rw [Matrix.adjugate_fin_three] at a
    have r01 := r 0 1
    have r02 := r 0 2
    simp only [mul_at, transpose_apply, one_01, one_02] at r01 r02
    exact ⟨r01, r02, a 2 2, a 2 1⟩
  obtain ⟨m1, m2, m3, m4⟩ := rel M hM
  obtain ⟨n1, n2, n3, n4⟩ := rel N hN
  rw [h00, h01, h02, h12] at m1
  rw [h00, h01, h02, h22] at m2
  rw [h00, h01, h22] at m3
  rw [h00, h01, h12] at m4
  apply mat_ext <;> try assumption
  · apply mul_left_cancel₀ hc
    linear_combination N 0 0 * (m1 - n1) - N 0 1 * (m3 - n3)
  · apply mul_left_cancel₀ hc
    linear_combination N 0 1 * (m1 - n1) + N 0 0 * (m3 - n3)
  · apply mul_left_cancel₀ hc
    linear_combination N 0 0 * (m2 - n2) + N 0 1 * (m4 - n4)
  · apply mul_left_cancel₀ hc
    linear_combination N 0 1 * (m2 - n2) - N 0 0 * (m4 - n4)

/-- The entries of the matrix of `from_euler` that are products of two sines and cosines. -/
theorem fromEuler_R (r p y : ℝ) : (Quat.fromEuler r p y).R 0 0 = Real.cos p * Real.cos y ∧
    (Quat.fromEuler r p y).R 0 1 = Real.cos p * Real.sin y ∧
    (Quat.fromEuler r p y).R 0 2 = -Real.sin p ∧
    (Quat.fromEuler r p y).R 1 2 = Real.cos p * Real.sin r ∧
    (Quat.fromEuler r p y).R 2 2 = Real.cos p * Real.cos r := by
  have dbl : ∀ a : ℝ, Real.sin a = 2 * Real.sin (a / 2) * Real.cos (a / 2) ∧
      Real.cos a = 2 * Real.cos (a / 2) ^ 2 - 1 ∧ Real.sin (a / 2) ^ 2 + Real.cos (a / 2) ^ 2 = 1 := by
    intro a
    refine ⟨?_, ?_, Real.sin_sq_add_cos_sq _⟩
    · rw [← Real.sin_two_mul]; congr 1; ring
    · rw [← Real.cos_two_mul]; congr 1; ring
  obtain ⟨sr, cr, er⟩ := dbl r
  obtain ⟨sp, cp, ep⟩ := dbl p
  obtain ⟨sy, cy, ey⟩ := dbl y
  rw [R_00, R_01, R_02, R_12, R_22, sr, cr, sp, cp, sy, cy]
  unfold Quat.fromEuler
  dsimp only
  generalize Real.sin (r / 2) = a at *
  generalize Real.cos (r / 2) = b at *
  generalize Real.sin (p / 2) = c at *
  generalize Real.cos (p / 2) = d at *
  generalize Real.sin (y / 2) = e at *
  generalize Real.cos (y / 2) = f at *
  refine ⟨?_, ?_, ?_, ?_, ?_⟩
  · linear_combination (-2) * (c ^ 2 * f ^ 2 + d ^ 2 * e ^ 2) * er - 2 * f ^ 2 * ep
        - 2 * d ^ 2 * ey
  · linear_combination 2 * e * f * (d ^ 2 - c ^ 2) * er - 2 * e * f * ep
  · linear_combination (-2) * c * d * (e ^ 2 + f ^ 2) * er - 2 * c * d * ey
  · linear_combination 2 * a * b * (d ^ 2 - c ^ 2) * ey - 2 * a * b * ep
  · linear_combination (-2) * (a ^ 2 * d ^ 2 + b ^ 2 * c ^ 2) * ey - 2 * d ^ 2 * er
        - 2 * b ^ 2 * ep

theorem atan2_spec {y x r : ℝ} (hr : 0 < r) (h : x * x + y * y = r * r) :
    r * Real.cos (atan2 y x) = x ∧ r * Real.sin (atan2 y x) = y := by
  have habs : ‖(⟨x, y⟩ : ℂ)‖ = r := by
    rw [← sq_eq_sq₀ (_root_.norm_nonneg _) hr.le, ← Complex.normSq_eq_norm_sq, Complex.normSq_mk]
    linarith
  unfold atan2
  rw [← habs]
  exact ⟨Complex.norm_mul_cos_arg _, Complex.norm_mul_sin_arg _⟩

/-- C68: away from the singularity (pitch `±π/2`) every unit quaternion is recovered, up to sign,
from its Euler angles. -/
theorem C68_roundtrip_partial (q : Quat) (hq : UnitQ q) (h : |2 * (q.w * q.y - q.x * q.z)| < 1) :
    Quat.fromEuler q.roll q.pitch q.yaw = q ∨
    Quat.fromEuler q.roll q.pitch q.yaw = Quat.smul (-1) q := by
  have hR := R_isRot q hq
  obtain ⟨hl, hu⟩ := abs_lt.mp h
  have hp : q.pitch = Real.arcsin (2 * (q.w * q.y - q.x * q.z)) := by
    unfold Quat.pitch
    exact if_neg (not_lt.mpr h.le)
  have hsp : Real.sin q.pitch = 2 * (q.w * q.y - q.x * q.z) := by
    rw [hp, Real.sin_arcsin hl.le hu.le]
  have hcp : 0 < Real.cos q.pitch := by
    rw [hp, Real.cos_arcsin]
    apply Real.sqrt_pos.mpr
    nlinarith
  have hsc := Real.sin_sq_add_cos_sq q.pitch
  have hr := atan2_spec (y := 2 * (q.w * q.x + q.y * q.z)) (x := 1 - 2 * (q.x * q.x + q.y * q.y))
    hcp (by
      rw [hsp] at hsc
      have hq' := hq
      simp only [UnitQ] at hq'
      linear_combination -hsc + 4 * (q.x ^ 2 + q.y ^ 2) * hq')
  have hy := atan2_spec (y := 2 * (q.w * q.z + q.x * q.y)) (x := 1 - 2 * (q.y * q.y + q.z * q.z))
    hcp (by
      rw [hsp] at hsc
      have hq' := hq
      simp only [UnitQ] at hq'
      linear_combination -hsc + 4 * (q.y ^ 2 + q.z ^ 2) * hq')
  have hr : Real.cos q.pitch * Real.cos q.roll = 1 - 2 * (q.x * q.x + q.y * q.y) ∧
      Real.cos q.pitch * Real.sin q.roll = 2 * (q.w * q.x + q.y * q.z) := hr
  have hy : Real.cos q.pitch * Real.cos q.yaw = 1 - 2 * (q.y * q.y + q.z * q.z) ∧
      Real.cos q.pitch * Real.sin q.yaw = 2 * (q.w * q.z + q.x * q.y) := hy
  obtain ⟨e00, e01, e02, e12, e22⟩ := fromEuler_R q.roll q.pitch q.yaw
  apply R_inj (C45_euler _ _ _).1 hq
  apply rot_unique (R_isRot _ (C45_euler _ _ _).1) hR
  · rw [e00, R_00]; linear_combination hy.1
  · rw [e01, R_01]; linear_combination hy.2
  · rw [e02, R_02, hsp]; ring
  · rw [e12, R_12]; linear_combination hr.2
  · rw [e22, R_22]; linear_combination hr.1
  · rw [R_00, R_01]
    have : (1 - 2 * (q.y * q.y) - 2 * (q.z * q.z)) * (1 - 2 * (q.y * q.y) - 2 * (q.z * q.z))
        + (2 * (q.x * q.y) + 2 * (q.w * q.z)) * (2 * (q.x * q.y) + 2 * (q.w * q.z))
        = Real.cos q.pitch ^ 2 := by
      have hsy := Real.sin_sq_add_cos_sq q.yaw
      have h1 : Real.cos q.pitch * Real.cos q.yaw = 1 - 2 * (q.y * q.y + q.z * q.z) := hy.1
      have h2 : Real.cos q.pitch * Real.sin q.yaw = 2 * (q.w * q.z + q.x * q.y) := hy.2
      have e1 : 1 - 2 * (q.y * q.y) - 2 * (q.z * q.z) = Real.cos q.pitch * Real.cos q.yaw := by
        rw [h1]; ring
      have e2 : 2 * (q.x * q.y) + 2 * (q.w * q.z) = Real.cos q.pitch * Real.sin q.yaw := by
        rw [h2]; ring
      rw [e1, e2]
      linear_combination Real.cos q.pitch ^ 2 * hsy
    rw [this]
    positivity

/-- The quaternion of a roll by `r` at a pitch of `π/2`: the code reads roll and yaw zero. -/
theorem C68_gimbal_violated (r : ℝ) :
    (Quat.fromEuler r (Real.pi / 2) 0).roll = 0 ∧ (Quat.fromEuler r (Real.pi / 2) 0).yaw = 0 ∧
    (Quat.fromEuler r (Real.pi / 2) 0).pitch = Real.pi / 2 := by
  obtain ⟨e00, e01, e02, e12, e22⟩ := fromEuler_R r (Real.pi / 2) 0
  rw [R_00] at e00
  rw [R_01] at e01
  rw [R_02] at e02
  rw [R_12] at e12
  rw [R_22] at e22
  rw [Real.cos_pi_div_two, zero_mul] at e00 e01 e12 e22
  rw [Real.sin_pi_div_two] at e02
  have hz : atan2 0 0 = 0 := Complex.arg_zero
  refine ⟨?_, ?_, ?_⟩
  · refine Eq.trans ?_ hz
    unfold Quat.roll
    congr 1
    · linear_combination e12
    · linear_combination e22
  · refine Eq.trans ?_ hz
    unfold Quat.yaw
    congr 1
    · linear_combination e01
    · linear_combination e00
  · have hv : 2 * ((Quat.fromEuler r (Real.pi / 2) 0).w * (Quat.fromEuler r (Real.pi / 2) 0).y
        - (Quat.fromEuler r (Real.pi / 2) 0).x * (Quat.fromEuler r (Real.pi / 2) 0).z) = 1 := by
      linear_combination -e02
    unfold Quat.pitch
    rw [hv]
    dsimp only
    rw [if_neg (by norm_num), Real.arcsin_one]

theorem C68_statement_false : ¬ C68_statement := by
  intro h
  have h1 := h (Quat.fromEuler Real.pi (Real.pi / 2) 0) (C45_euler _ _ _).1
  obtain ⟨e1, e2, e3⟩ := C68_gimbal_violated Real.pi
  rw [e1, e2, e3] at h1
  -- one has a zero and one a non-zero real part
  have hc : Real.cos (Real.pi / 2 / 2) ≠ 0 := by
    apply ne_of_gt
    apply Real.cos_pos_of_mem_Ioo
    constructor <;> linarith [Real.pi_pos]
  rcases h1 with h1 | h1 <;>
  · have := congrArg Quat.w h1
    simp only [Quat.fromEuler, Quat.smul, zero_div, Real.cos_zero, Real.sin_zero, mul_zero,
      Real.cos_pi_div_two, zero_mul, add_zero, one_mul, mul_one] at this
    exact hc this

end Verif.Props.Quat
