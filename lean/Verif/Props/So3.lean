import Verif.Model.So3
import Verif.Props.DQuat

/-!
C48: `SO3` and `SE3` are the rotation and rigid motion groups, and their exponentials are rotations.
-/

namespace Verif.Props.So3

open Verif.Model.Lie Verif.Spec.Lie Verif.Lemmas.Lie Verif.Props.Quat Verif.Props.DQuat Matrix

theorem sqNorm_at (w : V3) : sqNorm w = w 0 * w 0 + w 1 * w 1 + w 2 * w 2 := rfl

/-! ### The matrices `1 + a W + b W²` -/

/-- How far `1 + a W + b W²` is from being orthogonal. -/
def defect (a b : ℝ) (w : V3) : ℝ := 2 * b - a * a - b * b * sqNorm w

theorem det3 (M : M3) : M.det = M 0 0 * (M 1 1 * M 2 2 - M 1 2 * M 2 1)
    - M 0 1 * (M 1 0 * M 2 2 - M 1 2 * M 2 0) + M 0 2 * (M 1 0 * M 2 1 - M 1 1 * M 2 0) := by
  rw [Matrix.det_fin_three]; ring

theorem rodrigues_gram (a b : ℝ) (w : V3) :
    rodrigues a b w * (rodrigues a b w).transpose = 1 + defect a b w • (skew w * skew w) := by
  unfold rodrigues defect
  rw [sqNorm_at]
  apply mat_ext <;> comps <;> ring

theorem rodrigues_det (a b : ℝ) (w : V3) :
    (rodrigues a b w).det = 1 - defect a b w * sqNorm w := by
  unfold rodrigues defect
  rw [det3, sqNorm_at]
  comps
  ring

theorem rodrigues_isRot {a b : ℝ} {w : V3} (h : defect a b w = 0) : IsRot (rodrigues a b w) := by
  refine ⟨?_, ?_⟩
  · rw [rodrigues_gram, h, zero_smul, add_zero]
  · rw [rodrigues_det, h]; ring

theorem rodrigues_apply (a b : ℝ) (w v : V3) : (rodrigues a b w).mulVec v
    = v + a • vprod w v + b • vprod w (vprod w v) := by
  unfold rodrigues
  apply vec_ext <;> comps <;> ring

/-! ### The exponential of `SO3` -/

theorem abc_trig {w : V3} (h : 4e-6 ≤ sqNorm w) :
    abcSo3 w = abcTrig (sqNorm w) (vnorm w) := by
  unfold abcSo3
  simp only [not_lt.mpr h, if_false, sqrt_sqNorm]

theorem pos_of_le {w : V3} (h : 4e-6 ≤ sqNorm w) : 0 < vnorm w :=
  Real.sqrt_pos.mpr (lt_of_lt_of_le (by norm_num) h)

theorem defect_trig {w : V3} (h : 0 < vnorm w) :
    defect (Real.sin (vnorm w) / vnorm w) ((1 - Real.cos (vnorm w)) / sqNorm w) w = 0 := by
  unfold defect
  rw [sqNorm_eq]
  have := Real.sin_sq_add_cos_sq (vnorm w)
  field_simp
  linear_combination -this

theorem exp_trig {w : V3} (h : 4e-6 ≤ sqNorm w) : SO3.exp w
    = rodrigues (Real.sin (vnorm w) / vnorm w) ((1 - Real.cos (vnorm w)) / sqNorm w) w := by
  unfold SO3.exp
  rw [abc_trig h]
  rfl

/-- C48: above the Taylor threshold the exponential of `SO3` is a rotation matrix, and it turns every
vector by the length of `w` about the direction of `w`. -/
theorem C48_exp_partial (w : V3) (h : 4e-6 ≤ sqNorm w) :
    IsRot (SO3.exp w) ∧
    ∀ v, (SO3.exp w).mulVec v = turn ((vnorm w)⁻¹ • w) (vnorm w) v := by
  have h0 := pos_of_le h
  rw [exp_trig h]
  refine ⟨rodrigues_isRot (defect_trig h0), fun v => ?_⟩
  have hs := sqNorm_eq w
  have hsn := sqNorm_at w
  rw [hsn] at hs
  rw [rodrigues_apply, sqNorm_eq]
  unfold turn
  generalize vnorm w = n at *
  generalize Real.sin n = s
  generalize Real.cos n = c
  have hi : n * n⁻¹ = 1 := by field_simp
  have hd : (1 - c) / (n * n) = (1 - c) * (n⁻¹ * n⁻¹) := by field_simp
  have hd' : s / n = s * n⁻¹ := by field_simp
  rw [hd, hd']
  generalize n⁻¹ = m at *
  have hm : m * m * (n * n) = 1 := by linear_combination (n * m + 1) * hi
  rw [← hs] at hm
  apply vec_ext <;> comps
  · linear_combination (-(1 - c) * v 0) * hm
  · linear_combination (-(1 - c) * v 1) * hm
  · linear_combination (-(1 - c) * v 2) * hm

/-- The Taylor polynomials miss being orthogonal by terms of the sixth order. -/
theorem defect_taylor (w : V3) : defect (abcTaylor (sqNorm w)).1 (abcTaylor (sqNorm w)).2.1 w
    = -(sqNorm w) ^ 3 * (1 / 2880 - sqNorm w / 21600 + sqNorm w ^ 2 / 518400) := by
  unfold defect abcTaylor
  ring

theorem sqNorm_nonneg (w : V3) : 0 ≤ sqNorm w := by
  rw [sqNorm_at]
  nlinarith [mul_self_nonneg (w 0), mul_self_nonneg (w 1), mul_self_nonneg (w 2)]

theorem exp_taylor {w : V3} (h : sqNorm w < 4e-6) : SO3.exp w
    = rodrigues (abcTaylor (sqNorm w)).1 (abcTaylor (sqNorm w)).2.1 w := by
  unfold SO3.exp abcSo3
  simp only [h, if_true]

/-- The defect of the Taylor branch is non-zero but of the sixth order. -/
theorem defect_small {w : V3} (h : sqNorm w < 4e-6) (h0 : 0 < sqNorm w) :
    defect (abcTaylor (sqNorm w)).1 (abcTaylor (sqNorm w)).2.1 w < 0 ∧
    -(sqNorm w) ^ 3 / 2880 ≤ defect (abcTaylor (sqNorm w)).1 (abcTaylor (sqNorm w)).2.1 w := by
  rw [defect_taylor]
  generalize sqNorm w = x at *
  have h3 : 0 < x ^ 3 := by positivity
  constructor
  · have : 0 < 1 / 2880 - x / 21600 + x ^ 2 / 518400 := by
      have := sq_nonneg x
      norm_num at h ⊢
      linarith
    nlinarith
  · have : 1 / 2880 - x / 21600 + x ^ 2 / 518400 ≤ 1 / 2880 := by nlinarith
    nlinarith

theorem skew_sq_le (w : V3) (i j : Fin 3) : |(skew w * skew w) i j| ≤ sqNorm w := by
  have n0 := mul_self_nonneg (w 0)
  have n1 := mul_self_nonneg (w 1)
  have n2 := mul_self_nonneg (w 2)
  have h01 := mul_self_nonneg (w 0 - w 1)
  have h02 := mul_self_nonneg (w 0 - w 2)
  have h12 := mul_self_nonneg (w 1 - w 2)
  have g01 := mul_self_nonneg (w 0 + w 1)
  have g02 := mul_self_nonneg (w 0 + w 2)
  have g12 := mul_self_nonneg (w 1 + w 2)
  rw [abs_le, sqNorm_at]
  fin_cases i <;> fin_cases j <;> (simp only [Fin.zero_eta, Fin.mk_one, Fin.reduceFinMk]; comps; constructor <;> nlinarith)

/-- C48: for every vector, also below the threshold, the exponential is a rotation matrix up to
`1e-25` in every entry of `R Rᵀ` and in the determinant. -/
theorem C48_exp_bound (w : V3) :
    (∀ i j, |(SO3.exp w * (SO3.exp w).transpose - 1) i j| ≤ 1e-25) ∧
    |(SO3.exp w).det - 1| ≤ 1e-25 := by
  by_cases h : sqNorm w < 4e-6
  · rw [exp_taylor h, rodrigues_gram, rodrigues_det]
    have hn := sqNorm_nonneg w
    have hd : |defect (abcTaylor (sqNorm w)).1 (abcTaylor (sqNorm w)).2.1 w| * sqNorm w
        ≤ 1e-25 := by
      rcases hn.eq_or_lt with h0 | h0
      · rw [← h0]; norm_num
      · obtain ⟨h1, h2⟩ := defect_small h h0
        rw [abs_of_neg h1]
        have e : -defect (abcTaylor (sqNorm w)).1 (abcTaylor (sqNorm w)).2.1 w
            ≤ sqNorm w ^ 3 / 2880 := by linarith
        have e3 : sqNorm w ^ 3 ≤ 4e-6 ^ 3 := pow_le_pow_left₀ hn h.le 3
        calc _ ≤ sqNorm w ^ 3 / 2880 * sqNorm w := mul_le_mul_of_nonneg_right e hn
          _ ≤ (4e-6 ^ 3 / 2880) * 4e-6 := mul_le_mul (by linarith) h.le hn (by norm_num)
          _ ≤ 1e-25 := by norm_num
    refine ⟨fun i j => ?_, ?_⟩
    · rw [add_sub_cancel_left, Matrix.smul_apply, smul_eq_mul, abs_mul]
      exact le_trans (mul_le_mul_of_nonneg_left (skew_sq_le w i j) (abs_nonneg _)) hd
    · have e : 1 - defect (abcTaylor (sqNorm w)).1 (abcTaylor (sqNorm w)).2.1 w * sqNorm w - 1
          = -(defect (abcTaylor (sqNorm w)).1 (abcTaylor (sqNorm w)).2.1 w * sqNorm w) := by ring
      rw [e, abs_neg, abs_mul, abs_of_nonneg hn]
      exact hd
  · obtain ⟨⟨h1, h2⟩, -⟩ := C48_exp_partial w (not_lt.mp h)
    rw [h1, h2]
    exact ⟨fun i j => by simp; norm_num, by norm_num⟩

/-- The exponential statement of C48 over the real numbers. -/
def C48_exp_statement : Prop := ∀ w : V3, IsRot (SO3.exp w)

/-- C48: below the threshold the Taylor polynomials do not give a rotation matrix exactly. -/
theorem C48_taylor_violated (w : V3) (h : sqNorm w < 4e-6) (h0 : 0 < sqNorm w) :
    (SO3.exp w).det > 1 := by
  rw [exp_taylor h, rodrigues_det]
  have := (defect_small h h0).1
  nlinarith

theorem C48_exp_statement_false : ¬ C48_exp_statement := by
  intro h
  have hs : sqNorm ![1e-3, 0, 0] = 1e-6 := by
    rw [sqNorm_at, vec_0, vec_1, vec_2]; norm_num
  have h1 := C48_taylor_violated ![1e-3, 0, 0] (by rw [hs]; norm_num) (by rw [hs]; norm_num)
  have h2 := (h ![1e-3, 0, 0]).2
  linarith

/-! ### Groups and transforms -/

theorem isRot_one : IsRot (1 : M3) := ⟨by simp, by simp⟩

theorem isRot_mul {M N : M3} (hM : IsRot M) (hN : IsRot N) : IsRot (M * N) := by
  refine ⟨?_, by rw [det_mul, hM.2, hN.2, one_mul]⟩
  rw [transpose_mul, Matrix.mul_assoc, ← Matrix.mul_assoc N, hN.1, Matrix.one_mul, hM.1]

theorem isRot_T {M : M3} (hM : IsRot M) : IsRot M.transpose :=
  ⟨by rw [transpose_transpose]; exact (rot_rel hM).1, by rw [det_transpose, hM.2]⟩

/-- C48: rotations are a group under `times` with `inverse`; `rotp` and `rota` are inverse isometries. -/
theorem C48_so3 (x y : M3) (hx : IsRot x) (hy : IsRot y) :
    IsRot (SO3.times x y) ∧ IsRot (SO3.inverse x) ∧
    SO3.times (SO3.inverse x) x = 1 ∧ SO3.times x (SO3.inverse x) = 1 ∧
    (∀ v, SO3.rota x (SO3.rotp x v) = v ∧ SO3.rotp x (SO3.rota x v) = v) ∧
    (∀ v, SO3.rotp (SO3.times x y) v = SO3.rotp x (SO3.rotp y v)) ∧
    IsIsometry (SO3.rotp x) ∧ IsIsometry (SO3.rota x) := by
  have iso : ∀ {M : M3}, IsRot M → IsIsometry (fun v => M.mulVec v) := by
    intro M hM u v
    have e : M.mulVec u - M.mulVec v = M.mulVec (u - v) := (mulVec_sub _ _ _).symm
    rw [e]
    generalize u - v = d
    have r : ∀ i j, (M.transpose * M) i j = (1 : M3) i j := fun i j => by rw [(rot_rel hM).1]
    have c00 := r 0 0
    have c01 := r 0 1
    have c02 := r 0 2
    have c11 := r 1 1
    have c12 := r 1 2
    have c22 := r 2 2
    simp only [mul_at, transpose_apply, one_00, one_01, one_02, one_11, one_12, one_22]
      at c00 c01 c02 c11 c12 c22
    comps
    linear_combination d 0 * d 0 * c00 + d 1 * d 1 * c11 + d 2 * d 2 * c22
      + 2 * d 0 * d 1 * c01 + 2 * d 0 * d 2 * c02 + 2 * d 1 * d 2 * c12
  refine ⟨isRot_mul hx hy, isRot_T hx, (rot_rel hx).1, hx.1, fun v => ⟨?_, ?_⟩, fun v => ?_,
    iso hx, iso (isRot_T hx)⟩
  · unfold SO3.rota SO3.rotp
    rw [mulVec_mulVec, (rot_rel hx).1, one_mulVec]
  · unfold SO3.rota SO3.rotp
    rw [mulVec_mulVec, hx.1, one_mulVec]
  · unfold SO3.times SO3.rotp
    rw [mulVec_mulVec]

/-- C48: `SE3` is a group; `transformp` and `transforma` are mutually inverse isometries, a product
transforms like the two factors one after the other, and `matrix` is multiplicative. -/
theorem C48_se3 (x y z : SE3) (hx : IsRot x.r) (hy : IsRot y.r) :
    IsRot (x.mul y).r ∧ IsRot x.inverse.r ∧
    (x.mul y).mul z = x.mul (y.mul z) ∧ SE3.identity.mul x = x ∧ x.mul SE3.identity = x ∧
    x.mul x.inverse = SE3.identity ∧ x.inverse.mul x = SE3.identity ∧
    (∀ v, (x.mul y).transformp v = x.transformp (y.transformp v)) ∧
    (∀ v, (x.mul y).transforma v = y.transforma (x.transforma v)) ∧
    (∀ v, x.transforma (x.transformp v) = v ∧ x.transformp (x.transforma v) = v) ∧
    (∀ v, x.inverse.transformp v = x.transforma v) ∧
    IsIsometry x.transformp ∧ IsIsometry x.transforma ∧
    (x.mul y).matrix = x.matrix * y.matrix := by
  obtain ⟨-, -, -, -, hv, -, i1, i2⟩ := C48_so3 x.r y.r hx hy
  have hc := (rot_rel hx).1
  refine ⟨isRot_mul hx hy, isRot_T hx, ?_, ?_, ?_, ?_, ?_, ?_, ?_, ?_, ?_, ?_, ?_, ?_⟩
  · apply SE3.ext
    · simp only [SE3.mul, Matrix.mul_assoc]
    · simp only [SE3.mul, mulVec_add, mulVec_mulVec, add_assoc]
  · apply SE3.ext <;> simp [SE3.mul, SE3.identity]
  · apply SE3.ext <;> simp [SE3.mul, SE3.identity]
  · apply SE3.ext
    · exact hx.1
    · simp only [SE3.mul, SE3.inverse, SE3.identity, mulVec_neg, mulVec_mulVec, hx.1, one_mulVec,
        neg_add_cancel]
  · apply SE3.ext
    · exact hc
    · simp only [SE3.mul, SE3.inverse, SE3.identity, add_neg_cancel]
  · intro v
    simp only [SE3.mul, SE3.transformp, mulVec_add, mulVec_mulVec, add_assoc]
  · intro v
    simp only [SE3.mul, SE3.transforma, transpose_mul, ← mulVec_mulVec]
    congr 1
    rw [mulVec_sub, mulVec_add, ← sub_sub, mulVec_sub]
    have : x.r.transpose.mulVec (x.r.mulVec y.t) = y.t := (hv y.t).1
    rw [this]
    abel
  · intro v
    refine ⟨?_, ?_⟩
    · simp only [SE3.transforma, SE3.transformp, add_sub_cancel_right]
      exact (hv v).1
    · simp only [SE3.transforma, SE3.transformp]
      have : x.r.mulVec (x.r.transpose.mulVec (v - x.t)) = v - x.t := (hv _).2
      rw [this, sub_add_cancel]
  · intro v
    simp only [SE3.transforma, SE3.transformp, SE3.inverse, mulVec_sub, ← sub_eq_add_neg]
  · intro u v
    have e : x.transformp u - x.transformp v = SO3.rotp x.r u - SO3.rotp x.r v := by
      simp only [SE3.transformp, SO3.rotp, add_sub_add_right_eq_sub]
    rw [e]
    exact i1 u v
  · intro u v
    have := i2 (u - x.t) (v - x.t)
    rw [sub_sub_sub_cancel_right] at this
    exact this
  · unfold SE3.matrix SE3.mul
    rw [fromBlocks_multiply]
    congr 1
    · simp
    · ext i j
      simp [Matrix.mul_apply, mulVec, dotProduct]
    · simp
    · simp

/-- C48: the adjoint of `SE3` is a homomorphism into the 6×6 matrices. -/
theorem C48_Ad (x y : SE3) (hx : IsRot x.r) : (x.mul y).Ad = x.Ad * y.Ad := by
  unfold SE3.Ad SE3.mul
  rw [fromBlocks_multiply]
  congr 1
  · simp
  · simp
  · have hk := rot_skew hx y.t
    have e : skew (x.r.mulVec y.t + x.t) = skew (x.r.mulVec y.t) + skew x.t := by
      apply mat_ext <;> comps <;> ring
    rw [e, Matrix.add_mul, ← Matrix.mul_assoc, ← Matrix.mul_assoc, ← hk, Matrix.mul_assoc, add_comm]
  · simp

end Verif.Props.So3
