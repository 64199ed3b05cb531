import Verif.Model.DQuat
import Verif.Props.QuatLog

/-!
C46, C47, C70: dual quaternions, adjoints and tangent conversions, exponential and logarithm.
-/

namespace Verif.Props.DQuat

open Verif.Model.Lie Verif.Spec.Lie Verif.Lemmas.Lie Verif.Props.Quat Matrix

/-- Unit dual quaternions: the real part is a unit quaternion and the two parts are orthogonal. -/
def UnitD (p : DQuat) : Prop :=
  UnitQ p.r ∧ p.r.w * p.d.w + p.r.x * p.d.x + p.r.y * p.d.y + p.r.z * p.d.z = 0

/-- A unit dual quaternion that both rotates and translates. -/
example : UnitD ⟨⟨3/5, 0, 4/5, 0⟩, ⟨4, 1, -3, 2⟩⟩ := by norm_num [UnitD, UnitQ]

theorem dext {p q : DQuat} (h1 : p.r = q.r) (h2 : p.d = q.d) : p = q := DQuat.ext h1 h2

/-- C46: unit dual quaternions form a group under `otimes`, with `identity` and `inverse`. -/
theorem C46_group (p q s : DQuat) (hp : UnitD p) (hq : UnitD q) :
    UnitD (p.otimes q) ∧ UnitD p.inverse ∧ UnitD DQuat.identity ∧
    (p.otimes q).otimes s = p.otimes (q.otimes s) ∧
    p.otimes DQuat.identity = p ∧ DQuat.identity.otimes p = p ∧
    p.otimes p.inverse = DQuat.identity ∧ p.inverse.otimes p = DQuat.identity := by
  obtain ⟨hp1, hp2⟩ := hp
  obtain ⟨hq1, hq2⟩ := hq
  obtain ⟨g1, g2, g3, -, g5, g6, g7, g8⟩ := C43_group p.r q.r s.r hp1 hq1
  refine ⟨⟨g1, ?_⟩, ⟨g2, ?_⟩, ⟨g3, ?_⟩, ?_, ?_, ?_, ?_, ?_⟩
  · simp only [UnitQ] at hp1 hq1
    simp only [DQuat.otimes, Quat.otimes, Quat.add]
    linear_combination hq2 + (q.r.w * q.d.w + q.r.x * q.d.x + q.r.y * q.d.y + q.r.z * q.d.z) * hp1
      + (q.r.w ^ 2 + q.r.x ^ 2 + q.r.y ^ 2 + q.r.z ^ 2) * hp2
  · simp only [DQuat.inverse, Quat.inverse]; linear_combination hp2
  · simp [DQuat.identity]
  · apply dext
    · exact (C43_group p.r q.r s.r hp1 hq1).2.2.2.1
    · ext <;> simp only [DQuat.otimes, Quat.otimes, Quat.add] <;> ring
  · apply dext
    · exact g5
    · ext <;> simp [DQuat.otimes, DQuat.identity, Quat.otimes, Quat.add, Quat.identity]
  · apply dext
    · exact g6
    · ext <;> simp [DQuat.otimes, DQuat.identity, Quat.otimes, Quat.add, Quat.identity]
  · apply dext
    · exact g7
    · ext <;> simp only [DQuat.otimes, DQuat.inverse, DQuat.identity, Quat.otimes, Quat.add,
        Quat.inverse]
      · linear_combination 2 * hp2
      all_goals ring
  · apply dext
    · exact g8
    · ext <;> simp only [DQuat.otimes, DQuat.inverse, DQuat.identity, Quat.otimes, Quat.add,
        Quat.inverse]
      · linear_combination 2 * hp2
      all_goals ring

theorem trans_0 (p : DQuat) : p.translation 0 = 2 * (p.d.w * -p.r.x + p.d.x * p.r.w
    + p.d.y * -p.r.z - p.d.z * -p.r.y) := rfl
theorem trans_1 (p : DQuat) : p.translation 1 = 2 * (p.d.w * -p.r.y - p.d.x * -p.r.z
    + p.d.y * p.r.w + p.d.z * -p.r.x) := rfl
theorem trans_2 (p : DQuat) : p.translation 2 = 2 * (p.d.w * -p.r.z + p.d.x * -p.r.y
    - p.d.y * -p.r.x + p.d.z * p.r.w) := rfl

/-- C46: `DQuat(q, t)` is a unit dual quaternion with rotation `q` and translation `t`, and every
unit dual quaternion is rebuilt from its rotation and translation (which is what logging stores). -/
theorem C46_translation (q : Quat) (t : V3) (p : DQuat) (hq : UnitQ q) (hp : UnitD p) :
    UnitD (DQuat.ofQT q t) ∧ (DQuat.ofQT q t).r = q ∧ (DQuat.ofQT q t).translation = t ∧
    DQuat.ofQT p.r p.translation = p ∧ DQuat.ofLog p.toLog = p := by
  have hrec : DQuat.ofQT p.r p.translation = p := by
    obtain ⟨hp1, hp2⟩ := hp
    simp only [UnitQ] at hp1
    apply dext
    · rfl
    · ext <;> simp only [DQuat.ofQT, Quat.smul, Quat.pure, Quat.otimes, trans_0, trans_1, trans_2]
      · linear_combination p.d.w * hp1 - p.r.w * hp2
      · linear_combination p.d.x * hp1 - p.r.x * hp2
      · linear_combination p.d.y * hp1 - p.r.y * hp2
      · linear_combination p.d.z * hp1 - p.r.z * hp2
  refine ⟨⟨hq, ?_⟩, rfl, ?_, hrec, hrec⟩
  · simp only [DQuat.ofQT, Quat.smul, Quat.pure, Quat.otimes]; ring
  · simp only [UnitQ] at hq
    apply vec_ext
    · rw [trans_0]
      simp only [DQuat.ofQT, Quat.smul, Quat.pure, Quat.otimes]
      linear_combination t 0 * hq
    · rw [trans_1]
      simp only [DQuat.ofQT, Quat.smul, Quat.pure, Quat.otimes]
      linear_combination t 1 * hq
    · rw [trans_2]
      simp only [DQuat.ofQT, Quat.smul, Quat.pure, Quat.otimes]
      linear_combination t 2 * hq

/-- C46: `transforma` and `transformp` of a unit dual quaternion are mutually inverse isometries,
`transforma` rotates and then translates. -/
theorem C46_transform (p : DQuat) (hp : UnitD p) :
    (∀ v, p.transforma (p.transformp v) = v) ∧ (∀ v, p.transformp (p.transforma v) = v) ∧
    IsIsometry p.transforma ∧ IsIsometry p.transformp ∧
    (∀ v, p.transforma v = p.r.R.transpose.mulVec v + p.translation) := by
  have hr := hp.1
  refine ⟨fun v => ?_, fun v => ?_, fun u v => ?_, fun u v => ?_, fun v => ?_⟩
  · rw [DQuat.transforma, DQuat.transformp, rota_rotp _ hr, sub_add_cancel]
  · rw [DQuat.transforma, DQuat.transformp, add_sub_cancel_right, rotp_rota _ hr]
  · rw [DQuat.transforma, DQuat.transforma, add_sub_add_right_eq_sub]
    exact (C43_rotation _ hr).2.2.2.2.2.2.2.2 u v
  · rw [DQuat.transformp, DQuat.transformp, (C43_rotation _ hr).2.2.2.2.2.2.2.1,
      sub_sub_sub_cancel_right]
  · rw [DQuat.transforma, rota_eq]

theorem trans_mul (p q : DQuat) (hp : UnitD p) (hq : UnitD q) :
    (p.otimes q).translation = p.r.rota q.translation + p.translation := by
  obtain ⟨hp1, hp2⟩ := hp
  obtain ⟨hq1, hq2⟩ := hq
  simp only [UnitQ] at hp1 hq1
  rw [rota_eq]
  apply vec_ext <;>
    simp only [trans_0, trans_1, trans_2, mulVec_at, transpose_apply, Pi.add_apply, R_00, R_01,
      R_02, R_10, R_11, R_12, R_20, R_21, R_22, DQuat.otimes, Quat.otimes, Quat.add]
  · linear_combination 2 * (p.d.w * -p.r.x + p.d.x * p.r.w + p.d.y * -p.r.z - p.d.z * -p.r.y) * hq1
      + 2 * (q.d.w * -q.r.x + q.d.x * q.r.w + q.d.y * -q.r.z - q.d.z * -q.r.y) * hp1
  · linear_combination 2 * (p.d.w * -p.r.y - p.d.x * -p.r.z + p.d.y * p.r.w + p.d.z * -p.r.x) * hq1
      + 2 * (q.d.w * -q.r.y - q.d.x * -q.r.z + q.d.y * q.r.w + q.d.z * -q.r.x) * hp1
  · linear_combination 2 * (p.d.w * -p.r.z + p.d.x * -p.r.y - p.d.y * -p.r.x + p.d.z * p.r.w) * hq1
      + 2 * (q.d.w * -q.r.z + q.d.x * -q.r.y - q.d.y * -q.r.x + q.d.z * q.r.w) * hp1

/-- C46: the transform of a product is the composition: `transforma` applies the right factor
first, `transformp` the left one. -/
theorem C46_compose (p q : DQuat) (hp : UnitD p) (hq : UnitD q) (v : V3) :
    (p.otimes q).transforma v = p.transforma (q.transforma v) ∧
    (p.otimes q).transformp v = q.transformp (p.transformp v) ∧
    p.inverse.transforma v = p.transformp v := by
  have ha : ∀ (p q : DQuat), UnitD p → UnitD q → ∀ v,
      (p.otimes q).transforma v = p.transforma (q.transforma v) := by
    intro p q hp hq v
    rw [DQuat.transforma, trans_mul p q hp hq, DQuat.transforma, DQuat.transforma, rota_add,
      add_assoc]
    congr 1
    exact (C43_R_mul p.r q.r hp.1 hq.1 v).2.2
  have gp := C46_group p q DQuat.identity hp hq
  refine ⟨ha p q hp hq v, ?_, ?_⟩
  · -- both sides are mapped to `v` by the injective `transforma` of the product
    have hpq := gp.1
    have e : (p.otimes q).transforma (q.transformp (p.transformp v)) = v := by
      rw [ha p q hp hq, (C46_transform q hq).1, (C46_transform p hp).1]
    rw [← e, (C46_transform _ hpq).2.1, e]
  · have hid : ∀ v, DQuat.identity.transforma v = v := by
      intro v
      have hz : DQuat.identity.translation = 0 := by
        apply vec_ext <;>
          simp [trans_0, trans_1, trans_2, DQuat.identity, Quat.identity]
      rw [DQuat.transforma, hz, add_zero, rota_eq]
      apply vec_ext <;> comps <;> simp [DQuat.identity, Quat.identity]
    have e : p.transforma (p.inverse.transforma v) = v := by
      rw [← ha p p.inverse hp gp.2.1, gp.2.2.2.2.2.2.1, hid]
    calc p.inverse.transforma v = p.transformp (p.transforma (p.inverse.transforma v)) :=
          ((C46_transform p hp).2.1 _).symm
      _ = p.transformp v := by rw [e]

/-- C46 for the constructor from eight numbers: the elements it is given are those that `real()` and
`dual()` return. -/
def C46_eight_statement : Prop := ∀ r d : Quat, (DQuat.eightArg r d).2 = ⟨r, d⟩

/-- C46: that constructor leaves `real()` and `dual()` at the identity quaternion, whatever it is
given; `arr_` has the given elements. -/
theorem C46_eight_violated (r d : Quat) :
    (DQuat.eightArg r d).1 = ⟨r, d⟩ ∧
    ((DQuat.eightArg r d).2 = ⟨r, d⟩ ↔ r = Quat.identity ∧ d = Quat.identity) := by
  refine ⟨rfl, ?_⟩
  rw [DQuat.eightArg, DQuat.mk.injEq]
  constructor
  · rintro ⟨h1, h2⟩; exact ⟨h1.symm, h2.symm⟩
  · rintro ⟨h1, h2⟩; exact ⟨h1.symm, h2.symm⟩

theorem C46_eight_statement_false : ¬ C46_eight_statement := by
  intro h
  have := ((C46_eight_violated ⟨0, 1, 0, 0⟩ ⟨0, 0, 0, 0⟩).2.mp (h _ _)).1
  simp [Quat.identity] at this

/-! ### C47 -/

theorem conj_R (p : Quat) : p.Ad = p.R.transpose := rfl

/-- C47: the adjoint of a product of unit quaternions is the product of the adjoints. -/
theorem C47_Ad_quat (p q : Quat) (hp : UnitQ p) (hq : UnitQ q) :
    (p.otimes q).Ad = p.Ad * q.Ad := by
  rw [conj_R, conj_R, conj_R, R_mul p q hp hq, transpose_mul]

/-- A rotation matrix carries vector products to vector products. -/
theorem rot_cross {M : M3} (h : IsRot M) (u v : V3) :
    M.mulVec (cross u v) = cross (M.mulVec u) (M.mulVec v) := by
  have a : ∀ i j, M.adjugate i j = M j i := fun i j => by
    rw [(rot_rel h).2, transpose_apply]
  rw [Matrix.adjugate_fin_three] at a
  have a00 : M 1 1 * M 2 2 - M 1 2 * M 2 1 = M 0 0 := a 0 0
  have a01 : -(M 0 1 * M 2 2) + M 0 2 * M 2 1 = M 1 0 := a 0 1
  have a02 : M 0 1 * M 1 2 - M 0 2 * M 1 1 = M 2 0 := a 0 2
  have a10 : -(M 1 0 * M 2 2) + M 1 2 * M 2 0 = M 0 1 := a 1 0
  have a11 : M 0 0 * M 2 2 - M 0 2 * M 2 0 = M 1 1 := a 1 1
  have a12 : -(M 0 0 * M 1 2) + M 0 2 * M 1 0 = M 2 1 := a 1 2
  have a20 : M 1 0 * M 2 1 - M 1 1 * M 2 0 = M 0 2 := a 2 0
  have a21 : -(M 0 0 * M 2 1) + M 0 1 * M 2 0 = M 1 2 := a 2 1
  have a22 : M 0 0 * M 1 1 - M 0 1 * M 1 0 = M 2 2 := a 2 2
  apply vec_ext <;> comps
  · linear_combination (-(u 1 * v 2 - u 2 * v 1)) * a00 - (u 2 * v 0 - u 0 * v 2) * a10
      - (u 0 * v 1 - u 1 * v 0) * a20
  · linear_combination (-(u 1 * v 2 - u 2 * v 1)) * a01 - (u 2 * v 0 - u 0 * v 2) * a11
      - (u 0 * v 1 - u 1 * v 0) * a21
  · linear_combination (-(u 1 * v 2 - u 2 * v 1)) * a02 - (u 2 * v 0 - u 0 * v 2) * a12
      - (u 0 * v 1 - u 1 * v 0) * a22

theorem skew_mulVec (u v : V3) : (skew u).mulVec v = cross u v := by
  apply vec_ext <;> comps <;> ring

theorem isRot_transpose {M : M3} (h : IsRot M) : IsRot M.transpose :=
  ⟨by rw [transpose_transpose]; exact (rot_rel h).1, by rw [det_transpose]; exact h.2⟩

/-- `M [u]× = [M u]× M` for a rotation matrix. -/
theorem rot_skew {M : M3} (h : IsRot M) (u : V3) : M * skew u = skew (M.mulVec u) * M := by
  have key : ∀ v, (M * skew u).mulVec v = (skew (M.mulVec u) * M).mulVec v := by
    intro v
    rw [← mulVec_mulVec, ← mulVec_mulVec, skew_mulVec, skew_mulVec, rot_cross h]
  exact Matrix.ext_of_mulVec_single fun i => key _

/-- C47: the adjoint of a product of unit dual quaternions is the product of the adjoints. -/
theorem C47_Ad_dquat (p q : DQuat) (hp : UnitD p) (hq : UnitD q) :
    (p.otimes q).Ad = p.Ad * q.Ad := by
  have hR : (p.otimes q).r.R.transpose = p.r.R.transpose * q.r.R.transpose := by
    rw [← transpose_mul]; congr 1; exact R_mul _ _ hp.1 hq.1
  have hs := rot_skew (isRot_transpose (R_isRot p.r hp.1)) q.translation
  have hadd : ∀ u v : V3, skew (u + v) = skew u + skew v := by
    intro u v
    apply mat_ext <;> comps <;> ring
  unfold DQuat.Ad
  rw [fromBlocks_multiply, hR, trans_mul p q hp hq, rota_eq, hadd]
  congr 1
  · simp
  · simp
  · rw [Matrix.add_mul, ← Matrix.mul_assoc, ← Matrix.mul_assoc, ← hs]
    simp only [Matrix.mul_assoc]
    rw [add_comm]
  · simp

/-- C47: `dGenDParam * dParamDGen` is the identity, for unit quaternions and for unit dual
quaternions. -/
theorem C47_tangent (q : Quat) (p : DQuat) (hq : UnitQ q) (hp : UnitD p) :
    q.dGenDParam * q.dParamDGen = 1 ∧ p.dGenDParam * p.dParamDGen = 1 := by
  have h1 : ∀ q : Quat, UnitQ q → q.dGenDParam * q.dParamDGen = 1 := by
    intro q hq
    simp only [UnitQ] at hq
    ext i j
    fin_cases i <;> fin_cases j <;>
      simp [Quat.dGenDParam, Quat.dParamDGen, Matrix.mul_apply, Fin.sum_univ_four] <;>
      first
      | linear_combination hq
      | ring
  refine ⟨h1 q hq, ?_⟩
  obtain ⟨hp1, hp2⟩ := hp
  unfold DQuat.dGenDParam DQuat.dParamDGen
  rw [fromBlocks_multiply, h1 _ hp1, ← fromBlocks_one]
  congr 1
  · rw [Matrix.zero_mul, add_zero]
  · rw [Matrix.mul_zero, Matrix.zero_mul, add_zero]
  · ext i j
    fin_cases i <;> fin_cases j <;>
      simp [Quat.dGenDParam, Quat.dParamDGen, Matrix.mul_apply, Fin.sum_univ_four] <;>
      first
      | linear_combination 2 * hp2
      | ring
  · rw [Matrix.mul_zero, zero_add]

/-- Conjugation of a quaternion by a unit quaternion: the vector part is turned by `rota`. -/
theorem conj_eq (q : Quat) (hq : UnitQ q) (c s : ℝ) (v : V3) :
    (q.otimes ⟨c, s * v 0, s * v 1, s * v 2⟩).otimes q.inverse
      = ⟨c, s * q.rota v 0, s * q.rota v 1, s * q.rota v 2⟩ := by
  simp only [UnitQ] at hq
  rw [rota_eq]
  ext <;> simp only [Quat.otimes, Quat.inverse, mulVec_at, transpose_apply, R_00, R_01, R_02, R_10,
    R_11, R_12, R_20, R_21, R_22]
  · linear_combination c * hq
  · linear_combination s * v 0 * hq
  · linear_combination s * v 1 * hq
  · linear_combination s * v 2 * hq

theorem vnorm_rota (q : Quat) (hq : UnitQ q) (v : V3) : vnorm (q.rota v) = vnorm v := by
  unfold vnorm sqNorm
  rw [dot_eq, dot_eq, dot_Ra q hq]

/-- The Taylor polynomial of `Quat::exp` below its threshold. -/
noncomputable def smallS (v : V3) : ℝ :=
  0.5 - vnorm v * vnorm v / 48 + vnorm v * vnorm v * (vnorm v * vnorm v) / 3840

/-- `exp` depends on the vector only through its norm and its direction. -/
theorem exp_form (v : V3) : ∃ C S : ℝ, ∀ u : V3, vnorm u = vnorm v →
    Quat.exp u = ⟨C, S * u 0, S * u 1, S * u 2⟩ := by
  by_cases h : vnorm v > 4e-6
  · refine ⟨Real.cos (vnorm v / 2), Real.sin (vnorm v / 2) / vnorm v, fun u hu => ?_⟩
    unfold Quat.exp
    simp only [hu, h, if_true]
  · have key : ∀ c s : ℝ, ∀ u : V3, vnorm u = vnorm v →
        Quat.normalize ⟨c, s * u 0, s * u 1, s * u 2⟩
          = ⟨c / Real.sqrt (c * c + s ^ 2 * (vnorm v * vnorm v)),
             s / Real.sqrt (c * c + s ^ 2 * (vnorm v * vnorm v)) * u 0,
             s / Real.sqrt (c * c + s ^ 2 * (vnorm v * vnorm v)) * u 1,
             s / Real.sqrt (c * c + s ^ 2 * (vnorm v * vnorm v)) * u 2⟩ := by
      intro c s u hu
      have hn : (Quat.mk c (s * u 0) (s * u 1) (s * u 2)).norm
          = Real.sqrt (c * c + s ^ 2 * (vnorm v * vnorm v)) := by
        unfold Quat.norm Quat.sqNorm
        congr 1
        rw [← hu, norm_sq]
        ring
      unfold Quat.normalize
      rw [hn]
      ext <;> dsimp only <;> ring
    have e : ∀ u : V3, vnorm u = vnorm v → Quat.exp u = Quat.normalize
        ⟨Real.cos (vnorm v / 2), smallS v * u 0, smallS v * u 1, smallS v * u 2⟩ := by
      intro u hu
      unfold Quat.exp smallS
      simp only [hu, h, if_false]
    exact ⟨_, _, fun u hu => (e u hu).trans (key _ _ u hu)⟩

/-- C47: conjugating an exponential is the exponential of the adjoint: `q exp(v) q⁻¹ = exp(Ad v)`,
for every vector, on both sides of the threshold. -/
theorem C47_Ad_exp_quat (q : Quat) (hq : UnitQ q) (v : V3) :
    (q.otimes (Quat.exp v)).otimes q.inverse = Quat.exp (q.Ad.mulVec v) := by
  obtain ⟨C, S, h⟩ := exp_form v
  rw [conj_R, ← rota_eq, h v rfl, h (q.rota v) (vnorm_rota q hq v), conj_eq q hq]

theorem conj_dual (q : Quat) (hq : UnitQ q) (t : V3) (c s e g : ℝ) (w v : V3) :
    (((DQuat.ofQT q t).otimes ⟨⟨c, s * w 0, s * w 1, s * w 2⟩,
      ⟨e, g * w 0 + s * v 0, g * w 1 + s * v 1, g * w 2 + s * v 2⟩⟩).otimes
      (DQuat.ofQT q t).inverse)
      = ⟨⟨c, s * q.rota w 0, s * q.rota w 1, s * q.rota w 2⟩,
         ⟨e, g * q.rota w 0 + s * (cross t (q.rota w) + q.rota v) 0,
          g * q.rota w 1 + s * (cross t (q.rota w) + q.rota v) 1,
          g * q.rota w 2 + s * (cross t (q.rota w) + q.rota v) 2⟩⟩ := by
  apply dext
  · exact conj_eq q hq c s w
  · simp only [UnitQ] at hq
    rw [rota_eq, rota_eq]
    ext <;> simp only [DQuat.otimes, DQuat.inverse, DQuat.ofQT, Quat.add, Quat.smul, Quat.pure,
      Quat.otimes, Quat.inverse, mulVec_at, transpose_apply, Pi.add_apply, cross_0, cross_1,
      cross_2, R_00, R_01, R_02, R_10, R_11, R_12, R_20, R_21, R_22]
    · linear_combination e * hq
    · linear_combination (g * w 0 + s * v 0 + s * (t 1 * w 2 - t 2 * w 1)) * hq
    · linear_combination (g * w 1 + s * v 1 + s * (t 2 * w 0 - t 0 * w 2)) * hq
    · linear_combination (g * w 2 + s * v 2 + s * (t 0 * w 1 - t 1 * w 0)) * hq

theorem apply_Ad (p : DQuat) (x : V6) : p.Ad.apply x
    = ⟨p.r.rota x.w, cross p.translation (p.r.rota x.w) + p.r.rota x.v⟩ := by
  unfold DQuat.Ad M6.apply
  simp only [toBlocks_fromBlocks₁₁, toBlocks_fromBlocks₁₂, toBlocks_fromBlocks₂₁,
    toBlocks_fromBlocks₂₂, zero_mulVec, add_zero, ← mulVec_mulVec, skew_mulVec, ← rota_eq]

/-- C47: the same for dual quaternions: `p exp(x) p⁻¹ = exp(Ad x)`. -/
theorem C47_Ad_exp_dquat (p : DQuat) (hp : UnitD p) (x : V6) :
    (p.otimes (DQuat.exp x)).otimes p.inverse = DQuat.exp (p.Ad.apply x) := by
  have hp' : DQuat.ofQT p.r p.translation = p := (C46_translation p.r 0 p hp.1 hp).2.2.2.1
  have hw : sqNorm (p.r.rota x.w) = sqNorm x.w := by
    unfold sqNorm; rw [dot_eq, dot_eq, dot_Ra _ hp.1]
  have hg : dot (p.r.rota x.w) (cross p.translation (p.r.rota x.w) + p.r.rota x.v)
      = dot x.w x.v := by
    have h1 : dot (p.r.rota x.w) (p.r.rota x.v) = dot x.w x.v := by
      rw [dot_eq, dot_eq, dot_Ra _ hp.1]
    rw [← h1]
    simp only [dot, Pi.add_apply, cross_0, cross_1, cross_2]
    ring
  rw [apply_Ad]
  have hc := conj_dual p.r hp.1 p.translation
  rw [hp'] at hc
  unfold DQuat.exp
  dsimp only
  rw [hw, hg, hc]

/-! ### C70: exponential and logarithm of dual quaternions -/

theorem sqrt_sqNorm (v : V3) : Real.sqrt (sqNorm v) = vnorm v := rfl

theorem sqNorm_eq (v : V3) : sqNorm v = vnorm v * vnorm v := by rw [norm_sq]; rfl

/-- The dual quaternion of `DQuat::exp` above its threshold. -/
theorem exp_big {x : V6} (h : 4e-6 < sqNorm x.w) : DQuat.exp x =
    ⟨⟨Real.cos (vnorm x.w / 2), Real.sin (vnorm x.w / 2) / vnorm x.w * x.w 0,
      Real.sin (vnorm x.w / 2) / vnorm x.w * x.w 1, Real.sin (vnorm x.w / 2) / vnorm x.w * x.w 2⟩,
     ⟨-dot x.w x.v / 2 * (Real.sin (vnorm x.w / 2) / vnorm x.w),
      dot x.w x.v * ((0.5 * Real.cos (vnorm x.w / 2) - Real.sin (vnorm x.w / 2) / vnorm x.w)
        / sqNorm x.w) * x.w 0 + Real.sin (vnorm x.w / 2) / vnorm x.w * x.v 0,
      dot x.w x.v * ((0.5 * Real.cos (vnorm x.w / 2) - Real.sin (vnorm x.w / 2) / vnorm x.w)
        / sqNorm x.w) * x.w 1 + Real.sin (vnorm x.w / 2) / vnorm x.w * x.v 1,
      dot x.w x.v * ((0.5 * Real.cos (vnorm x.w / 2) - Real.sin (vnorm x.w / 2) / vnorm x.w)
        / sqNorm x.w) * x.w 2 + Real.sin (vnorm x.w / 2) / vnorm x.w * x.v 2⟩⟩ := by
  unfold DQuat.exp DQuat.expCoeffs
  simp only [gt_iff_lt, h, if_true, sqrt_sqNorm]

/-- C70: above the threshold `exp` gives a unit dual quaternion, with the rotation of the
quaternion exponential. -/
theorem C70_exp_unit_partial (x : V6) (h : 4e-6 < sqNorm x.w) :
    UnitD (DQuat.exp x) ∧ (DQuat.exp x).r = Quat.exp x.w := by
  have hs := sqNorm_eq x.w
  have hn : 4e-6 < vnorm x.w := by
    have := Quat.norm_nonneg x.w
    by_contra hc
    rw [hs] at h
    nlinarith
  have h0 : 0 < vnorm x.w := lt_trans (by norm_num) hn
  have hr : (DQuat.exp x).r = Quat.exp x.w := by
    rw [exp_big h, exp_large hn]
    ext <;> simp only [half, Pi.smul_apply, smul_eq_mul] <;> ring
  refine ⟨⟨by rw [hr]; exact (C45_exp_unit x.w).1, ?_⟩, hr⟩
  have hsn : sqNorm x.w = x.w 0 * x.w 0 + x.w 1 * x.w 1 + x.w 2 * x.w 2 := rfl
  have hd : dot x.w x.v = x.w 0 * x.v 0 + x.w 1 * x.v 1 + x.w 2 * x.v 2 := rfl
  have hpos : 0 < sqNorm x.w := lt_trans (by norm_num) h
  rw [exp_big h]
  dsimp only
  generalize Real.sin (vnorm x.w / 2) / vnorm x.w = σ
  generalize Real.cos (vnorm x.w / 2) = c
  have e : dot x.w x.v * ((0.5 * c - σ) / sqNorm x.w) * sqNorm x.w = dot x.w x.v * (0.5 * c - σ) := by
    field_simp
  generalize dot x.w x.v * ((0.5 * c - σ) / sqNorm x.w) = g at *
  rw [hsn] at e
  rw [hd] at e ⊢
  linear_combination σ * e

theorem dot_lin (r d : V3) (α a β : ℝ) : dot (α • r) ((2 : ℝ) • (a • d + β • r))
    = 2 * α * (a * dot r d + β * sqNorm r) := by
  simp only [dot, sqNorm, Pi.smul_apply, Pi.add_apply, smul_eq_mul]
  ring

theorem dot_lin' (r d : V3) (α a β : ℝ) : dot (α • r) (β • r + a • d)
    = α * (a * dot r d + β * sqNorm r) := by
  simp only [dot, sqNorm, Pi.smul_apply, Pi.add_apply, smul_eq_mul]
  ring

/-- C70: `exp(log(p)) = p` for every unit dual quaternion whose logarithm and vector part are above
the two thresholds. -/
theorem C70_exp_log_partial (p : DQuat) (hp : UnitD p) (h : 1e-8 < sqNorm p.r.bar)
    (h2 : 4e-6 < sqNorm p.log.w) : DQuat.exp p.log = p := by
  obtain ⟨hr, hd⟩ := hp
  simp only [UnitQ] at hr
  have hn0 : 0 < vnorm p.r.bar := by
    have := Quat.norm_nonneg p.r.bar
    have e := sqNorm_eq p.r.bar
    by_contra hc
    have : vnorm p.r.bar = 0 := by linarith
    rw [e, this] at h
    norm_num at h
  have hsq := bar_norm_sq p.r
  have hu : vnorm p.r.bar * vnorm p.r.bar + p.r.w * p.r.w = 1 := by
    rw [hsq, ← hr]; ring
  obtain ⟨hc, hs, hpos, -⟩ := atan2_unit hu hn0
  have hlog : p.log = ⟨(2 * (atan2 (vnorm p.r.bar) p.r.w / vnorm p.r.bar)) • p.r.bar,
      (2 : ℝ) • ((atan2 (vnorm p.r.bar) p.r.w / vnorm p.r.bar) • p.d.bar
        + ((p.r.w - atan2 (vnorm p.r.bar) p.r.w / vnorm p.r.bar)
          * (dot p.r.bar p.d.bar / sqNorm p.r.bar) - p.d.w) • p.r.bar)⟩ := by
    unfold DQuat.log
    simp only [gt_iff_lt, h, if_true, sqrt_sqNorm]
  have hgm : dot p.r.bar p.d.bar = -(p.r.w * p.d.w) := by
    unfold dot
    rw [bar_0, bar_1, bar_2, bar_0, bar_1, bar_2]
    linarith
  have hwn : vnorm p.log.w = 2 * atan2 (vnorm p.r.bar) p.r.w := by
    rw [hlog]
    dsimp only
    rw [Quat.norm_smul _ (by positivity)]
    field_simp
  rw [exp_big h2, hwn, sqNorm_eq p.log.w, hwn]
  rw [mul_div_cancel_left₀ _ (two_ne_zero' ℝ), hc, hs]
  have hsn := sqNorm_eq p.r.bar
  generalize atan2 (vnorm p.r.bar) p.r.w = φ at *
  generalize vnorm p.r.bar = n at *
  have hdot : dot p.log.w p.log.v = -(4 * (φ / n) * p.d.w) := by
    rw [hlog, dot_lin, hgm, hsn]
    field_simp
    linear_combination (-4 * p.d.w * n) * hu
  rw [hdot, hlog, hgm, hsn]
  have key : -(4 * (φ / n) * p.d.w) * ((0.5 * p.r.w - n / (2 * φ)) / (2 * φ * (2 * φ)))
        * (2 * (φ / n)) + n / (2 * φ) * (2 * ((p.r.w - φ / n)
          * (-(p.r.w * p.d.w) / (n * n)) - p.d.w)) = 0 := by
    field_simp
    linear_combination (-4 * p.d.w * n) * hu
  have k1 : n / (2 * φ) * (2 * (φ / n)) = 1 := by field_simp
  apply dext
  · ext <;> simp only [Pi.smul_apply, smul_eq_mul, bar_0, bar_1, bar_2]
    · linear_combination p.r.x * k1
    · linear_combination p.r.y * k1
    · linear_combination p.r.z * k1
  · ext <;> simp only [Pi.smul_apply, Pi.add_apply, smul_eq_mul, bar_0, bar_1, bar_2]
    · linear_combination p.d.w * k1
    · linear_combination p.r.x * key + p.d.x * k1
    · linear_combination p.r.y * key + p.d.y * k1
    · linear_combination p.r.z * key + p.d.z * k1

/-- C70: `log(exp(x)) = x` below one full turn, above the two thresholds. -/
theorem C70_log_exp_partial (x : V6) (h : 4e-6 < sqNorm x.w) (h2 : vnorm x.w < 2 * Real.pi)
    (hs : 1e-8 < Real.sin (vnorm x.w / 2) ^ 2) : (DQuat.exp x).log = x := by
  have hn0 : 0 < vnorm x.w := by
    have := Quat.norm_nonneg x.w
    have e := sqNorm_eq x.w
    by_contra hc
    have : vnorm x.w = 0 := by linarith
    rw [e, this] at h
    norm_num at h
  have hsp : 0 < Real.sin (vnorm x.w / 2) := Real.sin_pos_of_pos_of_lt_pi (by linarith) (by linarith)
  have hsc := Real.sin_sq_add_cos_sq (vnorm x.w / 2)
  have hat : atan2 (Real.sin (vnorm x.w / 2)) (Real.cos (vnorm x.w / 2)) = vnorm x.w / 2 := by
    have := atan2_polar one_pos (θ := vnorm x.w / 2) (by linarith) (by linarith)
    rwa [one_mul, one_mul] at this
  have hbar : (DQuat.exp x).r.bar = (Real.sin (vnorm x.w / 2) / vnorm x.w) • x.w := by
    rw [exp_big h]
    apply vec_ext <;> simp only [bar_0, bar_1, bar_2, Pi.smul_apply, smul_eq_mul]
  have hdbar : (DQuat.exp x).d.bar = (dot x.w x.v * ((0.5 * Real.cos (vnorm x.w / 2)
      - Real.sin (vnorm x.w / 2) / vnorm x.w) / sqNorm x.w)) • x.w
      + (Real.sin (vnorm x.w / 2) / vnorm x.w) • x.v := by
    rw [exp_big h]
    apply vec_ext <;> simp only [bar_0, bar_1, bar_2, Pi.smul_apply, Pi.add_apply, smul_eq_mul]
  have hrw : (DQuat.exp x).r.w = Real.cos (vnorm x.w / 2) := by rw [exp_big h]
  have hdw : (DQuat.exp x).d.w = -dot x.w x.v / 2 * (Real.sin (vnorm x.w / 2) / vnorm x.w) := by
    rw [exp_big h]
  have hbn : vnorm (DQuat.exp x).r.bar = Real.sin (vnorm x.w / 2) := by
    rw [hbar, Quat.norm_smul _ (by positivity)]
    field_simp
  have hbs : sqNorm (DQuat.exp x).r.bar = Real.sin (vnorm x.w / 2) * Real.sin (vnorm x.w / 2) := by
    rw [sqNorm_eq, hbn]
  have hcond : sqNorm (DQuat.exp x).r.bar > 1e-8 := by rw [hbs, ← sq]; exact hs
  unfold DQuat.log
  simp only [hcond, if_true, sqrt_sqNorm]
  rw [hbn, hbs, hrw, hdw, hat, hbar, hdbar]
  have hsn := sqNorm_eq x.w
  have hdot : dot ((Real.sin (vnorm x.w / 2) / vnorm x.w) • x.w)
      ((dot x.w x.v * ((0.5 * Real.cos (vnorm x.w / 2)
      - Real.sin (vnorm x.w / 2) / vnorm x.w) / sqNorm x.w)) • x.w
      + (Real.sin (vnorm x.w / 2) / vnorm x.w) • x.v)
      = Real.sin (vnorm x.w / 2) / vnorm x.w * dot x.w x.v * Real.cos (vnorm x.w / 2) / 2 := by
    rw [dot_lin', hsn]
    field_simp
    ring
  rw [hdot, hsn]
  generalize Real.sin (vnorm x.w / 2) = S at *
  generalize Real.cos (vnorm x.w / 2) = C at *
  generalize vnorm x.w = n at *
  generalize dot x.w x.v = γ at *
  have k1 : 2 * (n / 2 / S) * (S / n) = 1 := by field_simp
  have key : 2 * (n / 2 / S * (γ * ((0.5 * C - S / n) / (n * n))) + ((C - n / 2 / S)
      * (S / n * γ * C / 2 / (S * S)) - -γ / 2 * (S / n)) * (S / n)) = 0 := by
    field_simp
    linear_combination (2 * γ * S) * hsc
  apply V6.ext
  · apply vec_ext <;> simp only [Pi.smul_apply, smul_eq_mul]
    · linear_combination x.w 0 * k1
    · linear_combination x.w 1 * k1
    · linear_combination x.w 2 * k1
  · apply vec_ext <;> simp only [Pi.smul_apply, Pi.add_apply, smul_eq_mul]
    · linear_combination x.w 0 * key + x.v 0 * k1
    · linear_combination x.w 1 * key + x.v 1 * k1
    · linear_combination x.w 2 * key + x.v 2 * k1

/-- The statement of C70 as one would want it: the logarithm of every unit dual quaternion is sent
back to it by the exponential, at least up to the sign of the whole (which does not change the
transform). -/
def C70_statement : Prop :=
  ∀ p : DQuat, UnitD p → ∀ v : V3, (DQuat.exp p.log).transforma v = p.transforma v

/-- C70: for the pure translation by `t` written with the real part `-1` the logarithm is that of
the translation by `-t`: the Taylor branch does not divide by the real part. -/
theorem C70_sign_violated (t : V3) :
    let p : DQuat := ⟨⟨-1, 0, 0, 0⟩, ⟨0, -t 0 / 2, -t 1 / 2, -t 2 / 2⟩⟩
    UnitD p ∧ p.transforma 0 = t ∧ p.log = ⟨0, -t⟩ ∧ (DQuat.exp p.log).transforma 0 = -t := by
  have hl : (DQuat.mk ⟨-1, 0, 0, 0⟩ ⟨0, -t 0 / 2, -t 1 / 2, -t 2 / 2⟩).log = ⟨0, -t⟩ := by
    have h0 : Quat.bar ⟨-1, 0, 0, 0⟩ = 0 := by
      apply vec_ext <;> rfl
    have h1 : sqNorm (0 : V3) = 0 := by simp [sqNorm, dot]
    unfold DQuat.log
    dsimp only
    rw [h0, h1, if_neg (by norm_num)]
    apply V6.ext
    · simp
    · apply vec_ext <;> simp only [Pi.smul_apply, Pi.add_apply, smul_eq_mul, bar_0, bar_1, bar_2,
        Pi.neg_apply, Pi.zero_apply] <;> ring
  have he : DQuat.exp ⟨0, -t⟩ = ⟨⟨1, 0, 0, 0⟩, ⟨0, -t 0 / 2, -t 1 / 2, -t 2 / 2⟩⟩ := by
    have h1 : sqNorm (0 : V3) = 0 := by simp [sqNorm, dot]
    have h2 : dot (0 : V3) (-t) = 0 := by simp [dot]
    unfold DQuat.exp DQuat.expCoeffs
    dsimp only
    rw [h1, h2, if_neg (by norm_num)]
    apply dext <;> ext <;> norm_num <;> ring
  refine ⟨⟨by norm_num [UnitQ], by norm_num⟩, ?_, hl, ?_⟩
  · unfold DQuat.transforma
    rw [rota_eq, mulVec_zero, zero_add]
    apply vec_ext <;> simp only [trans_0, trans_1, trans_2] <;> ring
  · rw [hl, he]
    unfold DQuat.transforma
    rw [rota_eq, mulVec_zero, zero_add]
    apply vec_ext <;> simp only [trans_0, trans_1, trans_2, Pi.neg_apply] <;> ring

theorem C70_statement_false : ¬ C70_statement := by
  intro h
  obtain ⟨h1, h2, -, h4⟩ := C70_sign_violated ![2, 0, 0]
  have := h _ h1 0
  rw [h2, h4] at this
  have := congrFun this 0
  norm_num at this

/-- Both hypotheses of the round trips hold for a quarter turn about the first axis with a
translation. -/
example : UnitD ⟨⟨3 / 5, 4 / 5, 0, 0⟩, ⟨-4, 3, 1, 2⟩⟩ ∧
    1e-8 < sqNorm (Quat.bar ⟨3 / 5, 4 / 5, 0, 0⟩) :=
  ⟨⟨by norm_num [UnitQ], by norm_num⟩, by
    unfold sqNorm dot
    rw [bar_0, bar_1, bar_2]
    norm_num⟩

end Verif.Props.DQuat
