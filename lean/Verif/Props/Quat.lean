import Verif.Model.Quat
import Verif.Spec.Lie
import Verif.Lemmas.Lie
import Mathlib.Tactic.Ring
import Mathlib.Tactic.Linarith
import Mathlib.Tactic.LinearCombination
import Mathlib.Tactic.FieldSimp
import Mathlib.Tactic.NormNum

/-!
C43, C44: quaternions as rotations, and the quaternion of a rotation matrix.
-/

namespace Verif.Props.Quat

open Verif.Model.Lie Verif.Spec.Lie Verif.Lemmas.Lie Matrix

/-- A quaternion of the model as an element of the quaternion algebra. -/
def toH (q : Quat) : Quaternion ℝ := hamilton q.w q.x q.y q.z

@[simp] theorem toH_re (q : Quat) : (toH q).re = q.w := rfl
@[simp] theorem toH_imI (q : Quat) : (toH q).imI = q.x := rfl
@[simp] theorem toH_imJ (q : Quat) : (toH q).imJ = q.y := rfl
@[simp] theorem toH_imK (q : Quat) : (toH q).imK = q.z := rfl

/-- Unit quaternions. -/
def UnitQ (q : Quat) : Prop := q.w ^ 2 + q.x ^ 2 + q.y ^ 2 + q.z ^ 2 = 1

/-- Unit quaternions are not a special case: this one has four different non-zero elements. -/
example : UnitQ ⟨1/10, 3/10, 3/10, 9/10⟩ := by norm_num [UnitQ]

/-- C43: `otimes` and `*=` are the product of the quaternion algebra, `inverse` is its conjugation
and `+`, `-` and the scalar product are its operations. -/
theorem C43_hamilton (p q : Quat) (s : ℝ) :
    toH (p.otimes q) = toH p * toH q ∧ p.mulAssign q = p.otimes q ∧
    toH p.inverse = star (toH p) ∧ toH (p.add q) = toH p + toH q ∧
    toH (p.sub q) = toH p - toH q ∧ toH (Quat.smul s q) = s • toH q ∧ toH Quat.identity = 1 := by
  refine ⟨?_, rfl, ?_, ?_, ?_, ?_, ?_⟩
  · apply Quaternion.ext <;> simp [Quat.otimes] <;> ring
  · apply Quaternion.ext <;> simp [Quat.inverse]
  · apply Quaternion.ext <;> simp [Quat.add]
  · apply Quaternion.ext <;> simp [Quat.sub]
  · apply Quaternion.ext <;> simp [Quat.smul]
  · apply Quaternion.ext <;> simp [Quat.identity] <;> rfl

/-- C43: the unit quaternions form a group under `otimes`, with `Identity` and `inverse`. -/
theorem C43_group (p q r : Quat) (hp : UnitQ p) (hq : UnitQ q) :
    UnitQ (p.otimes q) ∧ UnitQ p.inverse ∧ UnitQ Quat.identity ∧
    (p.otimes q).otimes r = p.otimes (q.otimes r) ∧
    p.otimes Quat.identity = p ∧ Quat.identity.otimes p = p ∧
    p.otimes p.inverse = Quat.identity ∧ p.inverse.otimes p = Quat.identity := by
  simp only [UnitQ] at hp hq
  refine ⟨?_, ?_, ?_, ?_, ?_, ?_, ?_, ?_⟩
  · simp only [UnitQ, Quat.otimes]
    linear_combination (q.w ^ 2 + q.x ^ 2 + q.y ^ 2 + q.z ^ 2) * hp + hq
  · simp only [UnitQ, Quat.inverse]; linear_combination hp
  · simp [UnitQ, Quat.identity]
  · ext <;> simp only [Quat.otimes] <;> ring
  · ext <;> simp [Quat.otimes, Quat.identity]
  · ext <;> simp [Quat.otimes, Quat.identity]
  · ext <;> simp only [Quat.otimes, Quat.identity, Quat.inverse]
    · linear_combination hp
    all_goals ring
  · ext <;> simp only [Quat.otimes, Quat.identity, Quat.inverse]
    · linear_combination hp
    all_goals ring

/-- `rotp` is multiplication by `R` and `rota` by its transpose, for every quaternion. -/
theorem rotp_eq (q : Quat) (v : V3) : q.rotp v = q.R.mulVec v := by
  apply vec_ext <;> simp only [Quat.rotp] <;> comps <;> ring

theorem rota_eq (q : Quat) (v : V3) : q.rota v = q.R.transpose.mulVec v := by
  apply vec_ext <;> simp only [Quat.rota] <;> comps <;> ring

theorem R_isRot (q : Quat) (hq : UnitQ q) : IsRot q.R := by
  simp only [UnitQ] at hq
  constructor
  · apply mat_ext <;> comps
    · linear_combination 4 * (q.y ^ 2 + q.z ^ 2) * hq
    · linear_combination (-4) * q.x * q.y * hq
    · linear_combination (-4) * q.x * q.z * hq
    · linear_combination (-4) * q.x * q.y * hq
    · linear_combination 4 * (q.x ^ 2 + q.z ^ 2) * hq
    · linear_combination (-4) * q.y * q.z * hq
    · linear_combination (-4) * q.x * q.z * hq
    · linear_combination (-4) * q.y * q.z * hq
    · linear_combination 4 * (q.x ^ 2 + q.y ^ 2) * hq
  · rw [Matrix.det_fin_three]
    comps
    linear_combination 4 * (q.x ^ 2 + q.y ^ 2 + q.z ^ 2) * hq

theorem R_mul (p q : Quat) (hp : UnitQ p) (hq : UnitQ q) : (p.otimes q).R = q.R * p.R := by
  simp only [UnitQ] at hp hq
  apply mat_ext <;> comps <;> simp only [Quat.otimes]
  · linear_combination (-2 * q.y ^ 2 - 2 * q.z ^ 2) * hp + (-2 * p.y ^ 2 - 2 * p.z ^ 2) * hq
  · linear_combination (2 * q.x * q.y + 2 * q.w * q.z) * hp + (2 * p.x * p.y + 2 * p.w * p.z) * hq
  · linear_combination (2 * q.x * q.z - 2 * q.w * q.y) * hp + (2 * p.x * p.z - 2 * p.w * p.y) * hq
  · linear_combination (2 * q.x * q.y - 2 * q.w * q.z) * hp + (2 * p.x * p.y - 2 * p.w * p.z) * hq
  · linear_combination (-2 * q.x ^ 2 - 2 * q.z ^ 2) * hp + (-2 * p.x ^ 2 - 2 * p.z ^ 2) * hq
  · linear_combination (2 * q.y * q.z + 2 * q.w * q.x) * hp + (2 * p.y * p.z + 2 * p.w * p.x) * hq
  · linear_combination (2 * q.x * q.z + 2 * q.w * q.y) * hp + (2 * p.x * p.z + 2 * p.w * p.y) * hq
  · linear_combination (2 * q.y * q.z - 2 * q.w * q.x) * hp + (2 * p.y * p.z - 2 * p.w * p.x) * hq
  · linear_combination (-2 * q.x ^ 2 - 2 * q.y ^ 2) * hp + (-2 * p.x ^ 2 - 2 * p.y ^ 2) * hq

theorem dot_R (q : Quat) (hq : UnitQ q) (u v : V3) : inner (q.rotp u) (q.rotp v) = inner u v := by
  have h := (rot_rel (R_isRot q hq)).1
  have e : ∀ i j, (q.R.transpose * q.R) i j = (1 : M3) i j := fun i j => by rw [h]
  rw [rotp_eq, rotp_eq]
  have e00 := e 0 0
  have e01 := e 0 1
  have e02 := e 0 2
  have e11 := e 1 1
  have e12 := e 1 2
  have e22 := e 2 2
  simp only [mul_at, transpose_apply, one_00, one_01, one_02, one_11, one_12, one_22] at *
  simp only [inner_at, mulVec_at]
  linear_combination u 0 * v 0 * e00 + (u 0 * v 1 + u 1 * v 0) * e01 +
    (u 0 * v 2 + u 2 * v 0) * e02 + u 1 * v 1 * e11 + (u 1 * v 2 + u 2 * v 1) * e12 +
    u 2 * v 2 * e22

theorem rotp_rota (q : Quat) (hq : UnitQ q) (v : V3) : q.rotp (q.rota v) = v := by
  rw [rotp_eq, rota_eq, mulVec_mulVec, (R_isRot q hq).1, one_mulVec]

theorem rota_rotp (q : Quat) (hq : UnitQ q) (v : V3) : q.rota (q.rotp v) = v := by
  rw [rotp_eq, rota_eq, mulVec_mulVec, (rot_rel (R_isRot q hq)).1, one_mulVec]

theorem rotp_lin (q : Quat) : IsLin q.rotp := by
  intro a b u v
  simp only [rotp_eq, mulVec_add, mulVec_smul]

theorem rota_lin (q : Quat) : IsLin q.rota := by
  intro a b u v
  simp only [rota_eq, mulVec_add, mulVec_smul]

theorem rotp_sub (q : Quat) (u v : V3) : q.rotp (u - v) = q.rotp u - q.rotp v := by
  simp only [rotp_eq, mulVec_sub]

theorem rota_sub (q : Quat) (u v : V3) : q.rota (u - v) = q.rota u - q.rota v := by
  simp only [rota_eq, mulVec_sub]

theorem rotp_add (q : Quat) (u v : V3) : q.rotp (u + v) = q.rotp u + q.rotp v := by
  simp only [rotp_eq, mulVec_add]

theorem rota_add (q : Quat) (u v : V3) : q.rota (u + v) = q.rota u + q.rota v := by
  simp only [rota_eq, mulVec_add]

theorem dot_Ra (q : Quat) (hq : UnitQ q) (u v : V3) : inner (q.rota u) (q.rota v) = inner u v := by
  rw [← dot_R q hq (q.rota u), rotp_rota q hq, rotp_rota q hq]

/-- C43: for a unit quaternion `R()` is a rotation matrix, `rotp` and `rota` multiply by it and by
its transpose, and they are mutually inverse linear isometries. -/
theorem C43_rotation (q : Quat) (hq : UnitQ q) :
    IsRot q.R ∧ (∀ v, q.rotp v = q.R.mulVec v) ∧ (∀ v, q.rota v = q.R.transpose.mulVec v) ∧
    (∀ v, q.rotp (q.rota v) = v) ∧ (∀ v, q.rota (q.rotp v) = v) ∧
    IsLin q.rotp ∧ IsLin q.rota ∧ IsIsometry q.rotp ∧ IsIsometry q.rota := by
  refine ⟨R_isRot q hq, rotp_eq q, rota_eq q, rotp_rota q hq, rota_rotp q hq, rotp_lin q,
    rota_lin q, ?_, ?_⟩
  · intro u v
    rw [← rotp_sub, dot_R q hq]
  · intro u v
    rw [← rota_sub, dot_Ra q hq]

/-- C43: `rota` is conjugation in the quaternion algebra: `q v q⁻¹` for the pure quaternion of `v`
(and `rotp` is `q⁻¹ v q`). -/
theorem C43_conjugation (q : Quat) (hq : UnitQ q) (v : V3) :
    toH (Quat.pure (q.rota v)) = toH q * toH (Quat.pure v) * star (toH q) ∧
    toH (Quat.pure (q.rotp v)) = star (toH q) * toH (Quat.pure v) * toH q := by
  simp only [UnitQ] at hq
  constructor
  · apply Quaternion.ext <;> simp [Quat.pure, rota_eq, mulVec_at, R_00, R_01, R_02, R_10, R_11, R_12,
        R_20, R_21, R_22]
    · ring
    · linear_combination (-v 0) * hq
    · linear_combination (-v 1) * hq
    · linear_combination (-v 2) * hq
  · apply Quaternion.ext <;> simp [Quat.pure, rotp_eq, mulVec_at, R_00, R_01, R_02, R_10, R_11, R_12,
        R_20, R_21, R_22]
    · ring
    · linear_combination (-v 0) * hq
    · linear_combination (-v 1) * hq
    · linear_combination (-v 2) * hq

/-- C43: `R` turns products into products of matrices in the opposite order, so that `rotp` of a
product applies the left factor first and `rota` the right factor first. -/
theorem C43_R_mul (p q : Quat) (hp : UnitQ p) (hq : UnitQ q) (v : V3) :
    (p.otimes q).R = q.R * p.R ∧ (p.otimes q).rotp v = q.rotp (p.rotp v) ∧
    (p.otimes q).rota v = p.rota (q.rota v) := by
  refine ⟨R_mul p q hp hq, ?_, ?_⟩
  · simp only [rotp_eq, R_mul p q hp hq, mulVec_mulVec]
  · simp only [rota_eq, R_mul p q hp hq, mulVec_mulVec, transpose_mul]

/-- The two factors of `C43_R_mul` can be different from each other and from the identity. -/
example : UnitQ ⟨1/10, 3/10, 3/10, 9/10⟩ ∧ UnitQ ⟨3/5, 0, -4/5, 0⟩ := by norm_num [UnitQ]

/-! ### C44 -/

/-- The entry-wise relations of a rotation matrix from which `from_R` is justified. -/
theorem rot_entries {M : M3} (h : IsRot M) :
    (M 1 2 - M 2 1) ^ 2 = (1 + M 0 0 + M 1 1 + M 2 2) * (1 + M 0 0 - M 1 1 - M 2 2) ∧
    (M 2 0 - M 0 2) ^ 2 = (1 + M 0 0 + M 1 1 + M 2 2) * (1 + M 1 1 - M 0 0 - M 2 2) ∧
    (M 0 1 - M 1 0) ^ 2 = (1 + M 0 0 + M 1 1 + M 2 2) * (1 + M 2 2 - M 0 0 - M 1 1) ∧
    (M 1 2 - M 2 1) * (M 2 0 - M 0 2) = (1 + M 0 0 + M 1 1 + M 2 2) * (M 0 1 + M 1 0) ∧
    (M 1 2 - M 2 1) * (M 0 1 - M 1 0) = (1 + M 0 0 + M 1 1 + M 2 2) * (M 0 2 + M 2 0) ∧
    (M 2 0 - M 0 2) * (M 0 1 - M 1 0) = (1 + M 0 0 + M 1 1 + M 2 2) * (M 1 2 + M 2 1) ∧
    (M 0 1 + M 1 0) ^ 2 = (1 + M 0 0 - M 1 1 - M 2 2) * (1 + M 1 1 - M 0 0 - M 2 2) ∧
    (M 0 2 + M 2 0) ^ 2 = (1 + M 0 0 - M 1 1 - M 2 2) * (1 + M 2 2 - M 0 0 - M 1 1) ∧
    (M 1 2 + M 2 1) ^ 2 = (1 + M 1 1 - M 0 0 - M 2 2) * (1 + M 2 2 - M 0 0 - M 1 1) ∧
    (M 0 1 + M 1 0) * (M 0 2 + M 2 0) = (1 + M 0 0 - M 1 1 - M 2 2) * (M 1 2 + M 2 1) ∧
    (M 0 1 + M 1 0) * (M 1 2 + M 2 1) = (1 + M 1 1 - M 0 0 - M 2 2) * (M 0 2 + M 2 0) ∧
    (M 0 2 + M 2 0) * (M 1 2 + M 2 1) = (1 + M 2 2 - M 0 0 - M 1 1) * (M 0 1 + M 1 0) ∧
    (M 1 2 - M 2 1) * (M 0 1 + M 1 0) = (1 + M 0 0 - M 1 1 - M 2 2) * (M 2 0 - M 0 2) ∧
    (M 1 2 - M 2 1) * (M 0 2 + M 2 0) = (1 + M 0 0 - M 1 1 - M 2 2) * (M 0 1 - M 1 0) ∧
    (M 2 0 - M 0 2) * (M 0 1 + M 1 0) = (1 + M 1 1 - M 0 0 - M 2 2) * (M 1 2 - M 2 1) ∧
    (M 2 0 - M 0 2) * (M 1 2 + M 2 1) = (1 + M 1 1 - M 0 0 - M 2 2) * (M 0 1 - M 1 0) ∧
    (M 0 1 - M 1 0) * (M 0 2 + M 2 0) = (1 + M 2 2 - M 0 0 - M 1 1) * (M 1 2 - M 2 1) ∧
    (M 0 1 - M 1 0) * (M 1 2 + M 2 1) = (1 + M 2 2 - M 0 0 - M 1 1) * (M 2 0 - M 0 2) := by
  obtain ⟨hc, ha⟩ := rot_rel h
  have r : ∀ i j, (M * M.transpose) i j = (1 : M3) i j := fun i j => by rw [h.1]
  have c : ∀ i j, (M.transpose * M) i j = (1 : M3) i j := fun i j => by rw [hc]
  have r00 := r 0 0
  have r01 := r 0 1
  have r02 := r 0 2
  have r11 := r 1 1
  have r12 := r 1 2
  have r22 := r 2 2
  have c00 := c 0 0
  have c01 := c 0 1
  have c02 := c 0 2
  have c11 := c 1 1
  have c12 := c 1 2
  have c22 := c 2 2
  have a : ∀ i j, M.adjugate i j = M j i := fun i j => by rw [ha, transpose_apply]
  rw [Matrix.adjugate_fin_three] at a
  have a00 : M 1 1 * M 2 2 - M 1 2 * M 2 1 = M 0 0 := a 0 0
  have a01 : -(M 0 1 * M 2 2) + M 0 2 * M 2 1 = M 1 0 := a 0 1
  have a02 : M 0 1 * M 1 2 - M 0 2 * M 1 1 = M 2 0 := a 0 2
  have a10 : -(M 1 0 * M 2 2) + M 1 2 * M 2 0 = M 0 1 := a 1 0
  have a11 : M 0 0 * M 2 2 - M 0 2 * M 2 0 = M 1 1 := a 1 1
  have a12 : -(M 0 0 * M 1 2) + M 0 2 * M 1 0 = M 2 1 := a 1 2
  have a20 : M 1 0 * M 2 1 - M 1 1 * M 2 0 = M 0 2 := a 2 0
  have a21 : -(M 0 0 * M 2 1) + M 0 1 * M 2 0 = M 1 2 := a 2 1
  have a22 : M 0 0 * M 1 1 - M 0 1 * M 1 0 = M 2 2 := a 2 2
  clear a r c hc ha h
  simp only [mul_at, transpose_apply, one_00, one_01, one_02, one_11, one_12, one_22] at *
  generalize M 0 0 = m00 at *
  generalize M 0 1 = m01 at *
  generalize M 0 2 = m02 at *
  generalize M 1 0 = m10 at *
  generalize M 1 1 = m11 at *
  generalize M 1 2 = m12 at *
  generalize M 2 0 = m20 at *
  generalize M 2 1 = m21 at *
  generalize M 2 2 = m22 at *
  refine ⟨?_, ?_, ?_, ?_, ?_, ?_, ?_, ?_, ?_, ?_, ?_, ?_, ?_, ?_, ?_, ?_, ?_, ?_⟩
  · linear_combination r11 + r22 - c00 + 2 * a00
  · linear_combination 1 * r00 + (-1) * c11 + 1 * r22 + 2 * a11
  · linear_combination 1 * c00 + 1 * c11 + (-1) * r22 + 2 * a22
  · linear_combination (-1) * r01 + (-1) * c01 + 1 * a01 + 1 * a10
  · linear_combination (-1) * r02 + (-1) * c02 + 1 * a02 + 1 * a20
  · linear_combination (-1) * r12 + (-1) * c12 + 1 * a12 + 1 * a21
  · linear_combination 1 * c00 + 1 * c11 + (-1) * r22 + (-2) * a22
  · linear_combination 1 * r00 + (-1) * c11 + 1 * r22 + (-2) * a11
  · linear_combination (-1) * c00 + 1 * r11 + 1 * r22 + (-2) * a00
  · linear_combination 1 * r12 + 1 * c12 + 1 * a12 + 1 * a21
  · linear_combination 1 * r02 + 1 * c02 + 1 * a02 + 1 * a20
  · linear_combination 1 * r01 + 1 * c01 + 1 * a01 + 1 * a10
  · linear_combination (-1) * r02 + 1 * c02 + 1 * a02 + (-1) * a20
  · linear_combination 1 * r01 + (-1) * c01 + (-1) * a01 + 1 * a10
  · linear_combination 1 * r12 + (-1) * c12 + (-1) * a12 + 1 * a21
  · linear_combination (-1) * r01 + 1 * c01 + (-1) * a01 + 1 * a10
  · linear_combination (-1) * r12 + 1 * c12 + (-1) * a12 + 1 * a21
  · linear_combination 1 * r02 + (-1) * c02 + 1 * a02 + (-1) * a20

/-- A quaternion is determined by the products of its elements, which are linear in the matrix. -/
theorem of_products {M : M3} {q : Quat}
    (ww : 4 * (q.w * q.w) = 1 + M 0 0 + M 1 1 + M 2 2)
    (xx : 4 * (q.x * q.x) = 1 + M 0 0 - M 1 1 - M 2 2)
    (yy : 4 * (q.y * q.y) = 1 + M 1 1 - M 0 0 - M 2 2)
    (zz : 4 * (q.z * q.z) = 1 + M 2 2 - M 0 0 - M 1 1)
    (wx : 4 * (q.w * q.x) = M 1 2 - M 2 1) (wy : 4 * (q.w * q.y) = M 2 0 - M 0 2)
    (wz : 4 * (q.w * q.z) = M 0 1 - M 1 0) (xy : 4 * (q.x * q.y) = M 0 1 + M 1 0)
    (xz : 4 * (q.x * q.z) = M 0 2 + M 2 0) (yz : 4 * (q.y * q.z) = M 1 2 + M 2 1) :
    UnitQ q ∧ q.R = M := by
  constructor
  · simp only [UnitQ]
    linear_combination (ww + xx + yy + zz) / 4
  · apply mat_ext <;> comps
    · linear_combination (-yy - zz) / 2
    · linear_combination (xy + wz) / 2
    · linear_combination (xz - wy) / 2
    · linear_combination (xy - wz) / 2
    · linear_combination (-xx - zz) / 2
    · linear_combination (yz + wx) / 2
    · linear_combination (xz + wy) / 2
    · linear_combination (yz - wx) / 2
    · linear_combination (-xx - yy) / 2

theorem quot {D S u v r : ℝ} (hD : 0 < D) (hS : S * S = 4 * D) (h : u * v = D * r) :
    4 * (u / S * (v / S)) = r := by
  have hS0 : S ≠ 0 := by rintro rfl; linarith
  rw [div_mul_div_comm, hS, h]
  field_simp

theorem quot' {S u : ℝ} (hS0 : S ≠ 0) : 4 * (0.25 * S * (u / S)) = u := by
  field_simp; ring

theorem quot'' {S u : ℝ} (hS0 : S ≠ 0) : 4 * (u / S * (0.25 * S)) = u := by
  field_simp; ring

theorem quotS {S D : ℝ} (hS : S * S = 4 * D) : 4 * (0.25 * S * (0.25 * S)) = D := by
  linear_combination hS / 4

theorem sqrtS {D : ℝ} (hD : 0 < D) : Real.sqrt D * 2 * (Real.sqrt D * 2) = 4 * D ∧
    Real.sqrt D * 2 ≠ 0 := by
  have h := Real.mul_self_sqrt hD.le
  refine ⟨by linear_combination 4 * h, ?_⟩
  have := Real.sqrt_pos.mpr hD
  positivity

theorem rot_trace {M : M3} (h : IsRot M) : -1 ≤ M 0 0 + M 1 1 + M 2 2 := by
  obtain ⟨ha, hb, hc, -⟩ := rot_entries h
  have r : ∀ i j, (M * M.transpose) i j = (1 : M3) i j := fun i j => by rw [h.1]
  have r00 := r 0 0
  have r11 := r 1 1
  have r22 := r 2 2
  simp only [mul_at, transpose_apply, one_00, one_11, one_22] at r00 r11 r22
  by_contra hlt
  have hs : (1 + M 0 0 + M 1 1 + M 2 2) * (3 - (M 0 0 + M 1 1 + M 2 2)) =
      (M 1 2 - M 2 1) ^ 2 + (M 2 0 - M 0 2) ^ 2 + (M 0 1 - M 1 0) ^ 2 := by
    linear_combination -ha - hb - hc
  have hneg : (1 + M 0 0 + M 1 1 + M 2 2) * (3 - (M 0 0 + M 1 1 + M 2 2)) < 0 :=
    mul_neg_of_neg_of_pos (by linarith) (by linarith)
  nlinarith [sq_nonneg (M 1 2 - M 2 1), sq_nonneg (M 2 0 - M 0 2), sq_nonneg (M 0 1 - M 1 0)]

theorem fromR_spec {M : M3} (h : IsRot M) : UnitQ (Quat.fromR M) ∧ (Quat.fromR M).R = M := by
  obtain ⟨aa, bb, cc, ab, ac, bc, dd, ee, ff, de, df, ef, ad, ae, bd, bf, ce, cf⟩ := rot_entries h
  have htr := rot_trace h
  unfold Quat.fromR
  dsimp only
  split_ifs with h1 h2 h3
  · have hD : 0 < M 0 0 + M 1 1 + M 2 2 + 1 := by linarith
    obtain ⟨hS, hS0⟩ := sqrtS hD
    generalize Real.sqrt (M 0 0 + M 1 1 + M 2 2 + 1) * 2 = S at *
    apply of_products <;> dsimp only
    · rw [quotS hS]; ring
    · exact quot hD hS (by linear_combination aa)
    · exact quot hD hS (by linear_combination bb)
    · exact quot hD hS (by linear_combination cc)
    · exact quot' hS0
    · exact quot' hS0
    · exact quot' hS0
    · exact quot hD hS (by linear_combination ab)
    · exact quot hD hS (by linear_combination ac)
    · exact quot hD hS (by linear_combination bc)
  · have hD : 0 < 1 + M 0 0 - M 1 1 - M 2 2 := by linarith [h2.1, h2.2]
    obtain ⟨hS, hS0⟩ := sqrtS hD
    generalize Real.sqrt (1 + M 0 0 - M 1 1 - M 2 2) * 2 = S at *
    apply of_products <;> dsimp only
    · exact quot hD hS (by linear_combination aa)
    · rw [quotS hS]
    · exact quot hD hS (by linear_combination dd)
    · exact quot hD hS (by linear_combination ee)
    · exact quot'' hS0
    · exact quot hD hS (by linear_combination ad)
    · exact quot hD hS (by linear_combination ae)
    · rw [quot' hS0]; ring
    · rw [quot' hS0]; ring
    · exact quot hD hS (by linear_combination de)
  · have hD : 0 < 1 + M 1 1 - M 0 0 - M 2 2 := by
      have : M 0 0 ≤ M 1 1 := by
        by_contra hc
        exact h2 ⟨by linarith, by linarith⟩
      linarith
    obtain ⟨hS, hS0⟩ := sqrtS hD
    generalize Real.sqrt (1 + M 1 1 - M 0 0 - M 2 2) * 2 = S at *
    apply of_products <;> dsimp only
    · exact quot hD hS (by linear_combination bb)
    · exact quot hD hS (by linear_combination dd)
    · rw [quotS hS]
    · exact quot hD hS (by linear_combination ff)
    · exact quot hD hS (by linear_combination bd)
    · exact quot'' hS0
    · exact quot hD hS (by linear_combination bf)
    · rw [quot'' hS0]; ring
    · exact quot hD hS (by linear_combination df)
    · rw [quot' hS0]; ring
  · have hD : 0 < 1 + M 2 2 - M 0 0 - M 1 1 := by
      have : M 0 0 ≤ M 2 2 := by
        by_contra hc
        exact h2 ⟨by linarith, by linarith⟩
      linarith
    obtain ⟨hS, hS0⟩ := sqrtS hD
    generalize Real.sqrt (1 + M 2 2 - M 0 0 - M 1 1) * 2 = S at *
    apply of_products <;> dsimp only
    · exact quot hD hS (by linear_combination cc)
    · exact quot hD hS (by linear_combination ee)
    · exact quot hD hS (by linear_combination ff)
    · rw [quotS hS]
    · exact quot hD hS (by linear_combination ce)
    · exact quot hD hS (by linear_combination cf)
    · exact quot'' hS0
    · exact quot hD hS (by linear_combination ef)
    · rw [quot'' hS0]; ring
    · rw [quot'' hS0]; ring

theorem sq_eq_one_or {t : ℝ} (h : t ^ 2 = 1) : t = 1 ∨ t = -1 := by
  have : (t - 1) * (t + 1) = 0 := by linear_combination h
  rcases mul_eq_zero.mp this with h | h
  · left; linarith
  · right; linarith

/-- Two unit quaternions with the same rotation matrix are equal up to sign. -/
theorem R_inj {p q : Quat} (hp : UnitQ p) (hq : UnitQ q) (h : p.R = q.R) :
    p = q ∨ p = Quat.smul (-1) q := by
  have e : ∀ i j, p.R i j = q.R i j := fun i j => by rw [h]
  have e00 := e 0 0
  have e01 := e 0 1
  have e02 := e 0 2
  have e10 := e 1 0
  have e11 := e 1 1
  have e12 := e 1 2
  have e20 := e 2 0
  have e21 := e 2 1
  have e22 := e 2 2
  simp only [UnitQ] at hp hq
  simp only [R_00, R_01, R_02, R_10, R_11, R_12, R_20, R_21, R_22] at *
  obtain ⟨a, b, c, d⟩ := p
  obtain ⟨w, x, y, z⟩ := q
  dsimp only at *
  -- `t = p · q` has square one, and `p = t q`
  have aa : a * a = w * w := by linear_combination hp - hq + (e00 + e11 + e22) / 4
  have bb : b * b = x * x := by linear_combination (e00 - e11 - e22) / 4
  have cc : c * c = y * y := by linear_combination (e11 - e00 - e22) / 4
  have dd : d * d = z * z := by linear_combination (e22 - e00 - e11) / 4
  have ab : a * b = w * x := by linear_combination (e12 - e21) / 4
  have ac : a * c = w * y := by linear_combination (e20 - e02) / 4
  have ad : a * d = w * z := by linear_combination (e01 - e10) / 4
  have bc : b * c = x * y := by linear_combination (e01 + e10) / 4
  have bd : b * d = x * z := by linear_combination (e02 + e20) / 4
  have cd : c * d = y * z := by linear_combination (e12 + e21) / 4
  have ta : (a * w + b * x + c * y + d * z) * w = a := by
    linear_combination a * hp - a * aa - b * ab - c * ac - d * ad
  have tb : (a * w + b * x + c * y + d * z) * x = b := by
    linear_combination b * hp - a * ab - b * bb - c * bc - d * bd
  have tc : (a * w + b * x + c * y + d * z) * y = c := by
    linear_combination c * hp - a * ac - b * bc - c * cc - d * cd
  have td : (a * w + b * x + c * y + d * z) * z = d := by
    linear_combination d * hp - a * ad - b * bd - c * cd - d * dd
  have ht : (a * w + b * x + c * y + d * z) ^ 2 = 1 := by
    linear_combination a * ta + b * tb + c * tc + d * td + hp
  rcases (sq_eq_one_or ht) with h1 | h1
  · left
    rw [h1, one_mul] at ta tb tc td
    rw [ta, tb, tc, td]
  · right
    rw [h1] at ta tb tc td
    simp only [Quat.smul, ta, tb, tc, td]

/-- C44: `R(from_R(M)) = M` for every rotation matrix `M`, in each of the four branches, and
`from_R(M)` is a unit quaternion. -/
theorem C44_R_fromR (M : M3) (h : IsRot M) : UnitQ (Quat.fromR M) ∧ (Quat.fromR M).R = M :=
  fromR_spec h

/-- C44: `from_R(R(q))` is `q` or `-q` for every unit quaternion `q`. -/
theorem C44_fromR_R (q : Quat) (hq : UnitQ q) :
    Quat.fromR q.R = q ∨ Quat.fromR q.R = Quat.smul (-1) q :=
  R_inj (fromR_spec (R_isRot q hq)).1 hq (fromR_spec (R_isRot q hq)).2

/-- Every branch of `from_R` is reached by a rotation matrix: the trace is positive for the
identity, and negative for the half turns about the three axes. -/
example : IsRot (Quat.identity.R) ∧ IsRot (Quat.R ⟨0, 1, 0, 0⟩) ∧ IsRot (Quat.R ⟨0, 0, 1, 0⟩) ∧
    IsRot (Quat.R ⟨0, 0, 0, 1⟩) := by
  refine ⟨R_isRot _ ?_, R_isRot _ ?_, R_isRot _ ?_, R_isRot _ ?_⟩ <;>
    norm_num [UnitQ, Quat.identity]

end Verif.Props.Quat
