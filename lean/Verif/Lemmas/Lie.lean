import Verif.Model.Quat
import Verif.Spec.Lie
import Mathlib.Tactic.Ring
import Mathlib.Tactic.Linarith
import Mathlib.Tactic.LinearCombination

/-! Component-wise lemmas for the 3-vectors, 3×3 matrices and quaternions of the model. -/

namespace Verif.Lemmas.Lie

open Verif.Model.Lie Verif.Spec.Lie Matrix

theorem vec_ext {u v : V3} (h0 : u 0 = v 0) (h1 : u 1 = v 1) (h2 : u 2 = v 2) : u = v := by
  ext i; fin_cases i
  · exact h0
  · exact h1
  · exact h2

theorem mat_ext {M N : M3} (h00 : M 0 0 = N 0 0) (h01 : M 0 1 = N 0 1) (h02 : M 0 2 = N 0 2)
    (h10 : M 1 0 = N 1 0) (h11 : M 1 1 = N 1 1) (h12 : M 1 2 = N 1 2)
    (h20 : M 2 0 = N 2 0) (h21 : M 2 1 = N 2 1) (h22 : M 2 2 = N 2 2) : M = N := by
  ext i j; fin_cases i <;> fin_cases j
  · exact h00
  · exact h01
  · exact h02
  · exact h10
  · exact h11
  · exact h12
  · exact h20
  · exact h21
  · exact h22

theorem mulVec_at (M : M3) (v : V3) (i : Fin 3) :
    (M.mulVec v) i = M i 0 * v 0 + M i 1 * v 1 + M i 2 * v 2 := by
  simp only [mulVec, dotProduct, Fin.sum_univ_three]

theorem mul_at (M N : M3) (i j : Fin 3) :
    (M * N) i j = M i 0 * N 0 j + M i 1 * N 1 j + M i 2 * N 2 j := by
  simp only [Matrix.mul_apply, Fin.sum_univ_three]

theorem one_00 : (1 : M3) 0 0 = 1 := by simp
theorem one_01 : (1 : M3) 0 1 = 0 := by simp
theorem one_02 : (1 : M3) 0 2 = 0 := by simp
theorem one_10 : (1 : M3) 1 0 = 0 := by simp
theorem one_11 : (1 : M3) 1 1 = 1 := by simp
theorem one_12 : (1 : M3) 1 2 = 0 := by simp
theorem one_20 : (1 : M3) 2 0 = 0 := by simp
theorem one_21 : (1 : M3) 2 1 = 0 := by simp
theorem one_22 : (1 : M3) 2 2 = 1 := by simp

theorem vec_0 (a b c : ℝ) : (![a, b, c] : V3) 0 = a := rfl
theorem vec_1 (a b c : ℝ) : (![a, b, c] : V3) 1 = b := rfl
theorem vec_2 (a b c : ℝ) : (![a, b, c] : V3) 2 = c := rfl

section
variable (a b : V3) (q : Quat)
theorem cross_0 : cross a b 0 = a 1 * b 2 - a 2 * b 1 := rfl
theorem cross_1 : cross a b 1 = a 2 * b 0 - a 0 * b 2 := rfl
theorem cross_2 : cross a b 2 = a 0 * b 1 - a 1 * b 0 := rfl
theorem vprod_0 : vprod a b 0 = a 1 * b 2 - a 2 * b 1 := rfl
theorem vprod_1 : vprod a b 1 = a 2 * b 0 - a 0 * b 2 := rfl
theorem vprod_2 : vprod a b 2 = a 0 * b 1 - a 1 * b 0 := rfl
theorem inner_at : inner a b = a 0 * b 0 + a 1 * b 1 + a 2 * b 2 := by
  simp only [inner, Fin.sum_univ_three]
theorem bar_0 : q.bar 0 = q.x := rfl
theorem bar_1 : q.bar 1 = q.y := rfl
theorem bar_2 : q.bar 2 = q.z := rfl
theorem skew_00 : skew a 0 0 = 0 := rfl
theorem skew_01 : skew a 0 1 = -a 2 := rfl
theorem skew_02 : skew a 0 2 = a 1 := rfl
theorem skew_10 : skew a 1 0 = a 2 := rfl
theorem skew_11 : skew a 1 1 = 0 := rfl
theorem skew_12 : skew a 1 2 = -a 0 := rfl
theorem skew_20 : skew a 2 0 = -a 1 := rfl
theorem skew_21 : skew a 2 1 = a 0 := rfl
theorem skew_22 : skew a 2 2 = 0 := rfl
theorem R_00 : q.R 0 0 = 1 - 2 * (q.y * q.y) - 2 * (q.z * q.z) := rfl
theorem R_01 : q.R 0 1 = 2 * (q.x * q.y) + 2 * (q.w * q.z) := rfl
theorem R_02 : q.R 0 2 = 2 * (q.x * q.z) - 2 * (q.w * q.y) := rfl
theorem R_10 : q.R 1 0 = 2 * (q.x * q.y) - 2 * (q.w * q.z) := rfl
theorem R_11 : q.R 1 1 = 1 - 2 * (q.x * q.x) - 2 * (q.z * q.z) := rfl
theorem R_12 : q.R 1 2 = 2 * (q.y * q.z) + 2 * (q.w * q.x) := rfl
theorem R_20 : q.R 2 0 = 2 * (q.x * q.z) + 2 * (q.w * q.y) := rfl
theorem R_21 : q.R 2 1 = 2 * (q.y * q.z) - 2 * (q.w * q.x) := rfl
theorem R_22 : q.R 2 2 = 1 - 2 * (q.x * q.x) - 2 * (q.y * q.y) := rfl
end

/-- Rewrite a goal about components into real arithmetic. -/
macro "comps" : tactic => `(tactic| simp only [vec_0, vec_1, vec_2, mulVec_at, mul_at, one_00, one_01,
  one_02, one_10,  one_11, one_12, one_20, one_21, one_22, cross_0, cross_1, cross_2, vprod_0, vprod_1, vprod_2,
  inner_at, bar_0, bar_1, bar_2, skew_00, skew_01, skew_02, skew_10, skew_11, skew_12, skew_20,
  skew_21, skew_22, R_00, R_01, R_02, R_10, R_11, R_12, R_20, R_21, R_22, Pi.add_apply,
  Pi.sub_apply, Pi.smul_apply, Pi.neg_apply, Pi.zero_apply, Matrix.add_apply, Matrix.sub_apply,
  Matrix.smul_apply, Matrix.neg_apply, Matrix.transpose_apply, smul_eq_mul])

/-- The ten relations between the entries of a rotation matrix that the proofs below use: the
columns are orthonormal and every entry is its own cofactor. -/
theorem rot_rel {M : M3} (h : IsRot M) :
    M.transpose * M = 1 ∧ M.adjugate = M.transpose := by
  obtain ⟨h1, h2⟩ := h
  have hc : M.transpose * M = 1 := mul_eq_one_comm.mp h1
  refine ⟨hc, ?_⟩
  have ha : M.adjugate * M = 1 := by rw [adjugate_mul, h2, one_smul]
  calc M.adjugate = M.adjugate * (M * M.transpose) := by rw [h1, mul_one]
    _ = M.transpose := by rw [← Matrix.mul_assoc, ha, Matrix.one_mul]

end Verif.Lemmas.Lie
