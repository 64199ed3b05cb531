import Verif.Props.So3Log
import Mathlib.Analysis.Calculus.Deriv.Inv
import Mathlib.Analysis.SpecialFunctions.Sqrt
import Mathlib.Analysis.SpecialFunctions.Trigonometric.Deriv

/-! Derivatives along a line of the norm and of the coefficients of the exponentials. -/

namespace Verif.Lemmas.LieDeriv

open Verif.Model.Lie Verif.Lemmas.Lie Verif.Props.Quat Verif.Props.DQuat Verif.Props.So3 Matrix

/-- The point `w + t δ` of a line. -/
def line (w δ : V3) (t : ℝ) : V3 := w + t • δ

theorem line_zero (w δ : V3) : line w δ 0 = w := by simp [line]

theorem line_at (w δ : V3) (t : ℝ) (i : Fin 3) : line w δ t i = w i + t * δ i := rfl

theorem line_deriv (w δ : V3) (i : Fin 3) : HasDerivAt (fun t => line w δ t i) (δ i) 0 := by
  have h : HasDerivAt (fun t : ℝ => w i + t * δ i) (1 * δ i) 0 :=
    ((hasDerivAt_id (0 : ℝ)).mul_const (δ i)).const_add (w i)
  rw [one_mul] at h
  exact h

/-- A quadratic polynomial in `t` and its slope at zero. -/
theorem quad_deriv (A B C : ℝ) : HasDerivAt (fun t : ℝ => A + t * B + t * t * C) B 0 := by
  have h1 : HasDerivAt (fun t : ℝ => t * B) (1 * B) 0 := (hasDerivAt_id (0 : ℝ)).mul_const B
  have h2 : HasDerivAt (fun t : ℝ => t * t * C) ((1 * 0 + 0 * 1) * C) 0 :=
    ((hasDerivAt_id (0 : ℝ)).mul (hasDerivAt_id (0 : ℝ))).mul_const C
  have := (h1.const_add A).add h2
  refine this.congr_deriv ?_
  ring

theorem sqNorm_line (w δ : V3) (t : ℝ) :
    sqNorm (line w δ t) = sqNorm w + t * (2 * dot w δ) + t * t * sqNorm δ := by
  simp only [sqNorm, dot, line_at]; ring

theorem sqNorm_deriv (w δ : V3) :
    HasDerivAt (fun t => sqNorm (line w δ t)) (2 * dot w δ) 0 := by
  have := quad_deriv (sqNorm w) (2 * dot w δ) (sqNorm δ)
  exact this.congr_of_eventuallyEq (Filter.Eventually.of_forall fun t => sqNorm_line w δ t)

theorem vnorm_deriv (w δ : V3) (h : 0 < vnorm w) :
    HasDerivAt (fun t => vnorm (line w δ t)) (dot w δ / vnorm w) 0 := by
  have hs : sqNorm (line w δ 0) ≠ 0 := by
    rw [line_zero, sqNorm_eq]; positivity
  have := (sqNorm_deriv w δ).sqrt hs
  refine this.congr_deriv ?_
  rw [line_zero, sqrt_sqNorm]
  field_simp

/-- The coefficients `a`, `b`, `c` at a vector. -/
noncomputable def abc (w : V3) : ℝ × ℝ × ℝ := abcTrig (sqNorm w) (vnorm w)

section
variable {w : V3} (h : 0 < vnorm w)
include h

theorem abc_c : (abc w).2.2 * sqNorm w = 1 - (abc w).1 := by
  unfold abc abcTrig
  rw [sqNorm_eq]
  field_simp

theorem abc_b : (abc w).2.1 * sqNorm w = 1 - Real.cos (vnorm w) := by
  unfold abc abcTrig
  rw [sqNorm_eq]
  field_simp

theorem abc_a : (abc w).1 * vnorm w = Real.sin (vnorm w) := by
  unfold abc abcTrig
  field_simp

theorem abc_k : (abc w).1 * (abc w).1 + (abc w).2.1 * (abc w).2.1 * sqNorm w
    = 2 * (abc w).2.1 := by
  have := defect_trig h
  unfold defect at this
  unfold abc abcTrig
  dsimp only
  linarith

variable (δ : V3)

theorem a_deriv : HasDerivAt (fun t => (abc (line w δ t)).1)
    (dot w δ * ((abc w).2.2 - (abc w).2.1)) 0 := by
  have hn := vnorm_deriv w δ h
  have h0 : vnorm (line w δ 0) ≠ 0 := by rw [line_zero]; exact h.ne'
  have := hn.sin.div hn h0
  refine this.congr_deriv ?_
  rw [line_zero]
  unfold abc abcTrig
  rw [sqNorm_eq]
  field_simp
  ring

theorem b_deriv : HasDerivAt (fun t => (abc (line w δ t)).2.1)
    (dot w δ * (((abc w).1 - 2 * (abc w).2.1) / sqNorm w)) 0 := by
  have hn := vnorm_deriv w δ h
  have hs := sqNorm_deriv w δ
  have h0 : sqNorm (line w δ 0) ≠ 0 := by rw [line_zero, sqNorm_eq]; positivity
  have := (hn.cos.const_sub 1).div hs h0
  refine this.congr_deriv ?_
  rw [line_zero]
  unfold abc abcTrig
  rw [sqNorm_eq]
  field_simp

theorem c_deriv : HasDerivAt (fun t => (abc (line w δ t)).2.2)
    (dot w δ * (((abc w).2.1 - 3 * (abc w).2.2) / sqNorm w)) 0 := by
  have hs := sqNorm_deriv w δ
  have h0 : sqNorm (line w δ 0) ≠ 0 := by rw [line_zero, sqNorm_eq]; positivity
  have := ((a_deriv h δ).const_sub 1).div hs h0
  refine this.congr_deriv ?_
  have hc := abc_c h
  have hs0 : sqNorm w ≠ 0 := by rw [sqNorm_eq]; positivity
  rw [line_zero, ← hc]
  field_simp
  ring

omit h in
/-- Eventually along the line the vector is still longer than a bound. -/
theorem eventually_big {k : ℝ} (hk : k < sqNorm w) :
    ∀ᶠ t in nhds (0 : ℝ), k < sqNorm (line w δ t) := by
  have hc := (sqNorm_deriv w δ).continuousAt
  have : k < sqNorm (line w δ 0) := by rw [line_zero]; exact hk
  exact hc.eventually (lt_mem_nhds this)

omit h in
/-- Derivative of an entry of `1 + a W + b W²` along the line. -/
theorem rodrigues_deriv {f g : ℝ → ℝ} {f' g' : ℝ} (hf : HasDerivAt f f' 0) (hg : HasDerivAt g g' 0)
    (i j : Fin 3) : HasDerivAt (fun t => rodrigues (f t) (g t) (line w δ t) i j)
      ((f' • skew w + f 0 • skew δ + g' • (skew w * skew w)
        + g 0 • (skew w * skew δ + skew δ * skew w)) i j) 0 := by
  have e : ∀ t, rodrigues (f t) (g t) (line w δ t) i j
      = (1 : M3) i j + f t * (skew w i j + t * skew δ i j + t * t * 0)
        + g t * ((skew w * skew w) i j + t * ((skew w * skew δ + skew δ * skew w) i j)
          + t * t * (skew δ * skew δ) i j) := by
    intro t
    have hsk : skew (line w δ t) = skew w + t • skew δ := by
      apply mat_ext <;> simp only [Matrix.add_apply, Matrix.smul_apply, smul_eq_mul, skew_00, skew_01,
        skew_02, skew_10, skew_11, skew_12, skew_20, skew_21, skew_22, line_at] <;> ring
    unfold rodrigues
    rw [hsk]
    simp only [Matrix.add_apply, Matrix.smul_apply, smul_eq_mul, Matrix.mul_add, Matrix.add_mul,
      Matrix.smul_mul, Matrix.mul_smul, smul_add, smul_smul]
    ring
  have d := ((hf.mul (quad_deriv (skew w i j) (skew δ i j) 0)).const_add ((1 : M3) i j)).add
    (hg.mul (quad_deriv ((skew w * skew w) i j) ((skew w * skew δ + skew δ * skew w) i j)
      ((skew δ * skew δ) i j)))
  refine (d.congr_of_eventuallyEq (Filter.Eventually.of_forall e)).congr_deriv ?_
  simp only [Matrix.add_apply, Matrix.smul_apply, smul_eq_mul]
  ring

end

end Verif.Lemmas.LieDeriv
