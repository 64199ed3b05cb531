import Mathlib.Analysis.SpecialFunctions.Trigonometric.Deriv
import Mathlib.Analysis.Calculus.Deriv.MeanValue
import Mathlib.Analysis.SpecialFunctions.Trigonometric.Bounds
import Mathlib.Tactic.LinearCombination
import Mathlib.Tactic.Positivity
/-!
# The alternating series of sine and cosine bound them from both sides
-/
namespace Verif.Lemmas.TrigSeries

open Real

/-- A function that grows more slowly stays below. -/
theorem le_of_deriv {f g f' g' : ℝ → ℝ} (hf : ∀ x, HasDerivAt f (f' x) x) (hg : ∀ x, HasDerivAt g (g' x) x)
    (h0 : f 0 = g 0) (h : ∀ x, 0 ≤ x → f' x ≤ g' x) {x : ℝ} (hx : 0 ≤ x) : f x ≤ g x := by
  have hd : ∀ x, HasDerivAt (fun x => g x - f x) (g' x - f' x) x := fun x => (hg x).sub (hf x)
  have hm : MonotoneOn (fun x => g x - f x) (Set.Ici 0) := by
    refine monotoneOn_of_deriv_nonneg (convex_Ici 0) (fun x _ => (hd x).continuousAt.continuousWithinAt)
      (fun x _ => (hd x).differentiableAt.differentiableWithinAt) fun x hx => ?_
    rw [(hd x).deriv]
    rw [interior_Ici] at hx
    linarith [h x hx.le]
  have := hm (Set.mem_Ici.2 le_rfl) (Set.mem_Ici.2 hx) hx
  simp only [h0] at this
  linarith

theorem pow_deriv (n : ℕ) (c x : ℝ) : HasDerivAt (fun x : ℝ => x ^ (n + 1) / c) ((n + 1 : ℕ) * x ^ n / c) x := by
  have := (hasDerivAt_pow (n + 1) x).div_const c
  simpa using this

theorem s1 {x : ℝ} (hx : 0 ≤ x) : sin x ≤ x := sin_le hx

/-- One step from a bound of the sine to one of the cosine. -/
theorem cos_ge {P Q : ℝ → ℝ} (hP : ∀ x, HasDerivAt P (-Q x) x) (h0 : P 0 = 1) (h : ∀ x, 0 ≤ x → sin x ≤ Q x) {x : ℝ}
    (hx : 0 ≤ x) : P x ≤ cos x :=
  le_of_deriv hP hasDerivAt_cos (by rw [h0, cos_zero]) (fun y hy => by linarith [h y hy]) hx

theorem cos_le {P Q : ℝ → ℝ} (hP : ∀ x, HasDerivAt P (-Q x) x) (h0 : P 0 = 1) (h : ∀ x, 0 ≤ x → Q x ≤ sin x) {x : ℝ}
    (hx : 0 ≤ x) : cos x ≤ P x :=
  le_of_deriv hasDerivAt_cos hP (by rw [h0, cos_zero]) (fun y hy => by linarith [h y hy]) hx

theorem sin_ge {P Q : ℝ → ℝ} (hP : ∀ x, HasDerivAt P (Q x) x) (h0 : P 0 = 0) (h : ∀ x, 0 ≤ x → Q x ≤ cos x) {x : ℝ}
    (hx : 0 ≤ x) : P x ≤ sin x :=
  le_of_deriv hP hasDerivAt_sin (by rw [h0, sin_zero]) h hx

theorem sin_le' {P Q : ℝ → ℝ} (hP : ∀ x, HasDerivAt P (Q x) x) (h0 : P 0 = 0) (h : ∀ x, 0 ≤ x → cos x ≤ Q x) {x : ℝ}
    (hx : 0 ≤ x) : sin x ≤ P x :=
  le_of_deriv hasDerivAt_sin hP (by rw [h0, sin_zero]) h hx

/-- The partial sums. -/
noncomputable def S3 (x : ℝ) : ℝ := x - x ^ 3 / 6
noncomputable def S5 (x : ℝ) : ℝ := S3 x + x ^ 5 / 120
noncomputable def S7 (x : ℝ) : ℝ := S5 x - x ^ 7 / 5040
noncomputable def S9 (x : ℝ) : ℝ := S7 x + x ^ 9 / 362880
noncomputable def S11 (x : ℝ) : ℝ := S9 x - x ^ 11 / 39916800
noncomputable def K2 (x : ℝ) : ℝ := 1 - x ^ 2 / 2
noncomputable def K4 (x : ℝ) : ℝ := K2 x + x ^ 4 / 24
noncomputable def K6 (x : ℝ) : ℝ := K4 x - x ^ 6 / 720
noncomputable def K8 (x : ℝ) : ℝ := K6 x + x ^ 8 / 40320
noncomputable def K10 (x : ℝ) : ℝ := K8 x - x ^ 10 / 3628800

theorem dK2 (x : ℝ) : HasDerivAt K2 (-x) x := by
  have := (hasDerivAt_const x (1 : ℝ)).sub (pow_deriv 1 2 x)
  exact this.congr_deriv (by push_cast; ring)
theorem dS3 (x : ℝ) : HasDerivAt S3 (K2 x) x := by
  have := (hasDerivAt_id x).sub (pow_deriv 2 6 x)
  exact this.congr_deriv (by unfold K2; push_cast; ring)
theorem dK4 (x : ℝ) : HasDerivAt K4 (-S3 x) x := by
  have := (dK2 x).add (pow_deriv 3 24 x)
  exact this.congr_deriv (by unfold S3; push_cast; ring)
theorem dS5 (x : ℝ) : HasDerivAt S5 (K4 x) x := by
  have := (dS3 x).add (pow_deriv 4 120 x)
  exact this.congr_deriv (by unfold K4; push_cast; ring)
theorem dK6 (x : ℝ) : HasDerivAt K6 (-S5 x) x := by
  have := (dK4 x).sub (pow_deriv 5 720 x)
  exact this.congr_deriv (by unfold S5; push_cast; ring)
theorem dS7 (x : ℝ) : HasDerivAt S7 (K6 x) x := by
  have := (dS5 x).sub (pow_deriv 6 5040 x)
  exact this.congr_deriv (by unfold K6; push_cast; ring)
theorem dK8 (x : ℝ) : HasDerivAt K8 (-S7 x) x := by
  have := (dK6 x).add (pow_deriv 7 40320 x)
  exact this.congr_deriv (by unfold S7; push_cast; ring)
theorem dS9 (x : ℝ) : HasDerivAt S9 (K8 x) x := by
  have := (dS7 x).add (pow_deriv 8 362880 x)
  exact this.congr_deriv (by unfold K8; push_cast; ring)
theorem dK10 (x : ℝ) : HasDerivAt K10 (-S9 x) x := by
  have := (dK8 x).sub (pow_deriv 9 3628800 x)
  exact this.congr_deriv (by unfold S9; push_cast; ring)
theorem dS11 (x : ℝ) : HasDerivAt S11 (K10 x) x := by
  have := (dS9 x).sub (pow_deriv 10 39916800 x)
  exact this.congr_deriv (by unfold K10; push_cast; ring)

theorem k2 {x : ℝ} (hx : 0 ≤ x) : K2 x ≤ cos x := cos_ge dK2 (by simp [K2]) (fun _ h => s1 h) hx
theorem s3 {x : ℝ} (hx : 0 ≤ x) : S3 x ≤ sin x := sin_ge dS3 (by simp [S3]) (fun _ h => k2 h) hx
theorem k4 {x : ℝ} (hx : 0 ≤ x) : cos x ≤ K4 x := cos_le dK4 (by simp [K4, K2]) (fun _ h => s3 h) hx
theorem s5 {x : ℝ} (hx : 0 ≤ x) : sin x ≤ S5 x := sin_le' dS5 (by simp [S5, S3]) (fun _ h => k4 h) hx
theorem k6 {x : ℝ} (hx : 0 ≤ x) : K6 x ≤ cos x := cos_ge dK6 (by simp [K6, K4, K2]) (fun _ h => s5 h) hx
theorem s7 {x : ℝ} (hx : 0 ≤ x) : S7 x ≤ sin x := sin_ge dS7 (by simp [S7, S5, S3]) (fun _ h => k6 h) hx
theorem k8 {x : ℝ} (hx : 0 ≤ x) : cos x ≤ K8 x := cos_le dK8 (by simp [K8, K6, K4, K2]) (fun _ h => s7 h) hx
theorem s9 {x : ℝ} (hx : 0 ≤ x) : sin x ≤ S9 x := sin_le' dS9 (by simp [S9, S7, S5, S3]) (fun _ h => k8 h) hx
theorem k10 {x : ℝ} (hx : 0 ≤ x) : K10 x ≤ cos x := cos_ge dK10 (by simp [K10, K8, K6, K4, K2]) (fun _ h => s9 h) hx
theorem s11 {x : ℝ} (hx : 0 ≤ x) : S11 x ≤ sin x := sin_ge dS11 (by simp [S11, S9, S7, S5, S3]) (fun _ h => k10 h) hx

end Verif.Lemmas.TrigSeries
