import Verif.Model.NumJac
import Verif.Spec.NumJac
import Verif.Props.LieRound
import Mathlib.Analysis.Calculus.MeanValue
import Mathlib.Analysis.SpecialFunctions.Trigonometric.Arctan

/-!
# C123: numerical Jacobians
-/

namespace Verif.Props.NumJac

open Verif.Model.Lie Verif.Model.NumJac Verif.Spec.NumJac Verif.Spec.Lie Verif.Lemmas.Lie Verif.Lemmas.TrigSeries
open Verif.Props.Quat Verif.Props.DQuat Verif.Props.LieSeries Real

/-! ### Central differences of a curve -/

/-- A function grows at most as fast as a bound of its derivative. -/
theorem grow {f f' B B' : ℝ → ℝ} {h : ℝ} (hf : ∀ t, 0 ≤ t → t ≤ h → HasDerivAt f (f' t) t) (h0 : |f 0| ≤ B 0)
    (hB : ∀ t, HasDerivAt B (B' t) t) (hb : ∀ t, 0 ≤ t → t ≤ h → |f' t| ≤ B' t) {t : ℝ} (ht0 : 0 ≤ t) (ht : t ≤ h) : |f t| ≤ B t :=
  image_norm_le_of_norm_deriv_right_le_deriv_boundary (a := 0) (b := h) (f := f) (f' := f')
    (fun x hx => (hf x hx.1 hx.2).continuousAt.continuousWithinAt) (fun x hx => (hf x hx.1 hx.2.le).hasDerivWithinAt)
    h0 hB (fun x hx => hb x hx.1 hx.2.le) ⟨ht0, ht⟩

/-- The central difference with half width `t` is the derivative up to `M t² / 6`. -/
theorem central {g : ℝ → ℝ} {h d M : ℝ} (hg : Curve g h d M) {t : ℝ} (ht0 : 0 ≤ t) (ht : t ≤ h) :
    |g t - g (-t) - 2 * t * d| ≤ M * t ^ 3 / 3 := by
  obtain ⟨g1, g2, g3, h1, H⟩ := hg
  have hr : ∀ t, 0 ≤ t → t ≤ h → |t| ≤ h := fun t a b => by rwa [abs_of_nonneg a]
  have hl : ∀ t, 0 ≤ t → t ≤ h → |-t| ≤ h := fun t a b => by rwa [abs_neg, abs_of_nonneg a]
  have neg : ∀ {k k' : ℝ → ℝ} {t : ℝ}, HasDerivAt k (k' (-t)) (-t) → HasDerivAt (fun s => k (-s)) (-k' (-t)) t := by
    intro k k' t hk
    have := hk.comp t (hasDerivAt_neg t)
    rw [mul_neg_one] at this
    exact this
  have e2 : ∀ t, 0 ≤ t → t ≤ h → |g2 t - g2 (-t)| ≤ 2 * M * t := by
    intro t a b
    refine grow (f := fun t => g2 t - g2 (-t)) (f' := fun t => g3 t + g3 (-t)) (B := fun t => 2 * M * t) (B' := fun _ => 2 * M) (h := h)
      ?_ (by simp) ?_ ?_ a b
    · intro s p q
      have := ((H s (hr s p q)).2.2.1).sub (neg (H (-s) (hl s p q)).2.2.1)
      rw [sub_neg_eq_add] at this
      exact this
    · intro s
      have := (hasDerivAt_id s).const_mul (2 * M)
      rw [mul_one] at this
      exact this
    · intro s p q
      have a1 := (H s (hr s p q)).2.2.2
      have a2 := (H (-s) (hl s p q)).2.2.2
      have := abs_add_le (g3 s) (g3 (-s))
      linarith
  have e1 : ∀ t, 0 ≤ t → t ≤ h → |g1 t + g1 (-t) - 2 * d| ≤ M * t ^ 2 := by
    intro t a b
    refine grow (f := fun t => g1 t + g1 (-t) - 2 * d) (f' := fun t => g2 t - g2 (-t)) (B := fun t => M * t ^ 2) (B' := fun t => 2 * M * t) (h := h)
      ?_ (by simp only [neg_zero, h1]; rw [show d + d - 2 * d = 0 by ring]; norm_num) ?_ e2 a b
    · intro s p q
      have := (((H s (hr s p q)).2.1).add (neg (H (-s) (hl s p q)).2.1)).sub_const (2 * d)
      rw [← sub_eq_add_neg] at this
      exact this
    · intro s
      have := (hasDerivAt_pow 2 s).const_mul M
      refine this.congr_deriv ?_
      norm_num
      ring
  refine grow (f := fun t => g t - g (-t) - 2 * t * d) (f' := fun t => g1 t + g1 (-t) - 2 * d) (B := fun t => M * t ^ 3 / 3)
    (B' := fun t => M * t ^ 2) (h := h) ?_ (by simp) ?_ e1 ht0 ht
  · intro s p q
    have := (((H s (hr s p q)).1).sub (neg (H (-s) (hl s p q)).1)).sub (((hasDerivAt_id s).const_mul 2).mul_const d)
    rw [sub_neg_eq_add, mul_one] at this
    exact this
  · intro s
    have := ((hasDerivAt_pow 3 s).const_mul M).div_const 3
    refine this.congr_deriv ?_
    norm_num
    ring

/-- The difference over a width that is not quite the one divided by. -/
theorem central_off {g : ℝ → ℝ} {h d M t eps : ℝ} (hg : Curve g h d M) (he : 0 < eps) (ht : eps ≤ t) (hh : t ≤ h) :
    |(g t - g (-t)) / (2 * eps) - d| ≤ (t / eps - 1) * |d| + M * t ^ 3 / (6 * eps) := by
  have h1 := central hg (he.le.trans ht) hh
  have e : (g t - g (-t)) / (2 * eps) - d = (g t - g (-t) - 2 * t * d) / (2 * eps) + (t / eps - 1) * d := by field_simp; ring
  have h2 : 0 ≤ t / eps - 1 := by rw [sub_nonneg, le_div_iff₀ he, one_mul]; exact ht
  rw [e]
  refine (abs_add_le _ _).trans ?_
  rw [abs_div, abs_mul (t / eps - 1), abs_of_nonneg h2, abs_of_pos (by linarith : 0 < 2 * eps)]
  have h3 : |g t - g (-t) - 2 * t * d| / (2 * eps) ≤ M * t ^ 3 / 3 / (2 * eps) := div_le_div_of_nonneg_right h1 (by linarith)
  have h4 : M * t ^ 3 / 3 / (2 * eps) = M * t ^ 3 / (6 * eps) := by field_simp; ring
  linarith

/-- C123 for functions of vectors: each element of `compute_jac` is the partial derivative up to a sixth of the square of the step
times a bound of the third derivative along that coordinate. -/
theorem C123_vec {ι κ : Type} [DecidableEq ι] (side : Side) (x : ι → ℝ) (f : (ι → ℝ) → κ → ℝ) (eps : ℝ) (he : 0 < eps) (r : κ) (i : ι) (d M : ℝ)
    (hg : Curve (fun t => f (x + t • unit i) r) eps d M) :
    |(computeJac (vec ι) (vec κ) side x f eps) r i - d| ≤ M * eps ^ 2 / 6 := by
  have h := central_off hg he le_rfl le_rfl
  rw [div_self he.ne', sub_self, zero_mul, zero_add] at h
  have e : M * eps ^ 3 / (6 * eps) = M * eps ^ 2 / 6 := by field_simp
  rw [e] at h
  have e2 : (computeJac (vec ι) (vec κ) side x f eps) r i = (f (x + eps • unit i) r - f (x + (-eps) • unit i) r) / (2 * eps) := by
    unfold computeJac
    simp only [Matrix.of_apply, vec, Pi.sub_apply]
    rw [smul_neg, neg_smul]
  rw [e2]
  exact h

/-- C123: so the Jacobian of a quadratic function is exact, whatever the step. -/
theorem C123_quadratic {ι κ : Type} [DecidableEq ι] (side : Side) (x : ι → ℝ) (f : (ι → ℝ) → κ → ℝ) (eps : ℝ) (he : 0 < eps) (r : κ) (i : ι) (b c : ℝ)
    (hf : ∀ t, f (x + t • unit i) r = f x r + b * t + c * t ^ 2) :
    (computeJac (vec ι) (vec κ) side x f eps) r i = b := by
  have h := C123_vec side x f eps he r i b 0 (by
    refine ⟨fun t => b + 2 * c * t, fun _ => 2 * c, fun _ => 0, by norm_num, fun t _ => ⟨?_, ?_, hasDerivAt_const _ _, by norm_num⟩⟩
    · rw [show (fun t => f (x + t • unit i) r) = fun t => f x r + b * t + c * t ^ 2 from funext hf]
      have := (((hasDerivAt_id t).const_mul b).const_add (f x r)).add ((hasDerivAt_pow 2 t).const_mul c)
      refine this.congr_deriv ?_
      norm_num
      ring
    · have := ((hasDerivAt_id t).const_mul (2 * c)).const_add b
      rw [mul_one] at this
      exact this)
  rw [zero_mul, zero_div] at h
  exact sub_eq_zero.1 (abs_nonpos_iff.1 h)

/-- C123: the test of the header, for every matrix: the Jacobian of `x ↦ A x` is `A`. -/
theorem C123_linear {ι κ : Type} [DecidableEq ι] [Fintype ι] (side : Side) (x : ι → ℝ) (A : Matrix κ ι ℝ) (eps : ℝ) (he : 0 < eps) :
    (computeJac (vec ι) (vec κ) side x (fun x => A.mulVec x) eps) = A := by
  ext r i
  refine C123_quadratic side x (fun x => A.mulVec x) eps he r i (A r i) 0 fun t => ?_
  have : A.mulVec (unit i) r = A r i := by unfold unit; rw [Matrix.mulVec_single_one]; rfl
  rw [Matrix.mulVec_add, Matrix.mulVec_smul, Pi.add_apply, Pi.smul_apply, this, smul_eq_mul]
  ring

/-- A function whose derivative is not constant: `x²y` at `(1, 2)` with step `0.1`. -/
example : (computeJac (vec (Fin 2)) (vec (Fin 1)) .left ![1, 2] (fun x _ => x 0 * x 0 * x 1) 0.1) 0 0 = 4 :=
  C123_quadratic _ _ _ _ (by norm_num) _ _ 4 2 fun t => by simp [unit]; ring

/-! ### Quaternions -/

theorem half_mul {n : V3} (hn : inner n n = 1) (a b : ℝ) : (half n a).otimes (half n b) = half n (a + b) := by
  rw [inner_at] at hn
  have hc : cos ((a + b) / 2) = cos (a / 2) * cos (b / 2) - sin (a / 2) * sin (b / 2) := by rw [← cos_add]; congr 1; ring
  have hs : sin ((a + b) / 2) = sin (a / 2) * cos (b / 2) + cos (a / 2) * sin (b / 2) := by rw [← sin_add]; congr 1; ring
  ext <;> simp only [Quat.otimes, half, hc, hs]
  · linear_combination (-sin (a / 2) * sin (b / 2)) * hn
  all_goals ring

theorem half_inv (n : V3) (a : ℝ) : (half n a).inverse = half n (-a) := by
  ext <;> simp only [Quat.inverse, half, neg_div, cos_neg, sin_neg, mul_neg]

/-- The series of `Quat::exp` turns by an angle that is very slightly too large. -/
theorem exp_tiny {a : ℝ} (h0 : 0 < a) (h : a ≤ 1e-6) :
    ∃ τ, a ≤ τ ∧ τ ≤ a + a ^ 7 / 200000 ∧ ∀ n : V3, inner n n = 1 → Quat.exp (a • n) = half n τ ∧ Quat.exp (a • -n) = half n (-τ) := by
  have hv : ∀ n : V3, inner n n = 1 → ∀ b : ℝ, |b| = a → vnorm (b • n) = a := by
    intro n hn b hb
    have e : sqNorm (b • n) = a ^ 2 := by
      rw [inner_at] at hn
      simp only [sqNorm, dot, Pi.smul_apply, smul_eq_mul]
      rw [← hb, sq_abs]
      linear_combination b ^ 2 * hn
    unfold vnorm
    rw [e, Real.sqrt_sq h0.le]
  have hx : 0 ≤ a / 2 := by positivity
  have g5 := s5 hx
  unfold S5 S3 at g5
  obtain ⟨c1, -, -⟩ := C112_expCoeffs a h0
  dsimp only at c1
  have es : (0.5 - 1 / 48 * (a * a) + 1 / 3840 * (a * a * (a * a))) = 0.5 - a * a / 48 + a * a * (a * a) / 3840 := by ring
  rw [es] at c1
  have eu : (0.5 - a * a / 48 + a * a * (a * a) / 3840) * a = a / 2 - (a / 2) ^ 3 / 6 + (a / 2) ^ 5 / 120 := by norm_num; ring
  have hexp : ∀ n : V3, inner n n = 1 → ∀ b : ℝ, |b| = a → Quat.exp (b • n) = Quat.normalize ⟨cos (a / 2), (0.5 - a * a / 48 + a * a * (a * a) / 3840) * (b • n) 0,
      (0.5 - a * a / 48 + a * a * (a * a) / 3840) * (b • n) 1, (0.5 - a * a / 48 + a * a * (a * a) / 3840) * (b • n) 2⟩ := by
    intro n hn b hb
    have hl : ¬ 4e-6 < a := by norm_num at h ⊢; linarith
    unfold Quat.exp
    simp only [hv n hn b hb, gt_iff_lt, hl, if_false]
  generalize hsd : (0.5 - a * a / 48 + a * a * (a * a) / 3840) = s at *
  have hu : s * a ≤ sin (a / 2) + a ^ 7 / 600000 := by
    have h1 := (abs_le.1 c1).2
    have h2 := mul_le_mul_of_nonneg_right h1 h0.le
    rw [sub_mul, div_mul_cancel₀ _ h0.ne'] at h2
    have e : a ^ 6 / 645120 * a = a ^ 7 / 645120 := by ring
    have : 0 < a ^ 7 := by positivity
    linarith
  obtain ⟨hc, ht0, -, hl2, hl1⟩ := arctan_round h0 (le_trans h (by norm_num)) (by rw [eu]; exact g5) hu
  have hc0 : 0 < cos (a / 2) := lt_of_lt_of_le (by norm_num) hc
  have hsp : 0 ≤ s * a := by rw [eu]; exact le_trans (sin_nonneg_of_nonneg_of_le_pi hx (by norm_num at h; linarith [pi_gt_three])) g5
  -- the norm
  have hN : ∀ n : V3, inner n n = 1 → ∀ b : ℝ, |b| = a → Quat.norm ⟨cos (a / 2), s * (b • n) 0, s * (b • n) 1, s * (b • n) 2⟩ = cos (a / 2) * √(1 + (s * a / cos (a / 2)) ^ 2) := by
    intro n hn b hb
    have hb2 : b ^ 2 = a ^ 2 := by rw [← hb, sq_abs]
    have e : Quat.sqNorm ⟨cos (a / 2), s * (b • n) 0, s * (b • n) 1, s * (b • n) 2⟩ =
        cos (a / 2) * √(1 + (s * a / cos (a / 2)) ^ 2) * (cos (a / 2) * √(1 + (s * a / cos (a / 2)) ^ 2)) := by
      rw [mul_mul_mul_comm, Real.mul_self_sqrt (by positivity), inner_at] at *
      simp only [Quat.sqNorm, Pi.smul_apply, smul_eq_mul]
      field_simp
      linear_combination s ^ 2 * b ^ 2 * hn + s ^ 2 * hb2
    unfold Quat.norm
    rw [e, Real.sqrt_mul_self (by positivity)]
  have hr : 0 < √(1 + (s * a / cos (a / 2)) ^ 2) := Real.sqrt_pos.2 (by positivity)
  have hcos := Real.cos_arctan (s * a / cos (a / 2))
  have hsin := Real.sin_arctan (s * a / cos (a / 2))
  refine ⟨2 * arctan (s * a / cos (a / 2)), by linarith, by linarith, fun n hn => ⟨?_, ?_⟩⟩
  · rw [hexp n hn a (abs_of_pos h0)]
    unfold Quat.normalize
    rw [hN n hn a (abs_of_pos h0)]
    ext <;> simp only [half, Pi.smul_apply, smul_eq_mul, mul_div_cancel_left₀ _ (two_ne_zero : (2 : ℝ) ≠ 0), hcos, hsin] <;> field_simp
  · rw [smul_neg, ← neg_smul, hexp n hn (-a) (by rw [abs_neg, abs_of_pos h0])]
    unfold Quat.normalize
    rw [hN n hn (-a) (by rw [abs_neg, abs_of_pos h0])]
    ext <;> simp only [half, Pi.smul_apply, smul_eq_mul, neg_div, cos_neg, sin_neg, mul_div_cancel_left₀ _ (two_ne_zero : (2 : ℝ) ≠ 0), hcos, hsin] <;> field_simp

/-- The series of `Quat::log` for a turn by twice a small angle. -/
theorem log_tiny {τ : ℝ} (h0 : 0 < τ) (h : τ ≤ 2e-6) :
    ∃ l, 2 * τ ≤ l ∧ l ≤ 2 * τ + 40 * τ ^ 7 ∧ ∀ n : V3, inner n n = 1 → (half n (2 * τ)).log = l • n := by
  have hpi := pi_gt_three
  have hc0 : 0 < cos τ := cos_pos_of_mem_Ioo ⟨by linarith, by norm_num at h; linarith⟩
  have hs0 : 0 < sin τ := sin_pos_of_pos_of_lt_pi h0 (by norm_num at h; linarith)
  have hsl : sin τ ≤ τ := sin_le h0.le
  have hl : ∀ n : V3, inner n n = 1 → (half n (2 * τ)).log = (2 / 1 * (sin τ / cos τ - (sin τ / cos τ) ^ 3 / 3 + (sin τ / cos τ) ^ 5 / 5)) • n := by
    intro n hn
    have hv : vnorm n = 1 := by
      unfold vnorm sqNorm
      rw [dot_eq, hn, Real.sqrt_one]
    have hl := log_small (q := half n (2 * τ)) (v := n) (s := sin τ) (c := cos τ) one_pos hc0 hs0
      (by simp [half]) (by apply vec_ext <;> simp [half, Quat.bar, mul_comm]) (by rw [hv]; exact one_pos)
      (by rw [hv]; norm_num at h ⊢; linarith)
    rw [hv, mul_one] at hl
    exact hl
  have ht : tan τ = sin τ / cos τ := tan_eq_sin_div_cos _
  have hat : arctan (sin τ / cos τ) = τ := by rw [← ht]; exact arctan_tan (by linarith) (by norm_num at h; linarith)
  have hk := k2 h0.le
  unfold K2 at hk
  have hc9 : 0.99 ≤ cos τ := by norm_num at h ⊢; nlinarith
  have ht0 : 0 ≤ sin τ / cos τ := by positivity
  have htl : sin τ / cos τ ≤ 1.02 * τ := by
    rw [div_le_iff₀ hc0]
    have : 1.02 * τ * 0.99 ≤ 1.02 * τ * cos τ := mul_le_mul_of_nonneg_left hc9 (by norm_num; linarith)
    norm_num at this ⊢
    linarith
  have h5 := arctan_le5 ht0
  have h7 := arctan_ge7 ht0
  rw [hat] at h5 h7
  refine ⟨_, ?_, ?_, hl⟩
  · linarith
  · have : (sin τ / cos τ) ^ 7 ≤ (1.02 * τ) ^ 7 := pow_le_pow_left₀ ht0 htl 7
    have p7 : 0 < τ ^ 7 := by positivity
    rw [mul_pow] at this
    norm_num at this ⊢
    linarith

/-- The factor by which the differences of `compute_jac` on quaternions are too large. -/
def Factor (eps κ : ℝ) : Prop := 1 ≤ κ ∧ κ ≤ 1 + 100 * eps ^ 6

/-- The logarithm of the square of a small exponential. -/
theorem log_sq {eps : ℝ} (he : 0 < eps) (h : eps ≤ 1e-6) : ∃ κ, Factor eps κ ∧ ∀ n : V3, inner n n = 1 →
    ((Quat.exp (eps • n)).otimes (Quat.exp (eps • n))).log = (2 * eps * κ) • n ∧
    ((Quat.exp (eps • -n)).otimes (Quat.exp (eps • -n))).log = (2 * eps * κ) • -n := by
  obtain ⟨τ, t1, t2, ht⟩ := exp_tiny he h
  have p7 : eps ^ 7 ≤ eps := by
    have := pow_le_pow_of_le_one he.le (le_trans h (by norm_num)) (by norm_num : 1 ≤ 7)
    simpa using this
  have h0 : 0 < τ := by linarith
  have ht2 : τ ≤ 1.001 * eps := by norm_num; linarith
  obtain ⟨l, l1, l2, hl⟩ := log_tiny h0 (by norm_num at h ht2 ⊢; linarith)
  have key : ∀ n : V3, inner n n = 1 → ((Quat.exp (eps • n)).otimes (Quat.exp (eps • n))).log = (2 * eps * (l / (2 * eps))) • n := by
    intro n hn
    rw [(ht n hn).1, half_mul hn, ← two_mul, hl n hn]
    congr 1
    field_simp
  refine ⟨l / (2 * eps), ⟨?_, ?_⟩, fun n hn => ⟨key n hn, key (-n) ?_⟩⟩
  · rw [le_div_iff₀ (by linarith)]
    linarith
  · rw [div_le_iff₀ (by linarith)]
    have q7 : τ ^ 7 ≤ (1.001 * eps) ^ 7 := pow_le_pow_left₀ h0.le ht2 7
    have e7 : 0 < eps ^ 7 := by positivity
    have e : (1 + 100 * eps ^ 6) * (2 * eps) = 2 * eps + 200 * eps ^ 7 := by ring
    rw [mul_pow] at q7
    rw [e]
    norm_num at q7
    linarith
  · rw [inner_at] at hn ⊢
    simp only [Pi.neg_apply]
    linarith

theorem unit_inner (i : Fin 3) : inner (unit i) (unit i) = 1 := by
  rw [inner_at]
  fin_cases i <;> simp [unit]

theorem rota_unit (q : Quat) (hq : UnitQ q) (i : Fin 3) : inner (q.rota (unit i)) (q.rota (unit i)) = 1 := by
  rw [dot_Ra q hq, unit_inner]

theorem Ad_unit (q : Quat) (r i : Fin 3) : q.rota (unit i) r = q.Ad r i := by
  rw [rota_eq]
  unfold Quat.Ad unit
  rw [Matrix.mulVec_single_one]
  rfl

theorem exp_neg (n : V3) (v : ℝ) : Quat.exp (v • -n) = (Quat.exp (v • n)).inverse := by
  obtain ⟨C, S, h⟩ := exp_form (v • n)
  have hn : vnorm (v • -n) = vnorm (v • n) := by
    unfold vnorm sqNorm dot
    congr 1
    simp only [Pi.smul_apply, Pi.neg_apply, smul_eq_mul]
    ring
  rw [h _ hn, h _ rfl]
  ext <;> simp [Quat.inverse]

theorem q_assoc (p q r : Quat) : (p.otimes q).otimes r = p.otimes (q.otimes r) := by
  ext <;> simp only [Quat.otimes] <;> ring

theorem q_inv_mul (p q : Quat) : (p.otimes q).inverse = q.inverse.otimes p.inverse := by
  ext <;> simp only [Quat.otimes, Quat.inverse] <;> ring

theorem q_inv_inv (p : Quat) : p.inverse.inverse = p := by ext <;> simp [Quat.inverse]

theorem q_cancel {p : Quat} (hp : UnitQ p) (q : Quat) : p.otimes (p.inverse.otimes q) = q ∧ p.inverse.otimes (p.otimes q) = q := by
  have h := C43_group p p p hp hp
  rw [← q_assoc, ← q_assoc, h.2.2.2.2.2.2.1, h.2.2.2.2.2.2.2]
  constructor <;> ext <;> simp [Quat.otimes, Quat.identity]

theorem unit_inv {p : Quat} (hp : UnitQ p) : UnitQ p.inverse := (C43_group p p p hp hp).2.1

/-- The logarithm of a conjugate of such a square. -/
theorem log_conj {eps κ : ℝ} (hk : ∀ n : V3, inner n n = 1 → ((Quat.exp (eps • n)).otimes (Quat.exp (eps • n))).log = (2 * eps * κ) • n)
    {a : Quat} (ha : UnitQ a) {n : V3} (hn : inner n n = 1) :
    (a.otimes ((Quat.exp (eps • n)).otimes ((Quat.exp (eps • n)).otimes a.inverse))).log = (2 * eps * κ) • a.rota n := by
  have h1 := C47_Ad_exp_quat a ha (eps • n)
  have e : a.otimes ((Quat.exp (eps • n)).otimes ((Quat.exp (eps • n)).otimes a.inverse)) =
      (Quat.exp (eps • a.rota n)).otimes (Quat.exp (eps • a.rota n)) := by
    have : a.Ad.mulVec (eps • n) = eps • a.rota n := by rw [Matrix.mulVec_smul, rota_eq]; rfl
    rw [← this, ← h1]
    simp only [q_assoc, (q_cancel ha _).2]
  rw [e, hk _ (by rw [dot_Ra a ha, hn])]

/-- C123 for quaternions: for `x ↦ a x b` both Jacobians are the adjoints, `Ad(a)` on the left and `Ad(b)⁻¹` on the right, and for the inverse they are
`-Ad(x⁻¹)` and `-Ad(x)`: all of them up to a single factor which differs from one by less than `1e-34` for steps up to a millionth. -/
theorem C123_quat (eps : ℝ) (he : 0 < eps) (h : eps ≤ 1e-6) : ∃ κ, Factor eps κ ∧ ∀ x a b : Quat, UnitQ x → UnitQ a → UnitQ b →
    computeJac quat.space quat.space .left x (fun x => (a.otimes x).otimes b) eps = κ • a.Ad ∧
    computeJac quat.space quat.space .right x (fun x => (a.otimes x).otimes b) eps = κ • b.inverse.Ad ∧
    computeJac quat.space quat.space .left x Quat.inverse eps = -(κ • x.inverse.Ad) ∧
    computeJac quat.space quat.space .right x Quat.inverse eps = -(κ • x.Ad) := by
  obtain ⟨κ, hκ, hk⟩ := log_sq he h
  refine ⟨κ, hκ, fun x a b hx ha hb => ?_⟩
  have L := fun {a : Quat} (ha : UnitQ a) (i : Fin 3) => log_conj (fun n hn => (hk n hn).1) ha (unit_inner i)
  have L' := fun {a : Quat} (ha : UnitQ a) (i : Fin 3) => log_conj (fun n hn => (hk n hn).1) ha (n := -unit i) (by
    have := unit_inner i
    rw [inner_at] at this ⊢
    simp only [Pi.neg_apply]
    linarith)
  have fin : ∀ (a : Quat) (r i : Fin 3), ((2 * eps * κ) • a.rota (unit i)) r / (2 * eps) = κ * a.Ad r i := by
    intro a r i
    rw [Pi.smul_apply, Ad_unit, smul_eq_mul]
    field_simp
  have fin' : ∀ (a : Quat) (r i : Fin 3), ((2 * eps * κ) • a.rota (-unit i)) r / (2 * eps) = -(κ * a.Ad r i) := by
    intro a r i
    rw [show a.rota (-unit i) = -a.rota (unit i) by rw [rota_eq, rota_eq, Matrix.mulVec_neg], Pi.smul_apply, Pi.neg_apply, Ad_unit, smul_eq_mul]
    field_simp
  refine ⟨?_, ?_, ?_, ?_⟩ <;> ext r i <;>
    simp only [computeJac, Matrix.of_apply, Grp.space, quat, Matrix.smul_apply, Matrix.neg_apply, smul_eq_mul]
  · rw [← fin, ← L ha i]
    simp only [exp_neg, q_assoc, q_inv_mul, q_inv_inv, (q_cancel hx _).1, (q_cancel hb _).1]
  · rw [← fin, ← L (unit_inv hb) i]
    simp only [exp_neg, q_assoc, q_inv_mul, q_inv_inv, (q_cancel hx _).2, (q_cancel ha _).2]
  · rw [← fin', ← L' (unit_inv hx) i]
    simp only [exp_neg, q_assoc, q_inv_mul, q_inv_inv]
  · rw [← fin', ← L' hx i]
    simp only [exp_neg, q_assoc, q_inv_mul, q_inv_inv]

/-- C123 with the default step: the Jacobian of `x ↦ a x b` is the adjoint up to `1e-40`. -/
theorem C123_quat_default (x a b : Quat) (hx : UnitQ x) (ha : UnitQ a) (hb : UnitQ b) (r i : Fin 3) :
    |computeJac quat.space quat.space .left x (fun x => (a.otimes x).otimes b) 1e-8 r i - a.Ad r i| ≤ 1e-40 := by
  obtain ⟨κ, hκ, h⟩ := C123_quat 1e-8 (by norm_num) (by norm_num)
  rw [(h x a b hx ha hb).1, Matrix.smul_apply, smul_eq_mul, show κ * a.Ad r i - a.Ad r i = (κ - 1) * a.Ad r i by ring, abs_mul]
  have hu := rota_unit a ha i
  rw [inner_at] at hu
  have h1 : |a.Ad r i| ≤ 1 := by
    rw [← Ad_unit]
    apply abs_le_one_iff_mul_self_le_one.2
    have := mul_self_nonneg (a.rota (unit i) 0)
    have := mul_self_nonneg (a.rota (unit i) 1)
    have := mul_self_nonneg (a.rota (unit i) 2)
    fin_cases r <;> simp only [Fin.zero_eta, Fin.mk_one, Fin.reduceFinMk] <;> linarith
  have h2 : |κ - 1| ≤ 1e-40 := by
    have := hκ.1
    have h3 := hκ.2
    norm_num at h3 ⊢
    rw [abs_of_nonneg (by linarith)]
    linarith
  calc |κ - 1| * |a.Ad r i| ≤ 1e-40 * 1 := mul_le_mul h2 h1 (abs_nonneg _) (by norm_num)
    _ = 1e-40 := mul_one _

/-- The turns by `t` about the axis `i`, applied to `x` from the given side. -/
noncomputable def turned (side : Side) (i : Fin 3) (x : Quat) (t : ℝ) : Quat :=
  match side with
  | .left => (half (unit i) t).otimes x
  | .right => x.otimes (half (unit i) t)

/-- C123 for functions of a quaternion with values in vectors: each element is the derivative along the turns about that axis, up to a fifth of the square of the
step times a bound of the third derivative (and a relative error below `1e-41`). -/
theorem C123_quat_fun {κ : Type} (side : Side) (x : Quat) (f : Quat → κ → ℝ) (eps : ℝ) (he : 0 < eps) (h : eps ≤ 1e-6) (r : κ) (i : Fin 3) (d M : ℝ)
    (hg : Curve (fun t => f (turned side i x t) r) (2 * eps) d M) :
    |computeJac quat.space (vec κ) side x f eps r i - d| ≤ eps ^ 6 * |d| + M * eps ^ 2 / 5 := by
  obtain ⟨τ, t1, t2, ht⟩ := exp_tiny he h
  have p7 : eps ^ 7 ≤ eps := by
    have := pow_le_pow_of_le_one he.le (le_trans h (by norm_num)) (by norm_num : 1 ≤ 7)
    simpa using this
  have hM : 0 ≤ M := by
    obtain ⟨g1, g2, g3, -, H⟩ := hg
    exact (abs_nonneg _).trans (H 0 (by rw [abs_zero]; linarith)).2.2.2
  have hc := central_off hg he t1 (by linarith)
  have e : computeJac quat.space (vec κ) side x f eps r i = (f (turned side i x τ) r - f (turned side i x (-τ)) r) / (2 * eps) := by
    cases side <;> simp only [computeJac, Matrix.of_apply, Grp.space, quat, vec, Pi.sub_apply, turned, (ht _ (unit_inner i)).1, (ht _ (unit_inner i)).2]
  rw [e]
  refine hc.trans (add_le_add ?_ ?_)
  · refine mul_le_mul_of_nonneg_right ?_ (abs_nonneg _)
    rw [sub_le_iff_le_add, div_le_iff₀ he]
    have : (eps ^ 6 + 1) * eps = eps ^ 7 + eps := by ring
    have : 0 < eps ^ 7 := by positivity
    linarith
  · rw [div_le_div_iff₀ (by linarith) (by norm_num)]
    have h3 : τ ^ 3 ≤ (1.001 * eps) ^ 3 := pow_le_pow_left₀ (by linarith) (by norm_num; linarith) 3
    have h4 : M * τ ^ 3 ≤ M * (1.001 * eps) ^ 3 := mul_le_mul_of_nonneg_left h3 hM
    have e3 : 0 ≤ M * eps ^ 3 := by positivity
    have e4 : M * (1.001 * eps) ^ 3 = 1.001 ^ 3 * (M * eps ^ 3) := by ring
    have e5 : M * eps ^ 2 * (6 * eps) = 6 * (M * eps ^ 3) := by ring
    rw [e5]
    rw [e4] at h4
    norm_num at h4
    linarith

theorem trig_curve (a b c h : ℝ) : Curve (fun t => a + b * cos t + c * sin t) h c (|b| + |c|) := by
  refine ⟨fun t => -b * sin t + c * cos t, fun t => -b * cos t - c * sin t, fun t => b * sin t - c * cos t, by simp, fun t _ => ⟨?_, ?_, ?_, ?_⟩⟩
  · have := (((hasDerivAt_cos t).const_mul b).const_add a).add ((hasDerivAt_sin t).const_mul c)
    exact this.congr_deriv (by ring)
  · have := ((hasDerivAt_sin t).const_mul (-b)).add ((hasDerivAt_cos t).const_mul c)
    exact this.congr_deriv (by ring)
  · have := ((hasDerivAt_cos t).const_mul (-b)).sub ((hasDerivAt_sin t).const_mul c)
    exact this.congr_deriv (by ring)
  · refine (abs_sub _ _).trans ?_
    rw [abs_mul, abs_mul]
    have h1 := mul_le_mul_of_nonneg_left (abs_sin_le_one t) (abs_nonneg b)
    have h2 := mul_le_mul_of_nonneg_left (abs_cos_le_one t) (abs_nonneg c)
    linarith

theorem comp_le (v : V3) (r : Fin 3) : |v r| ≤ vnorm v := by
  unfold vnorm
  apply Real.abs_le_sqrt
  unfold sqNorm dot
  have := mul_self_nonneg (v 0)
  have := mul_self_nonneg (v 1)
  have := mul_self_nonneg (v 2)
  fin_cases r <;> simp only [Fin.zero_eta, Fin.mk_one, Fin.reduceFinMk] <;> nlinarith

theorem vnorm_rotp (q : Quat) (hq : UnitQ q) (v : V3) : vnorm (q.rotp v) = vnorm v := by
  unfold vnorm sqNorm
  rw [dot_eq, dot_eq, dot_R q hq]

/-- The parts of a turn are no longer than the turned vector. -/
theorem turn_parts (v : V3) (i : Fin 3) : vnorm (v - v i • unit i) ≤ vnorm v ∧ vnorm (vprod (unit i) v) ≤ vnorm v := by
  unfold vnorm
  constructor <;> apply Real.sqrt_le_sqrt <;> unfold sqNorm dot <;> fin_cases i <;>
    simp [unit, vprod] <;> nlinarith [mul_self_nonneg (v 0), mul_self_nonneg (v 1), mul_self_nonneg (v 2)]

/-- C123: the Jacobians of `q.rotp(v)`, the tests of the header, for every unit quaternion, every vector and every step up to a millionth. -/
theorem C123_rotp (x : Quat) (hx : UnitQ x) (v : V3) (eps : ℝ) (he : 0 < eps) (h : eps ≤ 1e-6) (r i : Fin 3) :
    |computeJac quat.space (vec (Fin 3)) .left x (fun q => q.rotp v) eps r i - (x.R * skew v) r i| ≤ vnorm v * eps ^ 2 / 2 ∧
    |computeJac quat.space (vec (Fin 3)) .right x (fun q => q.rotp v) eps r i - skew (x.rotp v) r i| ≤ vnorm v * eps ^ 2 / 2 := by
  have hn := unit_inner i
  have hi : ∀ w : V3, inner (unit i) w = w i := by
    intro w
    rw [inner_at]
    fin_cases i <;> simp [unit]
  have hsk : ∀ w : V3, skew w r i = -vprod (unit i) w r := by
    intro w
    fin_cases i <;> fin_cases r <;> simp [skew, vprod, unit]
  have key : ∀ (side : Side) (X : V3 → ℝ) (w : V3) (d : ℝ), (∀ u, |X u| ≤ vnorm u) → (∀ (p q s : ℝ) (a b c : V3), X (p • a + q • b + s • c) = p * X a + q * X b + s * X c) →
      vnorm w = vnorm v → (∀ t, (turned side i x t).rotp v r = X (turn (unit i) (-t) w)) → d = -X (vprod (unit i) w) →
      |computeJac quat.space (vec (Fin 3)) side x (fun q => q.rotp v) eps r i - d| ≤ vnorm v * eps ^ 2 / 2 := by
    intro side X w d hX hlin hw ht hd
    have hb : |X (w - w i • unit i)| ≤ vnorm v := (hX _).trans ((turn_parts w i).1.trans hw.le)
    have hc : |d| ≤ vnorm v := by rw [hd, abs_neg]; exact (hX _).trans ((turn_parts w i).2.trans hw.le)
    have e : (fun t => (turned side i x t).rotp v r) = fun t => w i * X (unit i) + X (w - w i • unit i) * cos t + d * sin t := by
      funext t
      have e1 := hlin (cos t) (-sin t) ((1 - cos t) * w i) w (vprod (unit i) w) (unit i)
      have e2 := hlin 1 (-w i) 0 w (unit i) (unit i)
      rw [ht, hd]
      have e3 : w - w i • unit i = (1 : ℝ) • w + (-w i) • unit i + (0 : ℝ) • unit i := by rw [one_smul, neg_smul, zero_smul, add_zero, sub_eq_add_neg]
      rw [e3, e2]
      unfold turn
      rw [cos_neg, sin_neg, hi, e1]
      ring
    have hf := C123_quat_fun side x (fun q => q.rotp v) eps he h r i d _ (by rw [e]; exact trig_curve _ _ _ _)
    refine hf.trans ?_
    have p6 : eps ^ 6 ≤ eps ^ 2 * 1e-2 := by
      have h1 : eps ^ 4 ≤ (1e-6 : ℝ) ^ 4 := pow_le_pow_left₀ he.le h 4
      have h2 : eps ^ 2 * eps ^ 4 ≤ eps ^ 2 * 1e-2 := mul_le_mul_of_nonneg_left (h1.trans (by norm_num)) (by positivity)
      calc eps ^ 6 = eps ^ 2 * eps ^ 4 := by ring
        _ ≤ _ := h2
    have hv0 := Verif.Props.Quat.norm_nonneg v
    have e2 : 0 < eps ^ 2 := by positivity
    have q1 : eps ^ 6 * |d| ≤ eps ^ 2 * 1e-2 * vnorm v := mul_le_mul p6 hc (abs_nonneg _) (by positivity)
    have q2 : (|X (w - w i • unit i)| + |d|) * eps ^ 2 ≤ (2 * vnorm v) * eps ^ 2 := mul_le_mul_of_nonneg_right (by linarith) e2.le
    have q3 : 0 ≤ vnorm v * eps ^ 2 := by positivity
    norm_num at q1 ⊢
    nlinarith
  constructor
  · refine key .left (fun u => x.rotp u r) v _ (fun u => ?_) (fun p q s a b c => ?_) rfl (fun t => ?_) ?_
    · exact (comp_le _ r).trans (vnorm_rotp x hx u).le
    · simp only [rotp_eq, Matrix.mulVec_add, Matrix.mulVec_smul, Pi.add_apply, Pi.smul_apply, smul_eq_mul]
    · simp only [turned]
      rw [(C43_R_mul _ x (half_unit hn t) hx v).2.1, half_rotp hn]
    · rw [rotp_eq]
      simp only [Matrix.mul_apply, Matrix.mulVec, dotProduct, ← Finset.sum_neg_distrib]
      refine Finset.sum_congr rfl fun k _ => ?_
      have : skew v k i = -vprod (unit i) v k := by fin_cases i <;> fin_cases k <;> simp [skew, vprod, unit]
      rw [this]
      ring
  · refine key .right (fun u => u r) (x.rotp v) _ (fun u => comp_le u r) (fun p q s a b c => ?_) (vnorm_rotp x hx v) (fun t => ?_) (hsk _)
    · simp only [Pi.add_apply, Pi.smul_apply, smul_eq_mul]
    · simp only [turned]
      rw [(C43_R_mul x _ hx (half_unit hn t) v).2.1, half_rotp hn]

/-! ### Dual quaternions -/

theorem d_assoc (p q r : DQuat) : (p.otimes q).otimes r = p.otimes (q.otimes r) := by
  apply dext <;> ext <;> simp only [DQuat.otimes, Quat.otimes, Quat.add] <;> ring

theorem d_inv_mul (p q : DQuat) : (p.otimes q).inverse = q.inverse.otimes p.inverse := by
  apply dext <;> ext <;> simp only [DQuat.otimes, DQuat.inverse, Quat.otimes, Quat.inverse, Quat.add] <;> ring

theorem d_inv_inv (p : DQuat) : p.inverse.inverse = p := by apply dext <;> ext <;> simp [DQuat.inverse, Quat.inverse]

theorem d_cancel {p : DQuat} (hp : UnitD p) (q : DQuat) : p.otimes (p.inverse.otimes q) = q ∧ p.inverse.otimes (p.otimes q) = q := by
  have h := C46_group p p p hp hp
  rw [← d_assoc, ← d_assoc, h.2.2.2.2.2.2.1, h.2.2.2.2.2.2.2]
  constructor <;> apply dext <;> ext <;> simp [DQuat.otimes, DQuat.identity, Quat.otimes, Quat.identity, Quat.add]

theorem unitD_inv {p : DQuat} (hp : UnitD p) : UnitD p.inverse := (C46_group p p p hp hp).2.1

theorem dexp_neg (x : V6) : DQuat.exp ⟨-x.w, -x.v⟩ = (DQuat.exp x).inverse := by
  have h1 : sqNorm (-x.w) = sqNorm x.w := by simp only [sqNorm, dot, Pi.neg_apply]; ring
  have h2 : dot (-x.w) (-x.v) = dot x.w x.v := by simp only [dot, Pi.neg_apply]; ring
  unfold DQuat.exp
  simp only [h1, h2]
  apply dext <;> ext <;> simp only [DQuat.inverse, Quat.inverse, Pi.neg_apply] <;> ring

/-- The factor of the differences on dual quaternions for a rotation by `n`. -/
noncomputable def dfactor (n : ℝ) : ℝ :=
  let c := cos (n / 2)
  let s := 0.5 - 1 / 48 * (n * n) + 1 / 3840 * (n * n * (n * n))
  let r0 := c * c - s * s * (n * n)
  let t := 4 * (c * c * (s * s)) * (n * n)
  2 * (1 - 1 / (3 * (r0 * r0 * r0)) * t + 1 / (5 * (r0 * r0 * r0 * (r0 * r0))) * (t * t)) * c * s

theorem dfactor_zero : dfactor 0 = 1 := by
  unfold dfactor
  norm_num

theorem dfactor_bound {n : ℝ} (h0 : 0 < n) (h : n ≤ 1e-6) : 1 - n ^ 2 ≤ dfactor n ∧ dfactor n ≤ 1 := by
  have hx : 0 ≤ n / 2 := by positivity
  have hk := k2 hx
  unfold K2 at hk
  have hc1 : cos (n / 2) ≤ 1 := cos_le_one _
  unfold dfactor
  dsimp only
  have em : n * n = n ^ 2 := by ring
  rw [em]
  have hm : n ^ 2 ≤ 1e-12 := (pow_le_pow_left₀ h0.le h 2).trans (by norm_num)
  have hm0 : 0 < n ^ 2 := by positivity
  have hk' : 1 - n ^ 2 / 8 ≤ cos (n / 2) := by refine le_trans (le_of_eq ?_) hk; ring
  generalize cos (n / 2) = c at *
  generalize n ^ 2 = m at *
  clear hx hk em h0 h n
  norm_num at hm
  have hs1 : 0.5 - 1 / 48 * m + 1 / 3840 * (m * m) ≤ 0.5 := by norm_num; nlinarith
  have hs2 : 0.5 - m / 48 ≤ 0.5 - 1 / 48 * m + 1 / 3840 * (m * m) := by norm_num; nlinarith
  generalize 0.5 - 1 / 48 * m + 1 / 3840 * (m * m) = s at *
  norm_num at hs1 hs2
  have hs0 : 0.49 ≤ s := by norm_num; linarith
  have hc0 : 0.99 ≤ c := by norm_num; linarith
  norm_num at hs0 hc0
  have hcs1 : 2 * (c * s) ≤ 1 := by nlinarith
  have hcs2 : 1 - m / 3 ≤ 2 * (c * s) := by nlinarith
  have hcs0 : 0 < c * s := by positivity
  have ht1 : 4 * (c * c * (s * s)) * m ≤ m := by
    have : 4 * (c * c * (s * s)) ≤ 1 := by nlinarith
    nlinarith
  have ht0 : 0 ≤ 4 * (c * c * (s * s)) * m := by positivity
  generalize 4 * (c * c * (s * s)) * m = t at *
  have hr1 : 0.99 ≤ c * c - s * s * m := by norm_num; nlinarith
  have hr2 : c * c - s * s * m ≤ 1 := by nlinarith
  generalize c * c - s * s * m = r at *
  norm_num at hr1
  have r3 : 0.96 ≤ r * r * r := by
    have : (99 / 100 : ℝ) ^ 3 ≤ r ^ 3 := pow_le_pow_left₀ (by norm_num) hr1 3
    norm_num at this ⊢
    nlinarith
  have r5 : 0.9 ≤ r * r * r * (r * r) := by
    have : (99 / 100 : ℝ) ^ 5 ≤ r ^ 5 := pow_le_pow_left₀ (by norm_num) hr1 5
    norm_num at this ⊢
    nlinarith
  have r31 : r * r * r ≤ 1 := by
    have : r ^ 3 ≤ 1 ^ 3 := pow_le_pow_left₀ (by linarith) hr2 3
    nlinarith
  generalize r * r * r = u at *
  generalize u * (r * r) = w at *
  norm_num at r3 r5
  have hA1 : 1 / (3 * u) * t ≤ 0.36 * t := by
    refine mul_le_mul_of_nonneg_right ?_ ht0
    rw [div_le_iff₀ (by linarith)]
    norm_num
    linarith
  have hA2 : 1 / 3 * t ≤ 1 / (3 * u) * t := by
    refine mul_le_mul_of_nonneg_right ?_ ht0
    rw [div_le_div_iff₀ (by norm_num) (by linarith)]
    linarith
  have hB0 : 0 ≤ 1 / (5 * w) * (t * t) := mul_nonneg (div_nonneg zero_le_one (by linarith)) (mul_self_nonneg t)
  have hB1 : 1 / (5 * w) * (t * t) ≤ 0.3 * (t * t) := by
    refine mul_le_mul_of_nonneg_right ?_ (mul_self_nonneg t)
    rw [div_le_iff₀ (by linarith)]
    norm_num
    linarith
  generalize 1 / (3 * u) * t = A at *
  generalize 1 / (5 * w) * (t * t) = B at *
  norm_num at hA1 hB1
  have htt : t * t ≤ t * 1e-6 := by norm_num; nlinarith
  norm_num at htt
  have ha1 : 1 - A + B ≤ 1 := by nlinarith
  have ha2 : 1 - 0.4 * m ≤ 1 - A + B := by norm_num; nlinarith
  norm_num at ha2
  have e : 2 * (1 - A + B) * c * s = (1 - A + B) * (2 * (c * s)) := by ring
  rw [e]
  generalize 1 - A + B = a at *
  generalize 2 * (c * s) = b at *
  constructor <;> nlinarith

/-- The logarithm of the square of a small exponential without a screw part. -/
theorem dlog_sq (y : V6) (hg : dot y.w y.v = 0) (hn : vnorm y.w ≤ 1e-6) :
    ((DQuat.exp y).otimes (DQuat.exp y)).log = ⟨(2 * dfactor (vnorm y.w)) • y.w, (2 * dfactor (vnorm y.w)) • y.v⟩ := by
  have h0 := Verif.Props.Quat.norm_nonneg y.w
  have hsq : sqNorm y.w = vnorm y.w * vnorm y.w := (sqNorm_eq _)
  have hth : Real.sqrt (sqNorm y.w) = vnorm y.w := rfl
  have hmm : vnorm y.w * vnorm y.w ≤ 1e-12 := by
    have := mul_le_mul hn hn h0 (by norm_num)
    norm_num at this ⊢
    exact this
  have hle : ¬ (vnorm y.w * vnorm y.w > 4e-6) := by norm_num at hmm ⊢; linarith
  generalize hN : vnorm y.w = n at *
  have hs : ∀ ct, DQuat.expCoeffs (n * n) n ct = (0.5 - 1 / 48 * (n * n) + 1 / 3840 * (n * n * (n * n)), -1 / 24 + 1 / 960 * (n * n) - 1 / 107520 * (n * n * (n * n))) := by
    intro ct
    unfold DQuat.expCoeffs
    rw [if_neg hle]
  unfold dfactor
  dsimp only
  have hexp : DQuat.exp y = screwOf (cos (n / 2)) (0.5 - 1 / 48 * (n * n) + 1 / 3840 * (n * n * (n * n)))
      (-1 / 24 + 1 / 960 * (n * n) - 1 / 107520 * (n * n * (n * n))) y := by
    unfold DQuat.exp screwOf
    dsimp only
    rw [hth, hsq, hs]
  rw [hexp]
  have hc1 : cos (n / 2) ^ 2 ≤ 1 := by
    have := sin_sq_add_cos_sq (n / 2)
    nlinarith [sq_nonneg (sin (n / 2))]
  have hs1 : 0.5 - 1 / 48 * (n * n) + 1 / 3840 * (n * n * (n * n)) ≤ 0.5 := by norm_num at hmm ⊢; nlinarith [mul_self_nonneg n]
  have hs0 : 0 ≤ 0.5 - 1 / 48 * (n * n) + 1 / 3840 * (n * n * (n * n)) := by norm_num at hmm ⊢; nlinarith [mul_self_nonneg n]
  generalize 0.5 - 1 / 48 * (n * n) + 1 / 3840 * (n * n * (n * n)) = s at *
  generalize (-1 / 24 + 1 / 960 * (n * n) - 1 / 107520 * (n * n * (n * n)) : ℝ) = k at *
  generalize cos (n / 2) = c at *
  have hww : y.w 0 * y.w 0 + y.w 1 * y.w 1 + y.w 2 * y.w 2 = n * n := by rw [← hsq]; rfl
  have hwv : y.w 0 * y.v 0 + y.w 1 * y.v 1 + y.w 2 * y.v 2 = 0 := hg
  have hP : (screwOf c s k y).otimes (screwOf c s k y) = ⟨⟨c * c - s * s * (n * n), 2 * (c * s) * y.w 0, 2 * (c * s) * y.w 1, 2 * (c * s) * y.w 2⟩,
      ⟨0, 2 * (c * s) * y.v 0, 2 * (c * s) * y.v 1, 2 * (c * s) * y.v 2⟩⟩ := by
    unfold screwOf
    rw [hg]
    apply dext <;> ext <;> simp only [DQuat.otimes, Quat.otimes, Quat.add]
    · linear_combination (-s * s) * hww
    · ring
    · ring
    · ring
    · linear_combination (-2 * s * s) * hwv
    · ring
    · ring
    · ring
  rw [hP]
  unfold DQuat.log
  dsimp only
  have hb1 : Quat.bar ⟨c * c - s * s * (n * n), 2 * (c * s) * y.w 0, 2 * (c * s) * y.w 1, 2 * (c * s) * y.w 2⟩ = (2 * (c * s)) • y.w := by
    apply vec_ext <;> simp [Quat.bar]
  have hb2 : Quat.bar ⟨0, 2 * (c * s) * y.v 0, 2 * (c * s) * y.v 1, 2 * (c * s) * y.v 2⟩ = (2 * (c * s)) • y.v := by
    apply vec_ext <;> simp [Quat.bar]
  have hn2 : sqNorm ((2 * (c * s)) • y.w) = 4 * (c * c * (s * s)) * (n * n) := by
    simp only [sqNorm, dot, Pi.smul_apply, smul_eq_mul]
    linear_combination (4 * (c * c * (s * s))) * hww
  have hd2 : dot ((2 * (c * s)) • y.w) ((2 * (c * s)) • y.v) = 0 := by
    simp only [dot, Pi.smul_apply, smul_eq_mul]
    linear_combination (4 * (c * c * (s * s))) * hwv
  have hsmall : ¬ (4 * (c * c * (s * s)) * (n * n) > 1e-8) := by
    have h1 : c * c * (s * s) ≤ 1 * 0.25 := mul_le_mul (by nlinarith) (by norm_num at hs1 ⊢; nlinarith) (mul_self_nonneg s) (by norm_num)
    have h2 : 4 * (c * c * (s * s)) * (n * n) ≤ 1 * 1e-12 := mul_le_mul (by norm_num at h1 ⊢; linarith) hmm (mul_self_nonneg n) (by norm_num)
    norm_num at h2 ⊢
    linarith
  rw [hb1, hb2, hn2, hd2, if_neg hsmall]
  apply V6.ext
  · apply vec_ext <;> simp only [Pi.smul_apply, smul_eq_mul] <;> ring
  · apply vec_ext <;> simp only [Pi.smul_apply, Pi.add_apply, smul_eq_mul] <;> ring

/-- The columns of a Jacobian on dual quaternions: the rotations are scaled by `κ`, the translations are not. -/
def scaled (κ : ℝ) (A : M6) : M6 := Matrix.of fun r j => A r j * (match j with | .inl _ => κ | .inr _ => 1)

theorem dlog_conj {a : DQuat} (ha : UnitD a) (y : V6) (hg : dot y.w y.v = 0) (hn : vnorm y.w ≤ 1e-6) :
    (a.otimes ((DQuat.exp y).otimes ((DQuat.exp y).otimes a.inverse))).log =
      ⟨(2 * dfactor (vnorm y.w)) • (a.Ad.apply y).w, (2 * dfactor (vnorm y.w)) • (a.Ad.apply y).v⟩ := by
  have h1 := C47_Ad_exp_dquat a ha y
  have e : a.otimes ((DQuat.exp y).otimes ((DQuat.exp y).otimes a.inverse)) = (DQuat.exp (a.Ad.apply y)).otimes (DQuat.exp (a.Ad.apply y)) := by
    rw [← h1]
    simp only [d_assoc, (d_cancel ha _).2]
  have hw : vnorm (a.Ad.apply y).w = vnorm y.w := by
    rw [apply_Ad]
    unfold vnorm sqNorm
    rw [dot_eq, dot_eq, dot_Ra _ ha.1]
  have hg' : dot (a.Ad.apply y).w (a.Ad.apply y).v = 0 := by
    have h1 : dot (a.r.rota y.w) (a.r.rota y.v) = dot y.w y.v := by rw [dot_eq, dot_eq, dot_Ra _ ha.1]
    rw [apply_Ad, ← hg, ← h1]
    simp only [dot, Pi.add_apply, cross_0, cross_1, cross_2]
    ring
  rw [e, dlog_sq _ hg' (by rw [hw]; exact hn), hw]

theorem apply_unit (A : M6) (e : ℝ) (j r : Fin 3 ⊕ Fin 3) : of6 (A.apply (to6 (e • unit j))) r = e * A r j := by
  have h : ∀ (B C : M3) (i k : Fin 3), (B.mulVec (fun i' => e * unit i i') + C.mulVec (fun _ => 0)) k = e * B k i := by
    intro B C i k
    have h1 : (fun i' : Fin 3 => e * unit i i') = e • unit i := rfl
    have h2 : (fun _ : Fin 3 => (0 : ℝ)) = 0 := rfl
    rw [h1, h2, Matrix.mulVec_zero, add_zero, Matrix.mulVec_smul]
    unfold unit
    rw [Matrix.mulVec_single_one]
    rfl
  have hl : ∀ i : Fin 3, to6 (e • unit (.inl i)) = ⟨fun i' => e * unit i i', fun _ => 0⟩ := by
    intro i
    unfold to6 unit
    apply V6.ext <;> funext k <;> simp [Pi.single_apply]
  have hr : ∀ i : Fin 3, to6 (e • unit (.inr i)) = ⟨fun _ => 0, fun i' => e * unit i i'⟩ := by
    intro i
    unfold to6 unit
    apply V6.ext <;> funext k <;> simp [Pi.single_apply]
  rcases j with i | i
  · rw [hl]
    rcases r with k | k
    · exact h A.toBlocks₁₁ A.toBlocks₁₂ i k
    · exact h A.toBlocks₂₁ A.toBlocks₂₂ i k
  · rw [hr]
    rcases r with k | k
    · have := h A.toBlocks₁₂ A.toBlocks₁₁ i k
      rw [add_comm] at this
      exact this
    · have := h A.toBlocks₂₂ A.toBlocks₂₁ i k
      rw [add_comm] at this
      exact this

/-- C123 for dual quaternions: for `x ↦ a x b` the Jacobians are `Ad(a)` and `Ad(b)⁻¹`, for the inverse `-Ad(x⁻¹)` and `-Ad(x)`, where the columns of the
rotations are too small by a relative error of at most the square of the step and those of the translations are exact. -/
theorem C123_dquat (eps : ℝ) (he : 0 < eps) (h : eps ≤ 1e-6) : ∃ κ, 1 - eps ^ 2 ≤ κ ∧ κ ≤ 1 ∧ ∀ x a b : DQuat, UnitD x → UnitD a → UnitD b →
    computeJac dquat.space dquat.space .left x (fun x => (a.otimes x).otimes b) eps = scaled κ a.Ad ∧
    computeJac dquat.space dquat.space .right x (fun x => (a.otimes x).otimes b) eps = scaled κ b.inverse.Ad ∧
    computeJac dquat.space dquat.space .left x DQuat.inverse eps = -scaled κ x.inverse.Ad ∧
    computeJac dquat.space dquat.space .right x DQuat.inverse eps = -scaled κ x.Ad := by
  have hb := dfactor_bound he h
  refine ⟨dfactor eps, hb.1, hb.2, fun x a b hx ha hb => ?_⟩
  have hnrm : ∀ (e : ℝ) (i : Fin 3), |e| = eps → dot (to6 (e • unit (.inl i))).w (to6 (e • unit (.inl i))).v = 0 ∧ vnorm (to6 (e • unit (.inl i))).w = eps := by
    intro e i hee
    constructor
    · fin_cases i <;> simp [dot, to6, unit]
    · have : sqNorm (to6 (e • unit (.inl i))).w = eps ^ 2 := by
        rw [← hee, sq_abs]
        fin_cases i <;> simp [sqNorm, dot, to6, unit, pow_two]
      unfold vnorm
      rw [this, Real.sqrt_sq he.le]
  have hnrm2 : ∀ (e : ℝ) (i : Fin 3), dot (to6 (e • unit (.inr i))).w (to6 (e • unit (.inr i))).v = 0 ∧ vnorm (to6 (e • unit (.inr i))).w = 0 := by
    intro e i
    constructor
    · fin_cases i <;> simp [dot, to6, unit]
    · fin_cases i <;> simp [vnorm, sqNorm, dot, to6, unit]
  have L : ∀ {a : DQuat}, UnitD a → ∀ (σ : ℝ), |σ| = 1 → ∀ r j : Fin 3 ⊕ Fin 3,
      of6 (a.otimes ((DQuat.exp (to6 ((σ * eps) • unit j))).otimes ((DQuat.exp (to6 ((σ * eps) • unit j))).otimes a.inverse))).log r / (2 * eps)
        = σ * scaled (dfactor eps) a.Ad r j := by
    intro a ha σ hσ r j
    have hse : |σ * eps| = eps := by rw [abs_mul, hσ, one_mul, abs_of_pos he]
    have hof : ∀ (k : ℝ) (y : V6), of6 ⟨k • y.w, k • y.v⟩ r = k * of6 y r := by
      intro k y
      rcases r with r | r <;> rfl
    rcases j with i | i
    · rw [dlog_conj ha _ (hnrm _ i hse).1 (by rw [(hnrm _ i hse).2]; exact h), (hnrm _ i hse).2, hof, apply_unit]
      simp only [scaled, Matrix.of_apply]
      field_simp
    · rw [dlog_conj ha _ (hnrm2 _ i).1 (by rw [(hnrm2 _ i).2]; norm_num), (hnrm2 _ i).2, hof, apply_unit, dfactor_zero]
      simp only [scaled, Matrix.of_apply]
      field_simp
  have hneg : ∀ j : Fin 3 ⊕ Fin 3, DQuat.exp (to6 (eps • -unit j)) = (DQuat.exp (to6 (eps • unit j))).inverse := by
    intro j
    rw [← dexp_neg]
    congr 1
    apply V6.ext <;> funext k <;> simp [to6]
  have L1 := fun {a : DQuat} (ha : UnitD a) r j => L ha 1 (by norm_num) r j
  have L2 := fun {a : DQuat} (ha : UnitD a) r j => L ha (-1) (by norm_num) r j
  have e2 : ∀ j : Fin 3 ⊕ Fin 3, (-eps) • unit j = eps • -unit j := by intro j; rw [smul_neg, neg_smul]
  simp only [one_mul] at L1
  simp only [neg_one_mul, e2, hneg] at L2
  refine ⟨?_, ?_, ?_, ?_⟩ <;> ext r i <;>
    simp only [computeJac, Matrix.of_apply, Grp.space, dquat, Matrix.neg_apply, hneg]
  · rw [← L1 ha]
    simp only [d_assoc, d_inv_mul, d_inv_inv, (d_cancel hx _).1, (d_cancel hb _).1]
  · rw [← L1 (unitD_inv hb)]
    simp only [d_assoc, d_inv_mul, d_inv_inv, (d_cancel hx _).2, (d_cancel ha _).2]
  · rw [← L2 (unitD_inv hx)]
    simp only [d_assoc, d_inv_mul, d_inv_inv]
  · rw [← L2 hx]
    simp only [d_assoc, d_inv_mul, d_inv_inv]

/-- C123: the six older functions are `compute_jac` with its default step. -/
theorem C123_older {P Q ι κ : Type} [DecidableEq ι] (G : Grp P ι) (H : Grp Q κ) (x : P) (f : P → Q) (g : P → κ → ℝ) (y : ι → ℝ) (k : (ι → ℝ) → Q) :
    leftJac G H x f = computeJac G.space H.space .left x f 1e-8 ∧ rightJac G H x f = computeJac G.space H.space .right x f 1e-8 ∧
    leftJac2 G x g = computeJac G.space (vec κ) .left x g 1e-8 ∧ rightJac2 G x g = computeJac G.space (vec κ) .right x g 1e-8 ∧
    leftJac3 H y k = computeJac (vec ι) H.space .left y k 1e-8 ∧ rightJac3 H y k = computeJac (vec ι) H.space .right y k 1e-8 := by
  refine ⟨rfl, rfl, rfl, rfl, ?_, ?_⟩ <;> ext r i <;>
    simp only [leftJac3, rightJac3, computeJac, Matrix.of_apply, Grp.space, vec, smul_neg, ← sub_eq_add_neg]

/-- Dual quaternions that turn and translate. -/
example : UnitD ⟨⟨3/5, 0, 4/5, 0⟩, ⟨4, 1, -3, 2⟩⟩ ∧ UnitD ⟨⟨0, 3/5, 0, -4/5⟩, ⟨1, 4, 2, 3⟩⟩ := by norm_num [UnitD, UnitQ]

end Verif.Props.NumJac
