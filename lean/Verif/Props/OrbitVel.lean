import Verif.Props.Kepler
import Mathlib.Analysis.Calculus.Deriv.Inverse
import Mathlib.Analysis.SpecialFunctions.Trigonometric.Deriv
import Mathlib.Analysis.SpecialFunctions.Complex.Arg
import Mathlib.Analysis.Real.Pi.Bounds

/-!
C90, C91, C92: position, velocity and clock of a satellite on a broadcast Keplerian orbit
(`common/satellite/satellite_state.cxx` 12-106).
-/

namespace Verif.Props.OrbitVel

open Verif.Model.Lie Verif.Model.Ekf Verif.Model.Orbit Verif.Props.Kepler

/-- A vector valued curve has the derivative `d` at `t`. -/
def VDeriv (f : ℝ → V3) (d : V3) (t : ℝ) : Prop := ∀ i, HasDerivAt (fun s => f s i) (d i) t

/-! ### The eccentric anomaly as a function of time -/

/-- The solution of Kepler's equation depends on the mean anomaly with slope at most `1 / (1 - e)`. -/
theorem kepler_lip {e M N E F : ℝ} (h0 : 0 ≤ e) (h1 : e < 1) (hE : KeplerEq e M E) (hF : KeplerEq e N F) :
    |E - F| ≤ |M - N| / (1 - e) := by
  unfold KeplerEq at *
  have hs : |Real.sin E - Real.sin F| ≤ |E - F| := by
    rw [Real.sin_sub_sin E F, abs_mul, abs_mul, abs_two]
    have h2 : |Real.sin ((E - F) / 2)| ≤ |(E - F) / 2| := Real.abs_sin_le_abs
    have h3 := Real.abs_cos_le_one ((E + F) / 2)
    have h4 : |(E - F) / 2| = |E - F| / 2 := by rw [abs_div, abs_two]
    nlinarith [abs_nonneg (Real.sin ((E - F) / 2)), abs_nonneg (Real.cos ((E + F) / 2))]
  have hd : E - F = (M - N) + e * (Real.sin E - Real.sin F) := by rw [← hE, ← hF]; ring
  have : |E - F| ≤ |M - N| + e * |E - F| := by
    calc |E - F| = |(M - N) + e * (Real.sin E - Real.sin F)| := by rw [← hd]
      _ ≤ |M - N| + |e * (Real.sin E - Real.sin F)| := abs_add_le _ _
      _ = |M - N| + e * |Real.sin E - Real.sin F| := by rw [abs_mul, abs_of_nonneg h0]
      _ ≤ _ := by nlinarith
  rw [le_div_iff₀ (by linarith)]
  nlinarith

/-- The inverse function of Kepler's equation is differentiable. -/
theorem kepler_inv_deriv {e : ℝ} (h0 : 0 ≤ e) (h1 : e < 1) (K : ℝ → ℝ) (hK : ∀ M, KeplerEq e M (K M)) (M : ℝ) :
    HasDerivAt K (1 - e * Real.cos (K M))⁻¹ M := by
  have hc : ContinuousAt K M := by
    rw [Metric.continuousAt_iff]
    intro ε hε
    refine ⟨ε * (1 - e), by nlinarith, fun {x} hx => ?_⟩
    rw [Real.dist_eq] at *
    have h := kepler_lip h0 h1 (hK x) (hK M)
    refine h.trans_lt ?_
    rw [div_lt_iff₀ (by linarith)]
    exact hx
  have hD : (1 - e * Real.cos (K M)) ≠ 0 := by
    have := Real.cos_le_one (K M)
    have := Real.neg_one_le_cos (K M)
    nlinarith
  have hf : HasDerivAt (fun x : ℝ => x - e * Real.sin x) (1 - e * Real.cos (K M)) (K M) :=
    (hasDerivAt_id _).sub ((Real.hasDerivAt_sin _).const_mul e)
  exact HasDerivAt.of_local_left_inverse hc hf hD (Filter.Eventually.of_forall hK)

/-- The curve of the eccentric anomaly. -/
def Anomaly (k : Kepler) (E : ℝ → ℝ) : Prop := ∀ t, KeplerEq k.ecc (k.mk' t) (E t)

theorem den_pos {k : Kepler} (h0 : 0 ≤ k.ecc) (h1 : k.ecc < 1) (x : ℝ) : 0 < 1 - k.ecc * Real.cos x := by
  have := Real.cos_le_one x
  have := Real.neg_one_le_cos x
  nlinarith

/-- `ekdot` is the rate of the eccentric anomaly. -/
theorem anomaly_deriv {k : Kepler} (h0 : 0 ≤ k.ecc) (h1 : k.ecc < 1) {E : ℝ → ℝ} (hE : Anomaly k E) (t : ℝ) :
    HasDerivAt E (k.ekdot (E t)) t := by
  choose K hK _ using fun M => (C89_unique k.ecc M h0 h1)
  have hEK : E = fun t => K (k.mk' t) := by
    funext s; exact kepler_inj h0 h1 (hE s) (hK _)
  have hm : HasDerivAt (fun t => k.mk' t) k.mkdot t := by
    have := ((hasDerivAt_id t).const_mul k.mkdot).const_add k.m0
    simpa [Kepler.mk'] using this
  have hd := (kepler_inv_deriv h0 h1 K hK (k.mk' t)).comp t hm
  have ht : E t = K (k.mk' t) := congrFun hEK t
  rw [hEK]
  refine hd.congr_deriv ?_
  simp only [Kepler.ekdot]
  rw [div_eq_mul_inv, mul_comm]

/-! ### Angles -/

/-- The angle `θ` turns at the rate `ω` at the time `t`; jumps of whole turns do not count. -/
def Rate (θ : ℝ → ℝ) (ω t : ℝ) : Prop :=
  HasDerivAt (fun s => Real.cos (θ s)) (-Real.sin (θ t) * ω) t ∧
  HasDerivAt (fun s => Real.sin (θ s)) (Real.cos (θ t) * ω) t

theorem Rate.of_deriv {θ : ℝ → ℝ} {ω t : ℝ} (h : HasDerivAt θ ω t) : Rate θ ω t := ⟨h.cos, h.sin⟩

theorem Rate.add {θ φ : ℝ → ℝ} {a b t : ℝ} (h : Rate θ a t) (g : Rate φ b t) : Rate (fun s => θ s + φ s) (a + b) t := by
  constructor
  · have := (h.1.mul g.1).sub (h.2.mul g.2)
    simp only [Real.cos_add, Real.sin_add]
    refine this.congr_deriv ?_
    ring
  · have := (h.2.mul g.1).add (h.1.mul g.2)
    simp only [Real.cos_add, Real.sin_add]
    refine this.congr_deriv ?_
    ring

theorem Rate.two {θ : ℝ → ℝ} {a t : ℝ} (h : Rate θ a t) : Rate (fun s => 2 * θ s) (2 * a) t := by
  have := h.add h
  simpa only [← two_mul] using this

/-! ### The true anomaly -/

theorem tak_norm {k : Kepler} (h0 : 0 ≤ k.ecc) (h1 : k.ecc < 1) (x : ℝ) :
    ‖(⟨Real.cos x - k.ecc, Real.sqrt (1 - k.ecc * k.ecc) * Real.sin x⟩ : ℂ)‖ = 1 - k.ecc * Real.cos x := by
  have hp := (den_pos h0 h1 x).le
  rw [Complex.norm_def, Complex.normSq_mk]
  rw [Real.sqrt_eq_iff_mul_self_eq (add_nonneg (mul_self_nonneg _) (mul_self_nonneg _)) hp]
  have hq : Real.sqrt (1 - k.ecc * k.ecc) * Real.sqrt (1 - k.ecc * k.ecc) = 1 - k.ecc * k.ecc :=
    Real.mul_self_sqrt (by nlinarith)
  have hs := Real.sin_sq_add_cos_sq x
  linear_combination (Real.sin x * Real.sin x) * hq + (1 - k.ecc ^ 2) * hs

/-- The true anomaly in terms of the eccentric one. -/
theorem cos_tak {k : Kepler} (h0 : 0 ≤ k.ecc) (h1 : k.ecc < 1) (x : ℝ) :
    Real.cos (k.tak x) = (Real.cos x - k.ecc) / (1 - k.ecc * Real.cos x) := by
  have hn := tak_norm h0 h1 x
  have hz : (⟨Real.cos x - k.ecc, Real.sqrt (1 - k.ecc * k.ecc) * Real.sin x⟩ : ℂ) ≠ 0 := by
    rw [← norm_pos_iff, hn]; exact den_pos h0 h1 x
  unfold Kepler.tak atan2
  rw [Complex.cos_arg hz, hn]

theorem sin_tak {k : Kepler} (h0 : 0 ≤ k.ecc) (h1 : k.ecc < 1) (x : ℝ) :
    Real.sin (k.tak x) = Real.sqrt (1 - k.ecc * k.ecc) * Real.sin x / (1 - k.ecc * Real.cos x) := by
  unfold Kepler.tak atan2
  rw [Complex.sin_arg, tak_norm h0 h1 x]

theorem root_pos {k : Kepler} (h0 : 0 ≤ k.ecc) (h1 : k.ecc < 1) : 0 < Real.sqrt (1 - k.ecc * k.ecc) :=
  Real.sqrt_pos.mpr (by nlinarith)

/-- Where the code divides by zero: on the line of apsides. -/
theorem sin_tak_zero {k : Kepler} (h0 : 0 ≤ k.ecc) (h1 : k.ecc < 1) (x : ℝ) :
    Real.sin (k.tak x) = 0 ↔ Real.sin x = 0 := by
  rw [sin_tak h0 h1, div_eq_zero_iff, mul_eq_zero]
  have := (root_pos h0 h1).ne'
  have := (den_pos h0 h1 x).ne'
  tauto

/-- The quotient of the code, where it is defined. -/
theorem takdot_eq {k : Kepler} (h0 : 0 ≤ k.ecc) (h1 : k.ecc < 1) {x : ℝ} (hx : Real.sin x ≠ 0) :
    k.takdot x = k.ekdot x * Real.sqrt (1 - k.ecc * k.ecc) / (1 - k.ecc * Real.cos x) := by
  have hD := (den_pos h0 h1 x).ne'
  have hr := (root_pos h0 h1).ne'
  have hq : Real.sqrt (1 - k.ecc * k.ecc) * Real.sqrt (1 - k.ecc * k.ecc) = 1 - k.ecc * k.ecc :=
    Real.mul_self_sqrt (by nlinarith)
  unfold Kepler.takdot
  rw [cos_tak h0 h1, sin_tak h0 h1]
  generalize Real.sqrt (1 - k.ecc * k.ecc) = r at *
  generalize Real.cos x = c at *
  generalize Real.sin x = s at *
  field_simp
  linear_combination (-k.ekdot x) * hq

/-- `takdot` is the rate of the true anomaly. -/
theorem tak_rate {k : Kepler} (h0 : 0 ≤ k.ecc) (h1 : k.ecc < 1) {E : ℝ → ℝ} (hE : Anomaly k E) {t : ℝ}
    (hs : Real.sin (E t) ≠ 0) : Rate (fun s => k.tak (E s)) (k.takdot (E t)) t := by
  have hd := anomaly_deriv h0 h1 hE t
  have hD := (den_pos h0 h1 (E t)).ne'
  have hq : Real.sqrt (1 - k.ecc * k.ecc) * Real.sqrt (1 - k.ecc * k.ecc) = 1 - k.ecc * k.ecc :=
    Real.mul_self_sqrt (by nlinarith)
  have hsc := Real.sin_sq_add_cos_sq (E t)
  have hden : HasDerivAt (fun s => 1 - k.ecc * Real.cos (E s)) (-(k.ecc * (-Real.sin (E t) * k.ekdot (E t)))) t :=
    (hd.cos.const_mul k.ecc).const_sub 1
  constructor
  · simp only [cos_tak h0 h1, sin_tak h0 h1]
    refine ((hd.cos.sub_const k.ecc).div hden hD).congr_deriv ?_
    rw [takdot_eq h0 h1 hs]
    generalize Real.sqrt (1 - k.ecc * k.ecc) = r at *
    generalize Real.cos (E t) = c at *
    generalize Real.sin (E t) = s at *
    generalize k.ekdot (E t) = ed at *
    field_simp
    linear_combination ed * hq
  · simp only [cos_tak h0 h1, sin_tak h0 h1]
    refine ((hd.sin.const_mul (Real.sqrt (1 - k.ecc * k.ecc))).div hden hD).congr_deriv ?_
    rw [takdot_eq h0 h1 hs]
    generalize Real.sqrt (1 - k.ecc * k.ecc) = r at *
    generalize Real.cos (E t) = c at *
    generalize Real.sin (E t) = s at *
    generalize k.ekdot (E t) = ed at *
    field_simp
    linear_combination (-(k.ecc * r * ed) * ((1 - k.ecc * c) ^ 2)⁻¹) * hsc

/-! ### Position and velocity -/

theorem phik_rate {k : Kepler} (h0 : 0 ≤ k.ecc) (h1 : k.ecc < 1) {E : ℝ → ℝ} (hE : Anomaly k E) {t : ℝ}
    (hs : Real.sin (E t) ≠ 0) : Rate (fun s => k.phik (E s)) (k.takdot (E t)) t := by
  have := (tak_rate h0 h1 hE hs).add (Rate.of_deriv (hasDerivAt_const t k.w))
  simpa only [add_zero, Kepler.phik] using this

/-- A second harmonic correction. -/
theorem corr_deriv {φ : ℝ → ℝ} {ω t : ℝ} (h : Rate φ ω t) (a b : ℝ) :
    HasDerivAt (fun s => a * Real.sin (2 * φ s) + b * Real.cos (2 * φ s))
      (2 * (a * Real.cos (2 * φ t) - b * Real.sin (2 * φ t)) * ω) t :=
  ((h.two.2.const_mul a).add (h.two.1.const_mul b)).congr_deriv (by ring)

/-- The derivative of the position of the code is the velocity formula of the code with the second harmonics taken at
the uncorrected argument of latitude `phik`. -/
theorem C90_true_velocity (k : Kepler) (h0 : 0 ≤ k.ecc) (h1 : k.ecc < 1) (E : ℝ → ℝ) (hE : Anomaly k E) (t : ℝ)
    (hs : Real.sin (E t) ≠ 0) : VDeriv (fun s => k.pos s (E s))
      (k.velWith t (E t) (Real.cos (2 * k.phik (E t))) (Real.sin (2 * k.phik (E t)))) t := by
  have hphi := phik_rate h0 h1 hE hs
  have hd := anomaly_deriv h0 h1 hE t
  have hcu := corr_deriv hphi k.cus k.cuc
  have hcr := corr_deriv hphi k.crs k.crc
  have hci := corr_deriv hphi k.cis k.cic
  have hu := hphi.add (Rate.of_deriv hcu)
  have hr := (((hd.cos.const_mul k.ecc).const_sub 1).const_mul k.A).add hcr
  have hi := Rate.of_deriv ((((hasDerivAt_id t).const_mul k.idot).const_add k.i0).add hci)
  have ho : Rate (fun s => k.omegak s) k.omegakdot t := by
    refine Rate.of_deriv ?_
    have := ((((hasDerivAt_id t).const_mul (k.omegadot - omegaEarth)).const_add k.omega0).sub_const
      (omegaEarth * k.toes))
    simpa [Kepler.omegak, Kepler.omegakdot] using this
  have hx := hr.mul hu.1
  have hy := hr.mul hu.2
  intro i
  fin_cases i
  · refine ((hx.mul ho.1).sub ((hy.mul ho.2).mul hi.1)).congr_deriv ?_
    simp only [Kepler.velWith, Kepler.xpk, Kepler.ypk, Kepler.rk, Kepler.uk, Kepler.ik, Kepler.corrU, Kepler.corrR,
      Kepler.corrI, Kepler.ekdot, Pi.mul_apply, Pi.add_apply, id]
    simp only [Fin.zero_eta, Matrix.cons_val_zero]
    ring
  · refine ((hx.mul ho.2).add ((hy.mul ho.1).mul hi.1)).congr_deriv ?_
    simp only [Kepler.velWith, Kepler.xpk, Kepler.ypk, Kepler.rk, Kepler.uk, Kepler.ik, Kepler.corrU, Kepler.corrR,
      Kepler.corrI, Kepler.ekdot, Pi.mul_apply, Pi.add_apply, id]
    simp only [Fin.mk_one, Matrix.cons_val_one, Matrix.cons_val_zero]
    ring
  · refine (hy.mul hi.2).congr_deriv ?_
    simp only [Kepler.velWith, Kepler.xpk, Kepler.ypk, Kepler.rk, Kepler.uk, Kepler.ik, Kepler.corrU, Kepler.corrR,
      Kepler.corrI, Kepler.ekdot, Pi.mul_apply, Pi.add_apply, id]
    simp only [Fin.reduceFinMk, Matrix.cons_val]
    ring

/-- Without corrections of the argument of latitude the velocity of the code is the derivative of its position. -/
theorem C90_velocity_partial (k : Kepler) (h0 : 0 ≤ k.ecc) (h1 : k.ecc < 1) (hcus : k.cus = 0) (hcuc : k.cuc = 0)
    (E : ℝ → ℝ) (hE : Anomaly k E) (t : ℝ) (hs : Real.sin (E t) ≠ 0) :
    VDeriv (fun s => k.pos s (E s)) (k.vel t (E t)) t := by
  have hu : k.uk (E t) = k.phik (E t) := by simp [Kepler.uk, Kepler.corrU, hcus, hcuc]
  have := C90_true_velocity k h0 h1 E hE t hs
  unfold Kepler.vel
  rw [hu]
  exact this

theorem cos_lip (a b : ℝ) : |Real.cos a - Real.cos b| ≤ |a - b| := by
  rw [Real.cos_sub_cos a b, abs_mul, abs_mul, abs_neg, abs_two]
  have h2 : |Real.sin ((a - b) / 2)| ≤ |(a - b) / 2| := Real.abs_sin_le_abs
  have h3 := Real.abs_sin_le_one ((a + b) / 2)
  have h4 : |(a - b) / 2| = |a - b| / 2 := by rw [abs_div, abs_two]
  nlinarith [abs_nonneg (Real.sin ((a - b) / 2)), abs_nonneg (Real.sin ((a + b) / 2))]

theorem sin_lip (a b : ℝ) : |Real.sin a - Real.sin b| ≤ |a - b| := by
  rw [Real.sin_sub_sin a b, abs_mul, abs_mul, abs_two]
  have h2 : |Real.sin ((a - b) / 2)| ≤ |(a - b) / 2| := Real.abs_sin_le_abs
  have h3 := Real.abs_cos_le_one ((a + b) / 2)
  have h4 : |(a - b) / 2| = |a - b| / 2 := by rw [abs_div, abs_two]
  nlinarith [abs_nonneg (Real.sin ((a - b) / 2)), abs_nonneg (Real.cos ((a + b) / 2))]

theorem lin_bound {a b x y d : ℝ} (hx : |x| ≤ d) (hy : |y| ≤ d) : |a * x - b * y| ≤ (|a| + |b|) * d := by
  refine (abs_sub _ _).trans ?_
  rw [abs_mul, abs_mul]
  nlinarith [abs_nonneg a, abs_nonneg b]

theorem trig_mul {a b : ℝ} (hb : |b| ≤ 1) : |a * b| ≤ |a| := by
  rw [abs_mul]; exact mul_le_of_le_one_right (abs_nonneg _) hb

/-- The velocity formula depends on the second harmonics in a bounded way. -/
theorem velWith_diff (k : Kepler) (t x c s c' s' d : ℝ) (hc : |c - c'| ≤ d) (hs : |s - s'| ≤ d) (i : Fin 3) :
    |k.velWith t x c s i - k.velWith t x c' s' i| ≤
      2 * |k.takdot x| * d * (2 * (|k.crs| + |k.crc|)
        + |k.rk x| * (2 * (|k.cus| + |k.cuc|) + (|k.cis| + |k.cic|))) := by
  have hd : 0 ≤ d := (abs_nonneg _).trans hc
  set T := |k.takdot x|
  set R := |k.rk x|
  have hT : 0 ≤ T := abs_nonneg _
  have hR : 0 ≤ R := abs_nonneg _
  have bu := lin_bound (a := k.cus) (b := k.cuc) hc hs
  have br := lin_bound (a := k.crs) (b := k.crc) hc hs
  have bi := lin_bound (a := k.cis) (b := k.cic) hc hs
  set u := k.cus * (c - c') - k.cuc * (s - s')
  set r := k.crs * (c - c') - k.crc * (s - s')
  set j := k.cis * (c - c') - k.cic * (s - s')
  have cu := Real.abs_cos_le_one (k.uk x)
  have su := Real.abs_sin_le_one (k.uk x)
  have ci := Real.abs_cos_le_one (k.ik t x)
  have si := Real.abs_sin_le_one (k.ik t x)
  have cw := Real.abs_cos_le_one (k.omegak t)
  have sw := Real.abs_sin_le_one (k.omegak t)
  -- the differences of the planar velocities and of the turn of the plane
  have hX : |2 * k.takdot x * (r * Real.cos (k.uk x) - k.rk x * Real.sin (k.uk x) * u)| ≤ 2 * T * (|r| + R * |u|) := by
    rw [abs_mul, abs_mul, abs_two]
    refine mul_le_mul_of_nonneg_left ((abs_sub _ _).trans ?_) (by positivity)
    refine add_le_add (trig_mul cu) ?_
    rw [abs_mul]
    exact mul_le_mul_of_nonneg_right (trig_mul su) (abs_nonneg _)
  have hY : |2 * k.takdot x * (r * Real.sin (k.uk x) + k.rk x * Real.cos (k.uk x) * u)| ≤ 2 * T * (|r| + R * |u|) := by
    rw [abs_mul, abs_mul, abs_two]
    refine mul_le_mul_of_nonneg_left ((abs_add_le _ _).trans ?_) (by positivity)
    refine add_le_add (trig_mul su) ?_
    rw [abs_mul]
    exact mul_le_mul_of_nonneg_right (trig_mul cu) (abs_nonneg _)
  have hJ : |2 * k.takdot x * (k.rk x * Real.sin (k.uk x) * j)| ≤ 2 * T * (R * |j|) := by
    rw [abs_mul, abs_mul, abs_two]
    refine mul_le_mul_of_nonneg_left ?_ (by positivity)
    rw [abs_mul]
    exact mul_le_mul_of_nonneg_right (trig_mul su) (abs_nonneg _)
  set X := 2 * k.takdot x * (r * Real.cos (k.uk x) - k.rk x * Real.sin (k.uk x) * u) with hXd
  set Y := 2 * k.takdot x * (r * Real.sin (k.uk x) + k.rk x * Real.cos (k.uk x) * u) with hYd
  set J := 2 * k.takdot x * (k.rk x * Real.sin (k.uk x) * j) with hJd
  have hbound : |X| + |Y| + |J| ≤ 2 * T * d * (2 * (|k.crs| + |k.crc|)
        + R * (2 * (|k.cus| + |k.cuc|) + (|k.cis| + |k.cic|))) := by
    have e1 : |X| + |Y| + |J| ≤ 2 * T * (2 * |r| + R * (2 * |u| + |j|)) := by linarith
    refine e1.trans ?_
    have e2 : 2 * |r| + R * (2 * |u| + |j|) ≤ d * (2 * (|k.crs| + |k.crc|)
        + R * (2 * (|k.cus| + |k.cuc|) + (|k.cis| + |k.cic|))) := by
      have := mul_le_mul_of_nonneg_left bu hR
      have := mul_le_mul_of_nonneg_left bi hR
      nlinarith
    have := mul_le_mul_of_nonneg_left e2 (show 0 ≤ 2 * T by positivity)
    linarith
  refine le_trans ?_ hbound
  fin_cases i
  · have : k.velWith t x c s 0 - k.velWith t x c' s' 0
        = X * Real.cos (k.omegak t) - (Y * Real.cos (k.ik t x)) * Real.sin (k.omegak t)
          + (J * Real.sin (k.ik t x)) * Real.sin (k.omegak t) := by
      simp only [Kepler.velWith, Kepler.xpk, Kepler.ypk, hXd, hYd, hJd, Matrix.cons_val_zero]
      simp only [u, r, j]
      ring
    simp only [Fin.zero_eta, this]
    refine (abs_add_le _ _).trans (add_le_add ((abs_sub _ _).trans (add_le_add (trig_mul cw) ?_)) ?_)
    · exact (trig_mul sw).trans (trig_mul ci)
    · exact (trig_mul sw).trans (trig_mul si)
  · have : k.velWith t x c s 1 - k.velWith t x c' s' 1
        = X * Real.sin (k.omegak t) + (Y * Real.cos (k.ik t x)) * Real.cos (k.omegak t)
          - (J * Real.sin (k.ik t x)) * Real.cos (k.omegak t) := by
      simp only [Kepler.velWith, Kepler.xpk, Kepler.ypk, hXd, hYd, hJd, Matrix.cons_val_one, Matrix.cons_val_zero]
      simp only [u, r, j]
      ring
    simp only [Fin.mk_one, this]
    refine (abs_sub _ _).trans (add_le_add ((abs_add_le _ _).trans (add_le_add (trig_mul sw) ?_)) ?_)
    · exact (trig_mul cw).trans (trig_mul ci)
    · exact (trig_mul cw).trans (trig_mul si)
  · have : k.velWith t x c s 2 - k.velWith t x c' s' 2
        = Y * Real.sin (k.ik t x) + J * Real.cos (k.ik t x) := by
      simp only [Kepler.velWith, Kepler.xpk, Kepler.ypk, hXd, hYd, hJd, Matrix.cons_val]
      simp only [u, r, j]
      ring
    simp only [Fin.reduceFinMk, this]
    have := abs_nonneg X
    refine (abs_add_le _ _).trans ?_
    linarith [trig_mul (a := Y) si, trig_mul (a := J) ci]

/-- In general the velocity of the code differs from the derivative of its position by no more than this: the product
of the correction of the argument of latitude and the rates of the second harmonics. -/
theorem C90_error_partial (k : Kepler) (h0 : 0 ≤ k.ecc) (h1 : k.ecc < 1) (E : ℝ → ℝ) (hE : Anomaly k E) (t : ℝ)
    (hs : Real.sin (E t) ≠ 0) : ∃ v, VDeriv (fun s => k.pos s (E s)) v t ∧ ∀ i,
      |k.vel t (E t) i - v i| ≤ 4 * |k.takdot (E t)| * |k.corrU (E t)| * (2 * (|k.crs| + |k.crc|)
        + |k.rk (E t)| * (2 * (|k.cus| + |k.cuc|) + (|k.cis| + |k.cic|))) := by
  refine ⟨_, C90_true_velocity k h0 h1 E hE t hs, fun i => ?_⟩
  have hu : |2 * k.uk (E t) - 2 * k.phik (E t)| = 2 * |k.corrU (E t)| := by
    rw [show 2 * k.uk (E t) - 2 * k.phik (E t) = 2 * k.corrU (E t) by simp only [Kepler.uk]; ring, abs_mul, abs_two]
  have hc := (cos_lip (2 * k.uk (E t)) (2 * k.phik (E t))).trans_eq hu
  have hs' := (sin_lip (2 * k.uk (E t)) (2 * k.phik (E t))).trans_eq hu
  refine (velWith_diff k t (E t) _ _ _ _ _ hc hs' i).trans_eq ?_
  ring

/-- The claim: the velocity is the derivative of the position, for every eccentricity a message can carry. -/
def C90_statement : Prop := ∀ k : Kepler, 0 ≤ k.ecc → k.ecc ≤ 1 / 2 → ∀ E, Anomaly k E → ∀ t,
  Real.sin (E t) ≠ 0 → VDeriv (fun s => k.pos s (E s)) (k.vel t (E t)) t

/-- A circular orbit of unit radius and rate in the plane of the equator, with a correction of the argument of
latitude. -/
noncomputable def ring1 : Kepler :=
  { sqrta := 1, ecc := 0, m0 := Real.pi / 2, deltaN := 1 - Real.sqrt gm, w := 0, i0 := 0, idot := 0, omega0 := 0,
    omegadot := omegaEarth, cus := 0, cuc := 1 / 2, crs := 0, crc := 0, cis := 0, cic := 0, af0 := 0, af1 := 0,
    af2 := 0, toes := 0, toeToc := 0 }

theorem ring1_mk (t : ℝ) : ring1.mk' t = Real.pi / 2 + t := by
  simp [ring1, Kepler.mk', Kepler.mkdot, Kepler.A]

theorem ring1_tak : ring1.tak (Real.pi / 2) = Real.pi / 2 := by
  have : ring1.tak (Real.pi / 2) = Complex.arg ⟨0, 1⟩ := by
    simp [Kepler.tak, ring1, atan2]
  rw [this, show (⟨0, 1⟩ : ℂ) = Complex.I from rfl, Complex.arg_I]

/-- The second harmonics of the rates are taken at the corrected argument of latitude `uk` (line 60), those of the
position at the uncorrected one `phik` (line 51). -/
theorem C90_violated : ¬ VDeriv (fun s => ring1.pos s (Real.pi / 2 + s)) (ring1.vel 0 (Real.pi / 2)) 0 := by
  have hA : Anomaly ring1 (fun s => Real.pi / 2 + s) := by
    intro t; rw [ring1_mk]; simp [KeplerEq, ring1]
  have ht := C90_true_velocity ring1 (by simp [ring1]) (by simp [ring1]) _ hA 0 (by simp)
  intro h
  have hu := (h 0).unique (ht 0)
  simp only [add_zero] at hu
  have hphi : ring1.phik (Real.pi / 2) = Real.pi / 2 := by
    unfold Kepler.phik; rw [ring1_tak]; simp [ring1]
  have h2 : 2 * (Real.pi / 2) = Real.pi := by ring
  have huk : ring1.uk (Real.pi / 2) = Real.pi / 2 - 1 / 2 := by
    unfold Kepler.uk Kepler.corrU; rw [hphi, h2]; simp [ring1]; ring
  have hrk : ring1.rk (Real.pi / 2) = 1 := by
    unfold Kepler.rk Kepler.corrR Kepler.A; simp [ring1]
  have htd : ring1.takdot (Real.pi / 2) = 1 := by
    rw [takdot_eq (by simp [ring1]) (by simp [ring1]) (by simp)]
    simp [Kepler.ekdot, ring1, Kepler.mkdot, Kepler.A]
  have ho : ring1.omegak 0 = 0 := by simp [Kepler.omegak, ring1]
  have hod : ring1.omegakdot = 0 := by simp [Kepler.omegakdot, ring1]
  have h2u : 2 * (Real.pi / 2 - 1 / 2) = Real.pi - 1 := by ring
  simp only [Kepler.vel, Kepler.velWith, Kepler.ypk, Kepler.xpk, huk, hrk, htd, ho, hod, hphi, h2, h2u,
    Matrix.cons_val_zero, Real.cos_pi, Real.sin_pi, Real.cos_zero, Real.sin_zero, Real.sin_pi_sub, Real.cos_pi_sub,
    Real.sin_pi_div_two_sub, Real.cos_pi_div_two_sub] at hu
  simp only [ring1] at hu
  have hs : 0 < Real.sin 1 := Real.sin_pos_of_pos_of_lt_pi one_pos (by linarith [Real.pi_gt_three])
  have hc : 0 < Real.cos (1 / 2) := Real.cos_pos_of_mem_Ioo ⟨by linarith [Real.pi_gt_three], by
    linarith [Real.pi_gt_three]⟩
  have : Real.cos (1 / 2) * Real.sin 1 = 0 := by linarith
  nlinarith

theorem C90_statement_false : ¬ C90_statement := by
  intro h
  have hA : Anomaly ring1 (fun s => Real.pi / 2 + s) := by
    intro t; rw [ring1_mk]; simp [KeplerEq, ring1]
  have := h ring1 (by simp [ring1]) (by simp [ring1]) _ hA 0 (by simp)
  simp only [add_zero] at this
  exact C90_violated this

/-- At perigee the rate of the true anomaly is computed as `0 / 0`: at the time of ephemeris of every message with
mean anomaly zero there is no velocity. -/
theorem C90_perigee_violated (k : Kepler) (h0 : 0 ≤ k.ecc) (h1 : k.ecc < 1) (hm : k.m0 = 0) :
    k.eph2Sat 0 = none := by
  have hz : solve k.ecc (k.mk' 0) = 0 := by
    have : k.mk' 0 = 0 := by simp [Kepler.mk', hm]
    rw [this, C89_perigee]
  unfold Kepler.eph2Sat
  simp only [hz]
  rw [if_neg (by norm_num), if_pos ((sin_tak_zero h0 h1 0).mpr Real.sin_zero)]

/-- Everywhere else, with a fresh ephemeris, there is an answer. -/
theorem C90_defined_partial (k : Kepler) (h0 : 0 ≤ k.ecc) (h1 : k.ecc < 1) (t : ℝ) (ht : |t| ≤ 7200)
    (hs : Real.sin (solve k.ecc (k.mk' t)) ≠ 0) : (k.eph2Sat t).isSome := by
  unfold Kepler.eph2Sat
  rw [if_neg (not_lt.mpr ht), if_neg (fun h => hs ((sin_tak_zero h0 h1 _).mp h))]
  rfl

/-- A stale ephemeris gives none. -/
theorem C90_stale (k : Kepler) (t : ℝ) (ht : 7200 < |t|) : k.eph2Sat t = none := by
  unfold Kepler.eph2Sat
  rw [if_pos ht]

/-! ### Clock -/

/-- The polynomial of the satellite clock in the interface document, `tc` seconds after the clock reference time. -/
def clockPoly (k : Kepler) (tc : ℝ) : ℝ := k.af0 + k.af1 * tc + k.af2 * tc ^ 2

/-- The relativistic correction of the interface document, `-2 r v / c^2`. -/
noncomputable def relCorr (r v : V3) : ℝ := -2 * dot r v / cLight ^ 2

/-- The claim: the bias is the polynomial plus the relativistic correction `f`, and the drift is the rate of the
polynomial. -/
def C91_statement : Prop := ∀ (k : Kepler) (t x : ℝ),
  k.clkBias t x = clockPoly k (t + k.toeToc)
      - 2 * Real.sqrt (gm * k.A) * k.ecc * Real.sin x / (cLight * cLight) ∧
  HasDerivAt (fun s => clockPoly k (s + k.toeToc)) (k.clkDrift t) t

/-- What the code computes instead: the first order term runs from the time of ephemeris. -/
theorem C91_bias_partial (k : Kepler) (t x : ℝ) :
    k.clkBias t x = clockPoly k (t + k.toeToc) - k.af1 * k.toeToc
      - 2 * Real.sqrt (gm * k.A) * k.ecc * Real.sin x / (cLight * cLight) := by
  simp only [Kepler.clkBias, clockPoly]; ring

theorem poly_deriv (k : Kepler) (t : ℝ) : HasDerivAt (fun s => clockPoly k (s + k.toeToc))
    (k.af1 + 2 * k.af2 * (t + k.toeToc)) t := by
  have h := (hasDerivAt_id t).add_const k.toeToc
  have := ((h.const_mul k.af1).const_add k.af0).add ((h.pow 2).const_mul k.af2)
  refine this.congr_deriv ?_
  simp; ring

/-- The drift is the rate exactly when the quadratic term vanishes or the clock reference time is now. -/
theorem C91_drift_partial (k : Kepler) (t : ℝ) :
    HasDerivAt (fun s => clockPoly k (s + k.toeToc)) (k.clkDrift t) t ↔ k.af2 = 0 ∨ t + k.toeToc = 0 := by
  constructor
  · intro h
    have := h.unique (poly_deriv k t)
    simp only [Kepler.clkDrift] at this
    have : k.af2 * (t + k.toeToc) = 0 := by linarith
    exact mul_eq_zero.mp this
  · intro h
    refine (poly_deriv k t).congr_deriv ?_
    simp only [Kepler.clkDrift]
    rcases h with h | h <;> rw [h] <;> ring

/-- The bias is the one of the interface document exactly when the two reference times agree or there is no drift. -/
theorem C91_bias_iff_partial (k : Kepler) (t x : ℝ) : k.clkBias t x = clockPoly k (t + k.toeToc)
      - 2 * Real.sqrt (gm * k.A) * k.ecc * Real.sin x / (cLight * cLight) ↔ k.af1 = 0 ∨ k.toeToc = 0 := by
  rw [C91_bias_partial, ← mul_eq_zero]
  constructor <;> intro h <;> linarith

theorem C91_violated : ¬ HasDerivAt (fun s => clockPoly { ring1 with af2 := 1 } (s + 0))
    (Kepler.clkDrift { ring1 with af2 := 1 } 1) 1 := by
  have := C91_drift_partial { ring1 with af2 := 1 } 1
  simp [ring1] at this ⊢
  exact this

theorem C91_statement_false : ¬ C91_statement := by
  intro h
  have := (C91_bias_iff_partial { ring1 with af1 := 1, toeToc := 1 } 0 0).mp (h _ 0 0).1
  norm_num at this

/-! ### Kepler's laws -/

/-- An orbit without corrections. -/
structure Plain (k : Kepler) : Prop where
  sqrta : 0 < k.sqrta
  ecc0 : 0 ≤ k.ecc
  ecc1 : k.ecc < 1
  deltaN : k.deltaN = 0
  idot : k.idot = 0
  cus : k.cus = 0
  cuc : k.cuc = 0
  crs : k.crs = 0
  crc : k.crc = 0
  cis : k.cis = 0
  cic : k.cic = 0

/-- The distance from the centre of the earth. -/
theorem C92_radius (k : Kepler) (t x : ℝ) : dot (k.pos t x) (k.pos t x) = k.rk x ^ 2 := by
  have h1 := Real.sin_sq_add_cos_sq (k.omegak t)
  have h2 := Real.sin_sq_add_cos_sq (k.ik t x)
  have h3 := Real.sin_sq_add_cos_sq (k.uk x)
  simp only [dot, Kepler.pos, Kepler.xpk, Kepler.ypk, Matrix.cons_val_zero, Matrix.cons_val_one,
    Matrix.cons_val]
  generalize Real.sin (k.omegak t) = a at *
  generalize Real.cos (k.omegak t) = b at *
  generalize Real.sin (k.ik t x) = c at *
  generalize Real.cos (k.ik t x) = d at *
  generalize Real.sin (k.uk x) = e at *
  generalize Real.cos (k.uk x) = f at *
  linear_combination (k.rk x ^ 2 * f ^ 2 + k.rk x ^ 2 * e ^ 2 * d ^ 2) * h1 + (k.rk x ^ 2 * e ^ 2) * h2
    + k.rk x ^ 2 * h3

theorem plain_rk {k : Kepler} (h : Plain k) (x : ℝ) : k.rk x = k.A * (1 - k.ecc * Real.cos x) := by
  simp [Kepler.rk, Kepler.corrR, h.crs, h.crc]

/-- Kepler's first law: the distance is that of an ellipse with the semi-major axis `A`, at the true anomaly. -/
theorem C92_ellipse (k : Kepler) (h : Plain k) (t x : ℝ) :
    vnorm (k.pos t x) * (1 + k.ecc * Real.cos (k.tak x)) = k.A * (1 - k.ecc ^ 2) := by
  have hD := den_pos h.ecc0 h.ecc1 x
  have hA : 0 < k.A := mul_pos h.sqrta h.sqrta
  have hr : vnorm (k.pos t x) = k.A * (1 - k.ecc * Real.cos x) := by
    have : sqNorm (k.pos t x) = (k.A * (1 - k.ecc * Real.cos x)) ^ 2 := by
      rw [← plain_rk h]; exact C92_radius k t x
    unfold vnorm
    rw [this, Real.sqrt_sq (by positivity)]
  rw [hr, cos_tak h.ecc0 h.ecc1]
  have := hD.ne'
  field_simp
  ring

/-- The mean motion is Kepler's third law. -/
theorem C92_third_law (k : Kepler) (h : Plain k) : k.mkdot ^ 2 * k.A ^ 3 = gm := by
  have hA : 0 < k.A := mul_pos h.sqrta h.sqrta
  have hg : (0 : ℝ) ≤ gm := by unfold gm; norm_num
  simp only [Kepler.mkdot, h.deltaN, add_zero]
  rw [Real.sq_sqrt (by positivity)]
  field_simp

/-- The velocity of an orbit without corrections, in its plane. -/
theorem plain_vel {k : Kepler} (h : Plain k) (ho : k.omegadot = omegaEarth) (t x : ℝ) :
    k.vel t x =
      let rd := k.A * k.ecc * Real.sin x * k.mkdot / (1 - k.ecc * Real.cos x)
      let xd := rd * Real.cos (k.phik x) - k.rk x * Real.sin (k.phik x) * k.takdot x
      let yd := rd * Real.sin (k.phik x) + k.rk x * Real.cos (k.phik x) * k.takdot x
      ![xd * Real.cos (k.omegak t) - yd * Real.cos k.i0 * Real.sin (k.omegak t),
        xd * Real.sin (k.omegak t) + yd * Real.cos k.i0 * Real.cos (k.omegak t), yd * Real.sin k.i0] := by
  have hu : k.uk x = k.phik x := by simp [Kepler.uk, Kepler.corrU, h.cus, h.cuc]
  have hi : k.ik t x = k.i0 := by simp [Kepler.ik, Kepler.corrI, h.cis, h.cic, h.idot]
  have hod : k.omegakdot = 0 := by simp [Kepler.omegakdot, ho]
  simp only [Kepler.vel, Kepler.velWith, Kepler.xpk, Kepler.ypk, hu, hi, hod, h.cus, h.cuc, h.crs, h.crc, h.cis,
    h.cic, h.idot]
  congr 1
  · ring
  · congr 1
    · ring
    · congr 1
      ring

theorem plain_pos {k : Kepler} (h : Plain k) (t x : ℝ) :
    k.pos t x = ![k.rk x * Real.cos (k.phik x) * Real.cos (k.omegak t)
        - k.rk x * Real.sin (k.phik x) * Real.sin (k.omegak t) * Real.cos k.i0,
      k.rk x * Real.cos (k.phik x) * Real.sin (k.omegak t)
        + k.rk x * Real.sin (k.phik x) * Real.cos (k.omegak t) * Real.cos k.i0,
      k.rk x * Real.sin (k.phik x) * Real.sin k.i0] := by
  have hu : k.uk x = k.phik x := by simp [Kepler.uk, Kepler.corrU, h.cus, h.cuc]
  have hi : k.ik t x = k.i0 := by simp [Kepler.ik, Kepler.corrI, h.cis, h.cic, h.idot]
  simp only [Kepler.pos, Kepler.xpk, Kepler.ypk, hu, hi]

/-- Energy: the vis-viva equation, in a frame that does not turn. -/
theorem C92_energy (k : Kepler) (h : Plain k) (ho : k.omegadot = omegaEarth) (t x : ℝ) (hs : Real.sin x ≠ 0) :
    dot (k.vel t x) (k.vel t x) / 2 - gm / vnorm (k.pos t x) = -gm / (2 * k.A) := by
  have hD := den_pos h.ecc0 h.ecc1 x
  have hA : 0 < k.A := mul_pos h.sqrta h.sqrta
  have hr : vnorm (k.pos t x) = k.A * (1 - k.ecc * Real.cos x) := by
    have : sqNorm (k.pos t x) = (k.A * (1 - k.ecc * Real.cos x)) ^ 2 := by
      rw [← plain_rk h]; exact C92_radius k t x
    unfold vnorm
    rw [this, Real.sqrt_sq (by positivity)]
  have h3 := C92_third_law k h
  have hq : Real.sqrt (1 - k.ecc * k.ecc) * Real.sqrt (1 - k.ecc * k.ecc) = 1 - k.ecc * k.ecc :=
    Real.mul_self_sqrt (by nlinarith [h.ecc0, h.ecc1])
  have hv : dot (k.vel t x) (k.vel t x)
      = (k.A * k.ecc * Real.sin x * k.mkdot / (1 - k.ecc * Real.cos x)) ^ 2 + (k.rk x * k.takdot x) ^ 2 := by
    have h1 := Real.sin_sq_add_cos_sq (k.omegak t)
    have h2 := Real.sin_sq_add_cos_sq k.i0
    have h4 := Real.sin_sq_add_cos_sq (k.phik x)
    rw [plain_vel h ho]
    simp only [dot, Matrix.cons_val_zero, Matrix.cons_val_one, Matrix.cons_val]
    generalize k.A * k.ecc * Real.sin x * k.mkdot / (1 - k.ecc * Real.cos x) = rd
    generalize k.rk x = r
    generalize k.takdot x = w
    generalize Real.sin (k.omegak t) = a at *
    generalize Real.cos (k.omegak t) = b at *
    generalize Real.sin k.i0 = c at *
    generalize Real.cos k.i0 = d at *
    generalize Real.sin (k.phik x) = e at *
    generalize Real.cos (k.phik x) = f at *
    linear_combination ((rd * f - r * e * w) ^ 2 + (rd * e + r * f * w) ^ 2 * d ^ 2) * h1
      + (rd * e + r * f * w) ^ 2 * h2 + (rd ^ 2 + r ^ 2 * w ^ 2) * h4
  have hsc := Real.sin_sq_add_cos_sq x
  rw [hv, hr, takdot_eq h.ecc0 h.ecc1 hs, plain_rk h, ← h3]
  simp only [Kepler.ekdot]
  have hDn := hD.ne'
  have hAn := hA.ne'
  generalize Real.sqrt (1 - k.ecc * k.ecc) = r at *
  generalize Real.cos x = c at *
  generalize Real.sin x = s at *
  generalize k.mkdot = n at *
  generalize k.A = a at *
  generalize k.ecc = e at *
  have hk : (a * e * s * n / (1 - e * c)) ^ 2 + (a * (1 - e * c) * (n / (1 - e * c) * r / (1 - e * c))) ^ 2
      = a ^ 2 * n ^ 2 * (1 + e * c) / (1 - e * c) := by
    field_simp
    linear_combination n ^ 2 * hq + n ^ 2 * e ^ 2 * hsc
  rw [hk]
  field_simp
  ring

/-- Angular momentum: constant in size along the normal of the orbit (Kepler's second law). -/
theorem C92_momentum (k : Kepler) (h : Plain k) (ho : k.omegadot = omegaEarth) (t x : ℝ) (hs : Real.sin x ≠ 0) :
    cross (k.pos t x) (k.vel t x) = (k.A ^ 2 * k.mkdot * Real.sqrt (1 - k.ecc * k.ecc)) •
      ![Real.sin k.i0 * Real.sin (k.omegak t), -(Real.sin k.i0 * Real.cos (k.omegak t)), Real.cos k.i0] := by
  have hD := (den_pos h.ecc0 h.ecc1 x).ne'
  have hw : k.rk x ^ 2 * k.takdot x = k.A ^ 2 * k.mkdot * Real.sqrt (1 - k.ecc * k.ecc) := by
    rw [takdot_eq h.ecc0 h.ecc1 hs, plain_rk h, Kepler.ekdot]
    field_simp
  rw [← hw, plain_pos h, plain_vel h ho]
  have h1 := Real.sin_sq_add_cos_sq (k.omegak t)
  have h4 := Real.sin_sq_add_cos_sq (k.phik x)
  generalize k.A * k.ecc * Real.sin x * k.mkdot / (1 - k.ecc * Real.cos x) = rd
  generalize k.rk x = r
  generalize k.takdot x = w
  generalize Real.sin (k.omegak t) = a at *
  generalize Real.cos (k.omegak t) = b at *
  generalize Real.sin k.i0 = c at *
  generalize Real.cos k.i0 = d at *
  generalize Real.sin (k.phik x) = e at *
  generalize Real.cos (k.phik x) = f at *
  funext i
  fin_cases i
  · simp only [cross, Fin.zero_eta, Pi.smul_apply, smul_eq_mul, Matrix.cons_val_zero, Matrix.cons_val_one,
      Matrix.cons_val]
    linear_combination (r ^ 2 * w * c * a) * h4
  · simp only [cross, Fin.mk_one, Pi.smul_apply, smul_eq_mul, Matrix.cons_val_zero, Matrix.cons_val_one,
      Matrix.cons_val]
    linear_combination (-(r ^ 2 * w * c * b)) * h4
  · simp only [cross, Fin.reduceFinMk, Pi.smul_apply, smul_eq_mul, Matrix.cons_val_zero, Matrix.cons_val_one,
      Matrix.cons_val]
    linear_combination (r ^ 2 * w * d) * h4 + (r ^ 2 * w * d * (e ^ 2 + f ^ 2)) * h1

/-- The relativistic term of the clock is the correction `-2 r v / c^2`, in any frame that turns about the axis of the
earth. -/
theorem C91_relativity (k : Kepler) (h : Plain k) (t x : ℝ) :
    -(2 * Real.sqrt (gm * k.A) * k.ecc * Real.sin x / (cLight * cLight)) = relCorr (k.pos t x) (k.vel t x) := by
  have hD := (den_pos h.ecc0 h.ecc1 x).ne'
  have hA : 0 < k.A := mul_pos h.sqrta h.sqrta
  have hg : (0 : ℝ) ≤ gm := by unfold gm; norm_num
  have hn : Real.sqrt (gm * k.A) = k.A ^ 2 * k.mkdot := by
    have h3 := C92_third_law k h
    rw [← h3, show k.mkdot ^ 2 * k.A ^ 3 * k.A = (k.A ^ 2 * k.mkdot) ^ 2 by ring, Real.sqrt_sq]
    simp only [Kepler.mkdot, h.deltaN, add_zero]
    positivity
  have hu : k.uk x = k.phik x := by simp [Kepler.uk, Kepler.corrU, h.cus, h.cuc]
  have hi : k.ik t x = k.i0 := by simp [Kepler.ik, Kepler.corrI, h.cis, h.cic, h.idot]
  have hdot : dot (k.pos t x) (k.vel t x)
      = k.rk x * (k.A * k.ecc * Real.sin x * k.mkdot / (1 - k.ecc * Real.cos x)) := by
    rw [plain_pos h]
    simp only [Kepler.vel, Kepler.velWith, Kepler.xpk, Kepler.ypk, hu, hi, h.cus, h.cuc, h.crs, h.crc, h.cis,
      h.cic, h.idot, dot, Matrix.cons_val_zero, Matrix.cons_val_one, Matrix.cons_val]
    have h1 := Real.sin_sq_add_cos_sq (k.omegak t)
    have h2 := Real.sin_sq_add_cos_sq k.i0
    have h4 := Real.sin_sq_add_cos_sq (k.phik x)
    generalize k.A * k.ecc * Real.sin x * k.mkdot / (1 - k.ecc * Real.cos x) = rd
    generalize k.rk x = r
    generalize k.takdot x = w
    generalize k.omegakdot = o
    generalize Real.sin (k.omegak t) = a at *
    generalize Real.cos (k.omegak t) = b at *
    generalize Real.sin k.i0 = c at *
    generalize Real.cos k.i0 = d at *
    generalize Real.sin (k.phik x) = e at *
    generalize Real.cos (k.phik x) = f at *
    linear_combination (r * f * (rd * f - r * e * w) + r * e * d ^ 2 * (rd * e + r * f * w)) * h1
      + (r * e * (rd * e + r * f * w)) * h2 + (r * rd) * h4
  rw [relCorr, hdot, plain_rk h, hn]
  field_simp

/-- A satellite of the Global Positioning System meets the hypotheses. -/
noncomputable def gpsLike : Kepler :=
  { sqrta := 5153.5, ecc := 0.01, m0 := 1, deltaN := 0, w := 0.3, i0 := 0.96, idot := 0, omega0 := 2,
    omegadot := omegaEarth, cus := 0, cuc := 0, crs := 0, crc := 0, cis := 0, cic := 0, af0 := 0, af1 := 0,
    af2 := 0, toes := 0, toeToc := 0 }

theorem gpsLike_plain : Plain gpsLike := by
  constructor <;> simp [gpsLike] <;> norm_num

example : ∃ E, Anomaly gpsLike E ∧ Real.sin (E 0) ≠ 0 := by
  choose K hK _ using fun M => C89_unique gpsLike.ecc M gpsLike_plain.ecc0 gpsLike_plain.ecc1
  refine ⟨fun t => K (gpsLike.mk' t), fun t => hK _, fun h => ?_⟩
  have h1 := hK (gpsLike.mk' 0)
  unfold KeplerEq at h1
  simp only [h, mul_zero, sub_zero] at h1
  have hm : gpsLike.mk' 0 = 1 := by simp [Kepler.mk', gpsLike]
  simp only at h
  rw [h1, hm] at h
  exact (Real.sin_pos_of_pos_of_lt_pi one_pos (by linarith [Real.pi_gt_three])).ne' h

end Verif.Props.OrbitVel
