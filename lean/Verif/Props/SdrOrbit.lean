import Verif.Model.Sdr
import Verif.Props.Kepler
import Verif.Props.OrbitVel
import Mathlib.Tactic.IntervalCases
/-!
# C133: satellites of the reference simulator
-/
namespace Verif.Props.SdrOrbit

open Verif.Sdr Verif.Model.Lie Verif.Model.Orbit Verif.Model.Ekf Verif.Props.Kepler Verif.Props.OrbitVel

/-! ### The anomaly -/

theorem step_newton (e M x : ℝ) : x + (M - x + e * Real.sin x) / (1 - e * Real.cos x) = newton e M x := by
  unfold newton
  rw [show M - x + e * Real.sin x = -(x - e * Real.sin x - M) by ring, neg_div]
  ring

theorem anomaly_succ (e M : ℝ) (n : ℕ) (p x om : ℝ) : anomaly e M (n + 1) p x om =
    if |x - p| > 1.0e-14 then anomaly e M n x (newton e M x) (1 - e * Real.cos x) else some (x, om) := by
  rw [anomaly]
  simp only [step_newton]

theorem more (e M : ℝ) (n : ℕ) (p : ℝ)
    (h : (anomaly e M n (newton e M p) (newton e M (newton e M p)) (1 - e * Real.cos (newton e M p))).isSome) :
    (anomaly e M (n + 1) p (newton e M p) (1 - e * Real.cos p)).isSome := by
  rw [anomaly_succ]
  split_ifs with hs
  · exact h
  · rfl

theorem stopped {e M E : ℝ} (h0 : 0 ≤ e) (h1 : e ≤ 1 / 2) (hE : KeplerEq e M E) (r o : ℝ) : ∀ n p, |p - E| ≤ 1 / 2 →
    anomaly e M n p (newton e M p) (1 - e * Real.cos p) = some (r, o) →
    ∃ q, r = newton e M q ∧ o = 1 - e * Real.cos q ∧ |q - E| ≤ 1 / 2 ∧ |r - q| ≤ 1.0e-14 := by
  intro n
  induction n with
  | zero => intro p _ h; cases h
  | succ n ih =>
    intro p hp h
    rw [anomaly_succ] at h
    split_ifs at h with hs
    · refine ih _ ?_ h
      have := newton_err h0 h1 hE hp
      nlinarith [abs_nonneg (p - E)]
    · simp only [Option.some.injEq, Prod.mk.injEq] at h
      obtain ⟨rfl, rfl⟩ := h
      exact ⟨p, rfl, rfl, hp, not_lt.mp hs⟩

/-- The loop ends, after at most seven Newton steps, at the solution of Kepler's equation; the cosine it hands on is that of
the step before. -/
theorem C133_anomaly (e M E : ℝ) (h0 : 0 ≤ e) (h1 : e ≤ 1 / 2) (hE : KeplerEq e M E) (n : ℕ) :
    ∃ ek q, anomaly e M (n + 8) (M + 1) M 0 = some (ek, 1 - e * Real.cos q) ∧ |ek - E| ≤ 2e-26 ∧ |q - ek| ≤ 1.0e-14 := by
  have b0 : |M - E| ≤ 1 / 2 := start_err h0 h1 hE
  have hfirst : anomaly e M (n + 8) (M + 1) M 0 = anomaly e M (n + 7) M (newton e M M) (1 - e * Real.cos M) := by
    rw [show n + 8 = (n + 7) + 1 by ring, anomaly_succ, if_pos]
    rw [show M - (M + 1) = -1 by ring, abs_neg, abs_one]
    norm_num
  have hsome : (anomaly e M (n + 7) M (newton e M M) (1 - e * Real.cos M)).isSome := by
    have b1 : |newton e M M - E| ≤ 0.157 := err_mono h0 h1 hE b0 le_rfl (by norm_num)
    have b2 : |newton e M (newton e M M) - E| ≤ 0.0155 := err_mono h0 h1 hE b1 (by norm_num) (by norm_num)
    have b3 := err_mono (b := 0.000151) h0 h1 hE b2 (by norm_num) (by norm_num)
    have b4 := err_mono (b := 1.5e-8) h0 h1 hE b3 (by norm_num) (by norm_num)
    have b5 := err_mono (b := 1.5e-16) h0 h1 hE b4 (by norm_num) (by norm_num)
    have b6 := err_mono (b := 1e-30) h0 h1 hE b5 (by norm_num) (by norm_num)
    refine more e M (n + 6) _ (more e M (n + 5) _ (more e M (n + 4) _ (more e M (n + 3) _ (more e M (n + 2) _ ?_))))
    rw [show n + 2 = (n + 1) + 1 by ring, anomaly_succ, if_neg]
    · rfl
    · rw [not_lt]
      refine (abs_sub_le _ E _).trans ?_
      rw [abs_sub_comm E]
      refine (add_le_add b6 b5).trans ?_
      norm_num
  obtain ⟨⟨r, o⟩, hr⟩ := Option.isSome_iff_exists.mp hsome
  obtain ⟨q, hq1, hq2, hq3, hq4⟩ := stopped h0 h1 hE r o _ M b0 hr
  refine ⟨r, q, by rw [hfirst, hr, hq2], ?_, by rw [abs_sub_comm]; exact hq4⟩
  rw [hq1]
  refine stop_err h0 h1 hE hq3 ?_
  rw [← hq1]
  refine hq4.trans (by norm_num)

/-- Such an orbit: eccentricity 1/2 at mean anomaly 1. -/
example : ∃ E, KeplerEq (1 / 2) 1 E := (C89_unique (1 / 2) 1 (by norm_num) (by norm_num)).exists

/-! ### Position and velocity -/

/-- The working variables as their comments say (gps_sdr_sim.h 65-69). -/
noncomputable def filled (k : Kepler) : Work :=
  ⟨Real.sqrt (1 - k.ecc * k.ecc), k.sqrta * k.sqrta, k.omegadot - omegaEarth⟩

theorem posOf_eq (k : Kepler) (tk ek : ℝ) :
    posOf k (filled k) k.toes tk ek (1 - k.ecc * Real.cos ek) = k.pos tk ek := by
  unfold posOf Kepler.pos Kepler.xpk Kepler.ypk Kepler.rk Kepler.uk Kepler.ik Kepler.corrU Kepler.corrR Kepler.corrI
    Kepler.phik Kepler.tak Kepler.omegak Kepler.A filled
  simp only
  have e1 : ∀ P s c : ℝ, P + k.cus * s + k.cuc * c = P + (k.cus * s + k.cuc * c) := fun _ _ _ => by ring
  have e2 : ∀ P s c : ℝ, P + k.crc * c + k.crs * s = P + (k.crs * s + k.crc * c) := fun _ _ _ => by ring
  have e3 : ∀ P s c : ℝ, P + k.cic * c + k.cis * s = P + (k.cis * s + k.cic * c) := fun _ _ _ => by ring
  have e4 : k.omega0 + tk * (k.omegadot - omegaEarth) = k.omega0 + (k.omegadot - omegaEarth) * tk := by ring
  rw [e1, e2, e3, e4]
  congr 1
  · ring
  · congr 1
    ring

theorem posOf_lip (k : Kepler) (w : Work) (ts tk ek o o' : ℝ) (i : Fin 3) :
    |posOf k w ts tk ek o i - posOf k w ts tk ek o' i| ≤ 2 * (|w.A| * |o - o'|) := by
  unfold posOf
  generalize atan2 (w.sq1e2 * Real.sin ek) (Real.cos ek - k.ecc) + k.w = pk
  generalize pk + k.cus * Real.sin (2 * pk) + k.cuc * Real.cos (2 * pk) = u
  generalize k.i0 + k.idot * tk + k.cic * Real.cos (2 * pk) + k.cis * Real.sin (2 * pk) = ik
  generalize k.omega0 + tk * w.omgkdot - omegaEarth * ts = ok
  have hb : ∀ a b c d f : ℝ, |a| ≤ 1 → |b| ≤ 1 → |c| ≤ 1 → |d| ≤ 1 → |f| ≤ 1 →
      |a * b - c * d * f| ≤ 2 ∧ |a * b + c * d * f| ≤ 2 := by
    intro a b c d f ha hb hc hd hf
    have h1 : |a * b| ≤ 1 := by rw [abs_mul]; exact mul_le_one₀ ha (abs_nonneg _) hb
    have h2 : |c * d * f| ≤ 1 := by
      rw [abs_mul, abs_mul]
      exact mul_le_one₀ (mul_le_one₀ hc (abs_nonneg _) hd) (abs_nonneg _) hf
    constructor
    · exact (abs_sub _ _).trans (by linarith)
    · exact (abs_add_le _ _).trans (by linarith)
  have cu := Real.abs_cos_le_one u
  have su := Real.abs_sin_le_one u
  have ci := Real.abs_cos_le_one ik
  have si := Real.abs_sin_le_one ik
  have co := Real.abs_cos_le_one ok
  have so := Real.abs_sin_le_one ok
  have hfac : ∀ c : ℝ, |c| ≤ 2 → |w.A * (o - o') * c| ≤ 2 * (|w.A| * |o - o'|) := by
    intro c hc
    rw [abs_mul, abs_mul]
    nlinarith [mul_nonneg (abs_nonneg w.A) (abs_nonneg (o - o'))]
  fin_cases i
  · simp only [Fin.zero_eta, Matrix.cons_val_zero]
    convert hfac _ (hb _ _ _ _ _ cu co su ci so).1 using 2
    ring
  · simp only [Fin.mk_one, Matrix.cons_val_one, Matrix.cons_val_zero]
    convert hfac _ (hb _ _ _ _ _ cu so su ci co).2 using 2
    ring
  · simp only [Fin.reduceFinMk, Matrix.cons_val]
    have : |Real.sin u * Real.sin ik| ≤ 2 := by
      rw [abs_mul]
      exact (mul_le_one₀ su (abs_nonneg _) si).trans (by norm_num)
    convert hfac _ this using 2
    ring

theorem cos_near (a b : ℝ) : |Real.cos a - Real.cos b| ≤ |a - b| := by
  rw [Real.cos_sub_cos, abs_mul, abs_mul, abs_neg, abs_two]
  have h1 := Real.abs_sin_le_one ((a + b) / 2)
  have h2 : |Real.sin ((a - b) / 2)| ≤ |(a - b) / 2| := Real.abs_sin_le_abs
  rw [abs_div, abs_two] at h2
  nlinarith [abs_nonneg (Real.sin ((a + b) / 2)), abs_nonneg (Real.sin ((a - b) / 2))]

/-- With its working variables filled, the simulator computes the position of the code, to a fraction `2e-14` of the semimajor
axis times the eccentricity, at an anomaly within `2e-26` of the solution. -/
theorem C133_position (k : Kepler) (h0 : 0 ≤ k.ecc) (h1 : k.ecc ≤ 1 / 2) (n : ℕ) (tgd tocSec g E : ℝ)
    (hE : KeplerEq k.ecc (k.mk' (weekDiff g k.toes)) E) :
    ∃ ek p v b d, satpos (n + 8) k (filled k) tgd k.toes tocSec g = some (p, v, b, d) ∧ |ek - E| ≤ 2e-26 ∧
      ∀ i, |p i - k.pos (weekDiff g k.toes) ek i| ≤ 2e-14 * k.ecc * (k.sqrta * k.sqrta) := by
  obtain ⟨ek, q, ha, hb, hq⟩ := C133_anomaly k.ecc _ E h0 h1 hE n
  unfold satpos
  simp only
  have hmk : k.m0 + (Real.sqrt (gm / (k.sqrta * k.sqrta * (k.sqrta * k.sqrta) * (k.sqrta * k.sqrta))) + k.deltaN) *
      weekDiff g k.toes = k.mk' (weekDiff g k.toes) := rfl
  rw [hmk, ha]
  refine ⟨ek, _, _, _, _, rfl, hb, fun i => ?_⟩
  rw [← posOf_eq]
  refine (posOf_lip _ _ _ _ _ _ _ i).trans ?_
  have hc : |1 - k.ecc * Real.cos q - (1 - k.ecc * Real.cos ek)| ≤ k.ecc * 1e-14 := by
    rw [show 1 - k.ecc * Real.cos q - (1 - k.ecc * Real.cos ek) = -(k.ecc * (Real.cos q - Real.cos ek)) by ring, abs_neg,
      abs_mul, abs_of_nonneg h0]
    refine mul_le_mul_of_nonneg_left ((cos_near q ek).trans (hq.trans (by norm_num))) h0
  have hA : |(filled k).A| = k.sqrta * k.sqrta := abs_of_nonneg (mul_self_nonneg _)
  rw [hA]
  nlinarith [mul_self_nonneg k.sqrta]

/-- Its velocity is the derivative of that position — which the velocity of the code is not (C90). -/
theorem C133_velocity (k : Kepler) (h0 : 0 ≤ k.ecc) (h1 : k.ecc < 1) (E : ℝ → ℝ) (hE : Anomaly k E) (t : ℝ)
    (hs : Real.sin (E t) ≠ 0) :
    VDeriv (fun s => k.pos s (E s)) (velOf k (filled k) k.toes t (E t) (1 - k.ecc * Real.cos (E t))) t := by
  have h := C90_true_velocity k h0 h1 E hE t hs
  have htd := takdot_eq (k := k) h0 h1 hs
  convert h using 1
  unfold velOf
  rw [posOf_eq]
  generalize E t = x at *
  unfold Kepler.velWith Kepler.pos
  have hpk : atan2 ((filled k).sq1e2 * Real.sin x) (Real.cos x - k.ecc) + k.w = k.phik x := rfl
  have hn : Real.sqrt (gm / (k.sqrta * k.sqrta * (k.sqrta * k.sqrta) * (k.sqrta * k.sqrta))) + k.deltaN = k.mkdot := rfl
  have hu : k.phik x + k.cus * Real.sin (2 * k.phik x) + k.cuc * Real.cos (2 * k.phik x) = k.uk x := by
    unfold Kepler.uk Kepler.corrU
    ring
  have hr : k.A * (1 - k.ecc * Real.cos x) + k.crc * Real.cos (2 * k.phik x) + k.crs * Real.sin (2 * k.phik x)
      = k.rk x := by
    unfold Kepler.rk Kepler.corrR
    ring
  have hi : k.i0 + k.idot * t + k.cic * Real.cos (2 * k.phik x) + k.cis * Real.sin (2 * k.phik x) = k.ik t x := by
    unfold Kepler.ik Kepler.corrI
    ring
  have ho : k.omega0 + t * k.omegakdot - omegaEarth * k.toes = k.omegak t := by
    unfold Kepler.omegak Kepler.omegakdot
    ring
  have hA : (filled k).A = k.A := rfl
  have hw : (filled k).omgkdot = k.omegakdot := rfl
  have hT : (filled k).sq1e2 * (k.mkdot / (1 - k.ecc * Real.cos x)) / (1 - k.ecc * Real.cos x) = k.takdot x := by
    rw [htd]
    unfold Kepler.ekdot filled
    ring
  simp only [hpk, hn, hu, hr, hi, ho, hT, hw, hA]
  have hxp : k.xpk x = k.rk x * Real.cos (k.uk x) := rfl
  have hyp : k.ypk x = k.rk x * Real.sin (k.uk x) := rfl
  rw [hxp, hyp]
  simp only [Matrix.cons_val_zero, Matrix.cons_val_one]
  generalize k.takdot x = T
  generalize k.A = A
  generalize k.omegakdot = W
  congr 1
  · ring
  · congr 1
    · ring
    · congr 1
      ring

/-- The adapter leaves the working variables as the memory was: with 0 for the semimajor axis every satellite whose radius has
no harmonic corrections is at the centre of the earth. -/
theorem C133_working_violated (k : Kepler) (hc : k.crc = 0) (hs : k.crs = 0) (sq om0 ts tk ek om : ℝ) :
    posOf k ⟨sq, 0, om0⟩ ts tk ek om = 0 := by
  unfold posOf
  simp only [hc, hs, zero_mul, add_zero]
  funext i
  fin_cases i <;> simp

/-! ### Clock -/

/-- **C133, within half a week**, the ends included, the difference is left as it is. -/
theorem C133_week_same (g r : ℝ) (h : |g - r| ≤ 302400) : weekDiff g r = g - r := by
  rw [abs_le] at h
  unfold weekDiff
  dsimp only
  rw [if_neg (by linarith), if_neg (by linarith)]

/-- Times of the week less than half a week apart are subtracted across the end of the week. -/
theorem C133_week (g r d : ℝ) (j : ℤ) (hj : -1 ≤ j ∧ j ≤ 1) (hd : |d| < 302400) (h : g - r = d + 604800 * j) : weekDiff g r = d := by
  obtain ⟨d1, d2⟩ := abs_lt.mp hd
  obtain ⟨j1, j2⟩ := hj
  unfold weekDiff
  simp only [h]
  interval_cases j
  · push_cast
    rw [if_neg (by linarith), if_pos (by linarith)]
    ring
  · push_cast
    rw [if_neg (by linarith), if_neg (by linarith)]
    ring
  · push_cast
    rw [if_pos (by linarith)]
    ring

theorem rel_const : |2 * Real.sqrt gm / (cLight * cLight) - 4.442807633e-10| ≤ 1e-19 := by
  have h1 : 19964981.8432 ≤ Real.sqrt gm := Real.le_sqrt_of_sq_le (by unfold gm; norm_num)
  have h2 : Real.sqrt gm ≤ 19964981.8433 := Real.sqrt_le_iff.mpr ⟨by norm_num, by unfold gm; norm_num⟩
  have hc : cLight * cLight = 299792458 * 299792458 := by unfold cLight; norm_num
  rw [hc, abs_le]
  constructor
  · rw [neg_le_sub_iff_le_add, ← sub_le_iff_le_add, le_div_iff₀ (by norm_num)]
    norm_num at h1 h2 ⊢
    linarith
  · rw [sub_le_iff_le_add, div_le_iff₀ (by norm_num)]
    norm_num at h1 h2 ⊢
    linarith

/-- The clock of the simulator and the clock of the code for the same anomaly: they differ by the group delay, by the drift
over the time between the times of ephemeris and of clock, which the code leaves out, and by less than `1e-19` of the
relativistic term; the drift of the code has half the acceleration. -/
theorem C133_clock (k : Kepler) (tgd dt ek : ℝ) (ha : 0 ≤ k.sqrta) :
    |k.af0 + (dt + k.toeToc) * (k.af1 + (dt + k.toeToc) * k.af2) + (-4.442807633e-10 * k.ecc * k.sqrta * Real.sin ek) - tgd
      - (k.clkBias dt ek + k.af1 * k.toeToc - tgd)| ≤ 1e-19 * (|k.ecc| * k.sqrta) ∧
    k.af1 + 2 * (dt + k.toeToc) * k.af2 = k.clkDrift dt + k.af2 * (dt + k.toeToc) := by
  constructor
  · unfold Kepler.clkBias
    simp only
    have hA : Real.sqrt (gm * k.A) = Real.sqrt gm * k.sqrta := by
      rw [Real.sqrt_mul (by unfold gm; norm_num)]
      unfold Kepler.A
      rw [Real.sqrt_mul_self ha]
    rw [hA]
    have hr := rel_const
    set q := 2 * Real.sqrt gm / (cLight * cLight) with hq
    have e : 2 * (Real.sqrt gm * k.sqrta) * k.ecc * Real.sin ek / (cLight * cLight) = q * (k.ecc * k.sqrta * Real.sin ek) := by
      rw [hq]
      ring
    rw [e]
    rw [show k.af0 + (dt + k.toeToc) * (k.af1 + (dt + k.toeToc) * k.af2) + (-4.442807633e-10 * k.ecc * k.sqrta * Real.sin ek)
        - tgd - (k.af0 + k.af1 * dt + k.af2 * (dt + k.toeToc) * (dt + k.toeToc) - q * (k.ecc * k.sqrta * Real.sin ek)
          + k.af1 * k.toeToc - tgd) = (q - 4.442807633e-10) * (k.ecc * k.sqrta * Real.sin ek) by ring]
    rw [abs_mul]
    refine mul_le_mul hr ?_ (abs_nonneg _) (by norm_num)
    rw [abs_mul, abs_mul, abs_of_nonneg ha]
    exact mul_le_of_le_one_right (mul_nonneg (abs_nonneg _) ha) (Real.abs_sin_le_one _)
  · unfold Kepler.clkDrift
    ring

end Verif.Props.SdrOrbit
