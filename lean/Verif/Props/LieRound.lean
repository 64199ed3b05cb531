import Verif.Props.LieSeries
import Verif.Props.Se3Jac
import Verif.Props.Imu
/-!
# C112: round trips through exponential and logarithm, with no lower limit of the angle
-/
namespace Verif.Props.LieSeries

open Verif.Model.Lie Verif.Spec.Lie Verif.Lemmas.Lie Verif.Lemmas.TrigSeries Verif.Props.Quat Verif.Props.DQuat Verif.Props.So3 Real

theorem arctan_lip {x d : ℝ} (hd : 0 ≤ d) : arctan (x + d) ≤ arctan x + d := by
  refine le_of_deriv (f := fun d => arctan (x + d)) (f' := fun d => 1 / (1 + (x + d) ^ 2)) (g := fun d => arctan x + d)
    (g' := fun _ => 1) (fun y => ?_) (fun y => ?_) (by simp) (fun y _ => ?_) hd
  · have := (hasDerivAt_arctan (x + y)).comp y ((hasDerivAt_id y).const_add x)
    rw [mul_one] at this
    exact this
  · exact (hasDerivAt_id y).const_add _
  · rw [div_le_one (by positivity)]
    nlinarith [sq_nonneg (x + y)]

theorem arctan_round {n u : ℝ} (h0 : 0 < n) (h : n ≤ 1e-2) (hl : sin (n / 2) ≤ u) (hu : u ≤ sin (n / 2) + n ^ 7 / 600000) :
    0.999 ≤ cos (n / 2) ∧ 0 ≤ u / cos (n / 2) ∧ u / cos (n / 2) ≤ n * 0.51 ∧
    n / 2 ≤ arctan (u / cos (n / 2)) ∧ arctan (u / cos (n / 2)) ≤ n / 2 + n ^ 7 / 500000 := by
  have hn2 : 0 ≤ n / 2 := by positivity
  have hc : 0.999 ≤ cos (n / 2) := by
    have := k2 hn2
    unfold K2 at this
    norm_num at h ⊢
    nlinarith
  have hc0 : 0 < cos (n / 2) := lt_of_lt_of_le (by norm_num) hc
  have ht : arctan (tan (n / 2)) = n / 2 := arctan_tan (by linarith [pi_pos]) (by norm_num at h; linarith [pi_gt_three])
  have et : tan (n / 2) = sin (n / 2) / cos (n / 2) := tan_eq_sin_div_cos _
  have hs0 : 0 < sin (n / 2) := sin_pos_of_pos_of_lt_pi (by positivity) (by norm_num at h; linarith [pi_gt_three])
  have hu0 : 0 < u := lt_of_lt_of_le hs0 hl
  have hs1 : sin (n / 2) ≤ n / 2 := sin_le hn2
  have p7 : 0 < n ^ 7 := by positivity
  have p71 : n ^ 7 ≤ n := by
    have := pow_le_pow_of_le_one h0.le (le_trans h (by norm_num)) (by norm_num : 1 ≤ 7)
    simpa using this
  have ht0 : 0 ≤ u / cos (n / 2) := by positivity
  have hle : tan (n / 2) ≤ u / cos (n / 2) := by
    rw [et]; exact div_le_div_of_nonneg_right hl hc0.le
  have hge : u / cos (n / 2) ≤ tan (n / 2) + n ^ 7 / 500000 := by
    rw [et, div_le_iff₀ hc0, add_mul, div_mul_cancel₀ _ hc0.ne']
    have : n ^ 7 / 500000 * 0.999 ≤ n ^ 7 / 500000 * cos (n / 2) := mul_le_mul_of_nonneg_left hc (by positivity)
    norm_num at this
    linarith
  have hl1 : arctan (u / cos (n / 2)) ≤ n / 2 + n ^ 7 / 500000 := by
    refine (arctan_strictMono.monotone hge).trans ?_
    refine (arctan_lip (by positivity)).trans ?_
    rw [ht]
  have hl2 : n / 2 ≤ arctan (u / cos (n / 2)) := by
    rw [← ht]; exact arctan_strictMono.monotone (by rw [ht]; exact hle)
  refine ⟨hc, ht0, ?_, hl2, hl1⟩
  rw [div_le_iff₀ hc0]
  have : n * 0.51 * 0.999 ≤ n * 0.51 * cos (n / 2) := mul_le_mul_of_nonneg_left hc (by positivity)
  norm_num at this ⊢
  linarith

/-- The series of the logarithm applied to a sine that is too large by at most a seventh power. -/
theorem half_round {n u : ℝ} (h0 : 0 < n) (h : n ≤ 1e-2) (hl : sin (n / 2) ≤ u) (hu : u ≤ sin (n / 2) + n ^ 7 / 600000) :
    n / 2 ≤ u / cos (n / 2) - (u / cos (n / 2)) ^ 3 / 3 + (u / cos (n / 2)) ^ 5 / 5 ∧
    u / cos (n / 2) - (u / cos (n / 2)) ^ 3 / 3 + (u / cos (n / 2)) ^ 5 / 5 ≤ n / 2 + n ^ 7 / 600 := by
  obtain ⟨-, ht0, hT, hl2, hl1⟩ := arctan_round h0 h hl hu
  have h5 := arctan_le5 ht0
  have h7 := arctan_ge7 ht0
  have p7 : 0 < n ^ 7 := by positivity
  refine ⟨by linarith, ?_⟩
  have hT7 : (u / cos (n / 2)) ^ 7 ≤ n ^ 7 * 0.01 := by
    calc (u / cos (n / 2)) ^ 7 ≤ (n * 0.51) ^ 7 := pow_le_pow_left₀ ht0 hT 7
      _ = n ^ 7 * 0.51 ^ 7 := by ring
      _ ≤ n ^ 7 * 0.01 := mul_le_mul_of_nonneg_left (by norm_num) p7.le
  norm_num at hT7
  linarith

/-- The series of the logarithm of a quaternion that need not be normalised first. -/
theorem log_small {q : Quat} {v : V3} {s c N : ℝ} (hN : 0 < N) (hc : 0 < c) (hs : 0 < s) (hw : q.w = c / N)
    (hb : q.bar = (s / N) • v) (hv : 0 < vnorm v) (h : s * vnorm v ≤ 4e-6 * N) :
    q.log = (2 / vnorm v * (s * vnorm v / c - (s * vnorm v / c) ^ 3 / 3 + (s * vnorm v / c) ^ 5 / 5)) • v := by
  have hn : vnorm q.bar = s / N * vnorm v := by rw [hb, norm_smul _ (by positivity)]
  have hng : ¬ vnorm q.bar > 4e-6 := by
    rw [hn, not_lt, div_mul_eq_mul_div, div_le_iff₀ hN]
    exact h
  unfold Quat.log
  dsimp only
  rw [if_neg hng, hn, hb, hw, smul_smul]
  congr 1
  field_simp

theorem eq_zero_of_norm {v : V3} (h : vnorm v = 0) : v = 0 := by
  have h1 := norm_sq v
  rw [h] at h1
  apply vec_ext <;> simp only [Pi.zero_apply] <;> apply mul_self_eq_zero.mp <;>
    nlinarith [mul_self_nonneg (v 0), mul_self_nonneg (v 1), mul_self_nonneg (v 2)]

/-- C112: `Quat::log` undoes `Quat::exp` up to a factor that differs from one by less than `1e-30`, for every vector shorter than a full turn
(and, beyond half a turn, outside the small-angle branch of the logarithm). -/
theorem C112_quat_round (v : V3) (h2 : vnorm v < 2 * π) (hs : π ≤ vnorm v → 4e-6 < sin (vnorm v / 2)) :
    ∃ κ : ℝ, 1 ≤ κ ∧ κ ≤ 1 + 1e-30 ∧ (Quat.exp v).log = κ • v := by
  rcases (Verif.Props.Quat.norm_nonneg v).eq_or_lt with h0 | h0
  · have hv := eq_zero_of_norm h0.symm
    refine ⟨1, le_rfl, by norm_num, ?_⟩
    rw [hv, Verif.Props.Imu.exp_zero3]
    have : Quat.bar Quat.identity = 0 := by apply vec_ext <;> rfl
    unfold Quat.log
    dsimp only
    rw [this, smul_zero]
    split <;> simp only [smul_zero]
  by_cases hbig : 4e-6 < vnorm v ∧ 4e-6 < sin (vnorm v / 2)
  · exact ⟨1, le_rfl, by norm_num, by rw [one_smul]; exact C67_log_exp_partial v hbig.1 h2 hbig.2⟩
  have hn5 : vnorm v ≤ 2e-5 := by
    by_contra hc
    push Not at hc
    refine hbig ⟨lt_trans (by norm_num) hc, ?_⟩
    rcases le_or_gt π (vnorm v) with hp | hp
    · exact hs hp
    · have := mul_le_sin (x := vnorm v / 2) (by linarith) (by linarith)
      have hpi := pi_lt_d2
      have hpp := pi_pos
      have : 2 / π ≥ 2 / 3.15 := div_le_div_of_nonneg_left (by norm_num) hpp hpi.le
      norm_num at hc this ⊢
      nlinarith
  have hc0 : 0 < cos (vnorm v / 2) := by
    apply cos_pos_of_mem_Ioo
    norm_num at hn5
    constructor <;> linarith [pi_gt_three]
  have hsn : 0 < sin (vnorm v / 2) := sin_pos_of_pos_of_lt_pi (by linarith) (by linarith)
  have fin : ∀ u, sin (vnorm v / 2) ≤ u → u ≤ sin (vnorm v / 2) + vnorm v ^ 7 / 600000 →
      (Quat.exp v).log = (2 / vnorm v * (u / cos (vnorm v / 2) - (u / cos (vnorm v / 2)) ^ 3 / 3 + (u / cos (vnorm v / 2)) ^ 5 / 5)) • v →
      ∃ κ : ℝ, 1 ≤ κ ∧ κ ≤ 1 + 1e-30 ∧ (Quat.exp v).log = κ • v := by
    intro u h1 h2 h3
    obtain ⟨g1, g2⟩ := half_round h0 (le_trans hn5 (by norm_num)) h1 h2
    refine ⟨_, ?_, ?_, h3⟩
    · have := mul_le_mul_of_nonneg_left g1 (by positivity : 0 ≤ 2 / vnorm v)
      have e : 2 / vnorm v * (vnorm v / 2) = 1 := by field_simp
      linarith
    · have := mul_le_mul_of_nonneg_left g2 (by positivity : 0 ≤ 2 / vnorm v)
      have e : 2 / vnorm v * (vnorm v / 2 + vnorm v ^ 7 / 600) = 1 + vnorm v ^ 6 / 300 := by field_simp; ring
      have h6 : vnorm v ^ 6 ≤ (2e-5 : ℝ) ^ 6 := pow_le_pow_left₀ h0.le hn5 6
      norm_num at h6 ⊢
      linarith
  by_cases hl : 4e-6 < vnorm v
  · -- the closed form of `exp`, the series of `log`
    have hss : sin (vnorm v / 2) ≤ 4e-6 := by
      by_contra hc
      exact hbig ⟨hl, not_le.1 hc⟩
    refine fin _ le_rfl (by have : 0 < vnorm v ^ 7 := by positivity
                            linarith) ?_
    have e : sin (vnorm v / 2) / vnorm v * vnorm v = sin (vnorm v / 2) := by field_simp
    have := log_small (q := Quat.exp v) (v := v) (s := sin (vnorm v / 2) / vnorm v) (c := cos (vnorm v / 2)) one_pos hc0 (by positivity)
      (by rw [exp_large hl]; simp [half]) (by
        rw [exp_large hl]
        apply vec_ext <;>
          simp only [half, Quat.bar, vec_0, vec_1, vec_2, Pi.smul_apply, smul_eq_mul] <;> ring) h0 (by rw [e, mul_one]; exact hss)
    rwa [e] at this
  · -- both series
    obtain ⟨c1, -, -⟩ := C112_expCoeffs (vnorm v) h0
    dsimp only at c1
    have hk : (Quat.exp v) = Quat.normalize ⟨cos (vnorm v / 2), (0.5 - vnorm v * vnorm v / 48 + vnorm v * vnorm v * (vnorm v * vnorm v) / 3840) * v 0,
        (0.5 - vnorm v * vnorm v / 48 + vnorm v * vnorm v * (vnorm v * vnorm v) / 3840) * v 1,
        (0.5 - vnorm v * vnorm v / 48 + vnorm v * vnorm v * (vnorm v * vnorm v) / 3840) * v 2⟩ := by
      unfold Quat.exp
      simp only [gt_iff_lt, hl, if_false]
    have hx : 0 ≤ vnorm v / 2 := by positivity
    have g5 := s5 hx
    unfold S5 S3 at g5
    have es : (0.5 - 1 / 48 * (vnorm v * vnorm v) + 1 / 3840 * (vnorm v * vnorm v * (vnorm v * vnorm v))) =
        0.5 - vnorm v * vnorm v / 48 + vnorm v * vnorm v * (vnorm v * vnorm v) / 3840 := by ring
    rw [es] at c1
    have eu : (0.5 - vnorm v * vnorm v / 48 + vnorm v * vnorm v * (vnorm v * vnorm v) / 3840) * vnorm v =
        vnorm v / 2 - (vnorm v / 2) ^ 3 / 6 + (vnorm v / 2) ^ 5 / 120 := by norm_num; ring
    generalize hsd : (0.5 - vnorm v * vnorm v / 48 + vnorm v * vnorm v * (vnorm v * vnorm v) / 3840) = s at *
    have hsp : 0 < s := by
      have : 0 < s * vnorm v := by rw [eu]; linarith
      exact (pos_iff_pos_of_mul_pos this).2 h0
    have hN := norm_pos_of_w (q := ⟨cos (vnorm v / 2), s * v 0, s * v 1, s * v 2⟩) hc0
    have hN1 : 0.99 ≤ Quat.norm ⟨cos (vnorm v / 2), s * v 0, s * v 1, s * v 2⟩ := by
      have hk2 := k2 hx
      unfold K2 at hk2
      unfold Quat.norm Quat.sqNorm
      apply Real.le_sqrt_of_sq_le
      norm_num at hn5 ⊢
      have : 0.9999 ≤ cos (vnorm v / 2) := by norm_num; nlinarith
      norm_num at this
      nlinarith [mul_self_nonneg (s * v 0), mul_self_nonneg (s * v 1), mul_self_nonneg (s * v 2)]
    refine fin (s * vnorm v) (by rw [eu]; exact g5) ?_ ?_
    · have h1 := (abs_le.1 c1).2
      have h2 := mul_le_mul_of_nonneg_right h1 h0.le
      rw [sub_mul, div_mul_cancel₀ _ h0.ne'] at h2
      have e : vnorm v ^ 6 / 645120 * vnorm v = vnorm v ^ 7 / 645120 := by ring
      have : 0 < vnorm v ^ 7 := by positivity
      linarith
    · refine log_small hN hc0 hsp ?_ ?_ h0 ?_
      · rw [hk]; rfl
      · rw [hk]
        apply vec_ext <;>
          simp only [Quat.normalize, Quat.bar, vec_0, vec_1, vec_2, Pi.smul_apply, smul_eq_mul] <;> ring
      · have p3 : 0 < vnorm v ^ 3 := by positivity
        have p52 : vnorm v ^ 5 ≤ vnorm v ^ 3 := pow_le_pow_of_le_one h0.le (le_trans hn5 (by norm_num)) (by norm_num)
        rw [eu]
        norm_num at hl hN1 ⊢
        nlinarith

/-- The trigonometric branch of `SO3::log` after the series of `SO3::exp`. -/
theorem so3_mid {n : ℝ} (h0 : 0 < n) (h : n ≤ 1e-2) :
    |(abcTaylor (n * n)).1 * (arccos (1 - (abcTaylor (n * n)).2.1 * (n * n)) / sin (arccos (1 - (abcTaylor (n * n)).2.1 * (n * n)))) - 1|
      ≤ n ^ 6 / 3600 := by
  obtain ⟨⟨a1, a2⟩, ⟨b1, b2⟩, -⟩ := C112_abc n h0
  generalize (abcTaylor (n * n)).1 = a at *
  generalize (abcTaylor (n * n)).2.1 = b at *
  have p2 : 0 < n ^ 2 := by positivity
  have p7 : 0 < n ^ 7 := by positivity
  have p8 : 0 < n ^ 8 := by positivity
  have hn1 : n ≤ 0.01 := by norm_num at h ⊢; exact h
  have hs1 := sin_le h0.le
  have hs3 := s3 h0.le
  unfold S3 at hs3
  have hs9 : n * (9 / 10) ≤ sin n := by
    have : n ^ 3 = n ^ 2 * n := by ring
    have : n ^ 2 ≤ 0.01 := by norm_num at hn1 ⊢; nlinarith
    norm_num at this
    nlinarith
  have hsp : 0 < sin n := lt_of_lt_of_le (by positivity) hs9
  have a1' : sin n ≤ a * n := by
    have := mul_nonneg a1 h0.le
    rw [sub_mul, div_mul_cancel₀ _ h0.ne'] at this
    linarith
  have a2' : a * n ≤ sin n + n ^ 7 / 5040 := by
    have := mul_le_mul_of_nonneg_right a2 h0.le
    rw [sub_mul, div_mul_cancel₀ _ h0.ne'] at this
    have e : n ^ 6 / 5040 * n = n ^ 7 / 5040 := by ring
    linarith
  have b1' : 1 - b * (n * n) ≤ cos n := by
    have := mul_nonneg b1 p2.le
    rw [sub_mul, div_mul_cancel₀ _ p2.ne'] at this
    nlinarith
  have b2' : cos n - n ^ 8 / 40320 ≤ 1 - b * (n * n) := by
    have := mul_le_mul_of_nonneg_right b2 p2.le
    rw [sub_mul, div_mul_cancel₀ _ p2.ne'] at this
    have e : n ^ 6 / 40320 * n ^ 2 = n ^ 8 / 40320 := by ring
    have e2 : b * n ^ 2 = b * (n * n) := by ring
    linarith
  have p71 : n ^ 7 ≤ n := by
    have := pow_le_pow_of_le_one h0.le (le_trans h (by norm_num)) (by norm_num : 1 ≤ 7)
    simpa using this
  have a9 : a ≤ 1 := by
    by_contra hc
    push Not at hc
    have p36 : n ^ 7 ≤ n ^ 5 := pow_le_pow_of_le_one h0.le (le_trans h (by norm_num)) (by norm_num)
    have g5 := s5 h0.le
    unfold S5 S3 at g5
    have p5 : n ^ 5 = n ^ 3 * n ^ 2 := by ring
    have p3 : 0 < n ^ 3 := by positivity
    have : n ^ 2 ≤ 0.01 := by norm_num at hn1 ⊢; nlinarith
    norm_num at this
    nlinarith
  obtain ⟨d, hd⟩ : ∃ d, d = n ^ 7 / 20000 := ⟨_, rfl⟩
  have hd0 : 0 < d := by rw [hd]; positivity
  have hd1 : d ≤ 0.001 := by rw [hd]; norm_num at hn1 ⊢; linarith
  -- the angle is at least `n` and at most `n + d`
  have t1 : n ≤ arccos (1 - b * (n * n)) := by
    have := arccos_le_arccos b1'
    rwa [arccos_cos h0.le (by norm_num at hn1; linarith [pi_gt_three])] at this
  have hcd : cos (n + d) ≤ 1 - b * (n * n) := by
    rw [cos_add]
    have c1 : cos n * cos d ≤ cos n := by
      have : 0 ≤ cos n := (cos_pos_of_mem_Ioo ⟨by linarith [pi_pos], by norm_num at hn1; linarith [pi_gt_three]⟩).le
      nlinarith [cos_le_one d]
    have sd : d * (9 / 10) ≤ sin d := by
      have := s3 hd0.le
      unfold S3 at this
      have e : d ^ 3 = d ^ 2 * d := by ring
      have : d ^ 2 ≤ 0.01 := by norm_num at hd1 ⊢; nlinarith
      norm_num at this
      nlinarith
    have : n * (9 / 10) * (d * (9 / 10)) ≤ sin n * sin d := mul_le_mul hs9 sd (by positivity) hsp.le
    have e : n * d = n ^ 8 / 20000 := by rw [hd]; ring
    nlinarith
  have t2 : arccos (1 - b * (n * n)) ≤ n + d := by
    have := arccos_le_arccos hcd
    rwa [arccos_cos (by linarith) (by norm_num at hn1 hd1; linarith [pi_gt_three])] at this
  generalize arccos (1 - b * (n * n)) = θ at *
  have s1 : sin n ≤ sin θ := sin_le_sin_of_le_of_le_pi_div_two (by linarith [pi_pos]) (by
    norm_num at hn1 hd1; linarith [pi_gt_three]) t1
  have s2 : sin θ ≤ sin n + d := by
    obtain ⟨x, rfl⟩ : ∃ x, θ = n + x := ⟨θ - n, by ring⟩
    rw [sin_add]
    have hx : 0 ≤ x := by linarith
    have := sin_le hx
    have h1 : sin n * cos x ≤ sin n := by nlinarith [cos_le_one x]
    have h2 : cos n * sin x ≤ x := by
      have := sin_nonneg_of_nonneg_of_le_pi hx (by norm_num at hd1; linarith [pi_gt_three])
      nlinarith [cos_le_one n]
    linarith
  have hst : 0 < sin θ := lt_of_lt_of_le hsp s1
  have e : a * (θ / sin θ) - 1 = (a * θ - sin θ) / sin θ := by field_simp
  have a0 : 0 ≤ a := ((pos_iff_pos_of_mul_pos (hsp.trans_le a1')).2 h0).le
  have u1 : a * θ ≤ sin n + n ^ 7 / 5040 + d := by
    have := mul_le_mul a9 (by linarith : θ - n ≤ d) (by linarith) zero_le_one
    linarith
  have u2 : sin n ≤ a * θ := by
    have := mul_le_mul_of_nonneg_left t1 a0
    linarith
  rw [e, abs_div, abs_of_pos hst, div_le_iff₀ hst]
  have hb : n ^ 7 / 4000 ≤ n ^ 6 / 3600 * sin θ := by
    have := mul_le_mul_of_nonneg_left (hs9.trans s1) (by positivity : 0 ≤ n ^ 6 / 3600)
    have e : n ^ 6 / 3600 * (n * (9 / 10)) = n ^ 7 / 4000 := by ring
    linarith
  refine le_trans ?_ hb
  rw [abs_le]
  constructor <;> linarith

/-- The series branch of `SO3::log` after the series of `SO3::exp`. -/
theorem so3_tiny {m : ℝ} (h0 : 0 ≤ m) (h : m ≤ 1.1e-8) :
    |(1 / 2 - ((3 - 2 * (abcTaylor m).2.1 * m) - 3) / 12) * (2 * (abcTaylor m).1) - 1| ≤ 6e-18 := by
  have e : (1 / 2 - ((3 - 2 * (abcTaylor m).2.1 * m) - 3) / 12) * (2 * (abcTaylor m).1) - 1 =
      m ^ 2 * (-1 / 30 + m / 240 - m ^ 2 / 5184 + m ^ 3 / 259200) := by
    unfold abcTaylor
    ring
  have m1 : m ≤ 1 := h.trans (by norm_num)
  have p2 : m ^ 2 ≤ m := by nlinarith
  have p3 : m ^ 3 ≤ m := by
    have := pow_le_pow_of_le_one h0 m1 (by norm_num : 1 ≤ 3)
    simpa using this
  have q2 : 0 ≤ m ^ 2 := by positivity
  have q3 : 0 ≤ m ^ 3 := by positivity
  have hb : |(-1 / 30 + m / 240 - m ^ 2 / 5184 + m ^ 3 / 259200)| ≤ 1 / 25 := by
    rw [abs_le]
    norm_num at h
    constructor <;> linarith
  have hm : m ^ 2 ≤ 1.21e-16 := by
    calc m ^ 2 ≤ (1.1e-8 : ℝ) ^ 2 := pow_le_pow_left₀ h0 h 2
      _ = 1.21e-16 := by norm_num
  rw [e, abs_mul, abs_of_nonneg q2]
  refine (mul_le_mul hm hb (abs_nonneg _) (by norm_num)).trans ?_
  norm_num

/-- The norm below the threshold of the exponential. -/
theorem norm_lt_of_sq {w : V3} (h : sqNorm w < 4e-6) : vnorm w < 2e-3 := by
  rw [sqNorm_eq] at h
  by_contra hc
  push Not at hc
  norm_num at h hc
  nlinarith

/-- `SO3::log` after the series of `SO3::exp`, with the square of the angle. -/
theorem so3_series (w : V3) (h : sqNorm w < 4e-6) :
    ∃ κ : ℝ, |κ - 1| ≤ 6e-18 ∧ SO3.log (rodrigues (abcTaylor (sqNorm w)).1 (abcTaylor (sqNorm w)).2.1 w) = κ • w ∧
      SO3.logJ (rodrigues (abcTaylor (sqNorm w)).1 (abcTaylor (sqNorm w)).2.1 w) = κ • w := by
  have hm0 : 0 ≤ sqNorm w := by rw [sqNorm_eq]; exact mul_self_nonneg _
  have ht := So3Log.tr_rodrigues (abcTaylor (sqNorm w)).1 (abcTaylor (sqNorm w)).2.1 w
  have hx := So3Log.axis_rodrigues (abcTaylor (sqNorm w)).1 (abcTaylor (sqNorm w)).2.1 w
  have hb1 : 0.499 ≤ (abcTaylor (sqNorm w)).2.1 ∧ (abcTaylor (sqNorm w)).2.1 ≤ 0.501 := by
    unfold abcTaylor
    norm_num at h ⊢
    constructor <;> nlinarith
  by_cases hc : SO3.tr (rodrigues (abcTaylor (sqNorm w)).1 (abcTaylor (sqNorm w)).2.1 w) ≥ 3 - 1e-8
  · refine ⟨(1 / 2 - ((3 - 2 * (abcTaylor (sqNorm w)).2.1 * sqNorm w) - 3) / 12) * (2 * (abcTaylor (sqNorm w)).1), ?_, ?_, ?_⟩
    · refine so3_tiny hm0 ?_
      rw [ht] at hc
      norm_num at hc hb1 ⊢
      nlinarith
    · unfold SO3.log
      dsimp only
      rw [if_pos hc, ht, hx, smul_smul]
    · unfold SO3.logJ
      dsimp only
      rw [if_pos hc, ht, hx, smul_smul]
  · have h0 : 0 < vnorm w := by
      rcases (Verif.Props.Quat.norm_nonneg w).eq_or_lt with h0 | h0
      · exfalso
        apply hc
        rw [ht, sqNorm_eq, ← h0]
        norm_num
      · exact h0
    have hn := norm_lt_of_sq h
    have hm : 3 - 1e-8 > SO3.tr (rodrigues (abcTaylor (sqNorm w)).1 (abcTaylor (sqNorm w)).2.1 w) ∧
        SO3.tr (rodrigues (abcTaylor (sqNorm w)).1 (abcTaylor (sqNorm w)).2.1 w) > -1 + 1e-8 := by
      refine ⟨not_le.1 hc, ?_⟩
      rw [ht]
      norm_num at h hb1 ⊢
      nlinarith
    have e : (SO3.tr (rodrigues (abcTaylor (sqNorm w)).1 (abcTaylor (sqNorm w)).2.1 w) - 1) / 2 =
        1 - (abcTaylor (sqNorm w)).2.1 * sqNorm w := by rw [ht]; ring
    have hr := so3_mid h0 (le_of_lt (hn.trans (by norm_num)))
    rw [← sqNorm_eq] at hr
    refine ⟨_, hr.trans ?_, ?_, ?_⟩
    · have : vnorm w ^ 6 ≤ (2e-3 : ℝ) ^ 6 := pow_le_pow_left₀ h0.le hn.le 6
      norm_num at this ⊢
      linarith
    · unfold SO3.log
      dsimp only
      rw [if_neg hc, if_pos hm, e, hx, smul_smul]
      congr 1
      ring
    · unfold SO3.logJ
      dsimp only
      rw [if_neg hc, if_pos hm, e, hx, smul_smul]
      congr 1
      ring

theorem cos_gap {w : V3} (h : 4e-6 ≤ sqNorm w) (h2 : vnorm w < π) : 1 + 2 * cos (vnorm w) < 3 - 1e-8 := by
  have hn : 2e-3 ≤ vnorm w := by
    by_contra hc
    push Not at hc
    have := Verif.Props.Quat.norm_nonneg w
    rw [sqNorm_eq] at h
    norm_num at h hc
    nlinarith
  have h1 : cos (vnorm w) ≤ cos 2e-3 := cos_le_cos_of_nonneg_of_le_pi (by norm_num) h2.le hn
  have h4 := k4 (by norm_num : (0 : ℝ) ≤ 2e-3)
  unfold K4 K2 at h4
  norm_num at h1 h4 ⊢
  linarith

/-- C112: `SO3::log` (both overloads) undoes `SO3::exp` up to a factor that differs from one by less than `1e-17`, for every vector of almost up
to half a turn. -/
theorem C112_so3_round (w : V3) (h2 : vnorm w < π) (h3 : -1 + 1e-8 < 1 + 2 * cos (vnorm w)) :
    ∃ κ : ℝ, |κ - 1| ≤ 1e-17 ∧ SO3.log (SO3.exp w) = κ • w ∧ SO3.logJ (SO3.exp w) = κ • w := by
  by_cases h : sqNorm w < 4e-6
  · obtain ⟨κ, h4, h5, h6⟩ := so3_series w h
    have e : SO3.exp w = rodrigues (abcTaylor (sqNorm w)).1 (abcTaylor (sqNorm w)).2.1 w := by
      unfold SO3.exp abcSo3
      dsimp only
      rw [if_pos h]
    rw [e]
    exact ⟨κ, h4.trans (by norm_num), h5, h6⟩
  · have h' := not_lt.1 h
    have hc4 : 1 + 2 * cos (vnorm w) < 3 - 1e-8 := cos_gap h' h2
    obtain ⟨h5, h6⟩ := So3Log.C71_log_exp_partial w h' h2 h3 hc4
    exact ⟨1, by norm_num, by rw [one_smul]; exact h5, by rw [one_smul]; exact h6⟩

/-- The coefficient of `SE3::log` on either side of its threshold. -/
theorem logE_near (w : V3) (h : vnorm w < 1) :
    ∃ e, SE3.logE w = some e ∧ |e - (1 / 12 + sqNorm w * (1 / 720 + sqNorm w * (1 / 30240)))| ≤ vnorm w ^ 6 / 400000 := by
  have hn0 := Verif.Props.Quat.norm_nonneg w
  by_cases hc : √(sqNorm w) < 1e-4
  · refine ⟨1 / 12 + sqNorm w * (1 / 720 + sqNorm w * (1 / 30240)), ?_, ?_⟩
    · unfold SE3.logE
      dsimp only
      rw [if_pos hc]
    · rw [sub_self, abs_zero]; positivity
  · have h0 : 0 < vnorm w := by
      rw [sqrt_sqNorm] at hc
      exact lt_of_lt_of_le (by norm_num) (not_lt.1 hc)
    have ha : (abcTrig (sqNorm w) √(sqNorm w)).1 ≠ 0 := by
      have : 0 < sin (vnorm w) := sin_pos_of_pos_of_lt_pi h0 (by linarith [pi_gt_three])
      rw [sqrt_sqNorm]
      unfold abcTrig
      positivity
    refine ⟨((abcTrig (sqNorm w) √(sqNorm w)).2.1 * 0.5 - (abcTrig (sqNorm w) √(sqNorm w)).2.2) / (abcTrig (sqNorm w) √(sqNorm w)).1, ?_, ?_⟩
    · unfold SE3.logE
      dsimp only
      rw [if_neg hc, if_neg ha]
    · have := logE_series h0 h
      rw [sqrt_sqNorm, abs_sub_comm]
      unfold abcTrig
      dsimp only
      rw [sqNorm_eq, ← sq (vnorm w)]
      rw [← sq] at this
      exact this

theorem se3_apply (b c κ e : ℝ) (w v : V3) :
    (rodrigues b c w).mulVec v - (0.5 : ℝ) • cross (κ • w) ((rodrigues b c w).mulVec v)
      + e • cross (κ • w) (cross (κ • w) ((rodrigues b c w).mulVec v)) =
    v + (b - κ / 2 + sqNorm w * κ * c / 2 - sqNorm w * (e * κ ^ 2) * b) • cross w v
      + (c - κ * b / 2 + e * κ ^ 2 - sqNorm w * (e * κ ^ 2) * c) • cross w (cross w v) := by
  rw [sqNorm_at]
  unfold rodrigues
  apply vec_ext <;> comps <;> norm_num <;> ring

/-- The two factors of the translation. -/
theorem se3_coeffs {m κ η : ℝ} (h0 : 0 ≤ m) (h : m < 4e-6) (hκ : |κ - 1| ≤ 6e-18)
    (hη : |η - (1 / 12 + m * (1 / 720 + m * (1 / 30240)))| ≤ 3e-18) :
    |(abcTaylor m).2.1 - κ / 2 + m * κ * (abcTaylor m).2.2 / 2 - m * η * (abcTaylor m).2.1| ≤ 1e-17 ∧
    |(abcTaylor m).2.2 - κ * (abcTaylor m).2.1 / 2 + η - m * η * (abcTaylor m).2.2| ≤ 1e-17 := by
  obtain ⟨δ, hδ⟩ : ∃ δ, δ = κ - 1 := ⟨_, rfl⟩
  obtain ⟨ε, hε⟩ : ∃ ε, ε = η - (1 / 12 + m * (1 / 720 + m * (1 / 30240))) := ⟨_, rfl⟩
  rw [← hδ] at hκ
  rw [← hε] at hη
  have e1 : (abcTaylor m).2.1 - κ / 2 + m * κ * (abcTaylor m).2.2 / 2 - m * η * (abcTaylor m).2.1 =
      m ^ 3 * (1 / 40320 - m / 1814400 - m ^ 2 / 21772800) + δ * (-1 / 2 + m / 2 * (1 / 6 - m / 120 + m ^ 2 / 5040))
        - ε * (m * (1 / 2 - m / 24 + m ^ 2 / 720)) := by
    rw [hδ, hε]; unfold abcTaylor; ring
  have e2 : (abcTaylor m).2.2 - κ * (abcTaylor m).2.1 / 2 + η - m * η * (abcTaylor m).2.2 =
      m ^ 3 * (-19 / 1814400 - m ^ 2 / 152409600) - δ * ((1 / 2 - m / 24 + m ^ 2 / 720) / 2)
        + ε * (1 - m * (1 / 6 - m / 120 + m ^ 2 / 5040)) := by
    rw [hδ, hε]; unfold abcTaylor; ring
  have hm : m ≤ 1 / 1000 := by norm_num at h ⊢; linarith
  have hm2 : m ^ 2 ≤ 1 / 1000 := by nlinarith
  have q2 : 0 ≤ m ^ 2 := by positivity
  have hm3 : m ^ 3 ≤ 6.4e-17 := by
    calc m ^ 3 ≤ (4e-6 : ℝ) ^ 3 := pow_le_pow_left₀ h0 h.le 3
      _ = 6.4e-17 := by norm_num
  have hm3' : |m ^ 3| ≤ 6.4e-17 := by rw [abs_of_nonneg (by positivity)]; exact hm3
  have bd : ∀ {x y X Y : ℝ}, |x| ≤ X → |y| ≤ Y → |x * y| ≤ X * Y := by
    intro x y X Y h1 h2
    rw [abs_mul]
    exact mul_le_mul h1 h2 (abs_nonneg _) ((abs_nonneg _).trans h1)
  constructor
  · rw [e1]
    have t1 := bd hm3' (show |1 / 40320 - m / 1814400 - m ^ 2 / 21772800| ≤ 1 / 40000 by rw [abs_le]; constructor <;> linarith)
    have t2 := bd hκ (show |-1 / 2 + m / 2 * (1 / 6 - m / 120 + m ^ 2 / 5040)| ≤ 1 by
      have : |m / 2 * (1 / 6 - m / 120 + m ^ 2 / 5040)| ≤ 1 / 2000 * 1 :=
        bd (by rw [abs_of_nonneg (by positivity)]; linarith) (by rw [abs_le]; constructor <;> linarith)
      rw [abs_le] at this ⊢
      constructor <;> linarith)
    have t3 := bd hη (show |m * (1 / 2 - m / 24 + m ^ 2 / 720)| ≤ 1 / 1000 * 1 from
      bd (by rw [abs_of_nonneg h0]; exact hm) (by rw [abs_le]; constructor <;> linarith))
    rw [abs_le] at t1 t2 t3 ⊢
    norm_num at t1 t2 t3 ⊢
    constructor <;> linarith
  · rw [e2]
    have t1 := bd hm3' (show |-19 / 1814400 - m ^ 2 / 152409600| ≤ 1 / 40000 by rw [abs_le]; constructor <;> linarith)
    have t2 := bd hκ (show |(1 / 2 - m / 24 + m ^ 2 / 720) / 2| ≤ 1 / 3 by rw [abs_le]; constructor <;> linarith)
    have t3 := bd hη (show |1 - m * (1 / 6 - m / 120 + m ^ 2 / 5040)| ≤ 11 / 10 by
      have : |m * (1 / 6 - m / 120 + m ^ 2 / 5040)| ≤ 1 / 1000 * 1 :=
        bd (by rw [abs_of_nonneg (by positivity)]; linarith) (by rw [abs_le]; constructor <;> linarith)
      rw [abs_le] at this ⊢
      constructor <;> linarith)
    rw [abs_le] at t1 t2 t3 ⊢
    norm_num at t1 t2 t3 ⊢
    constructor <;> linarith

/-- C112: `SE3::log` undoes `SE3::exp` up to a factor of the rotation and two factors of the translation across the axis, all off by less than
`1e-17`. -/
theorem C112_se3_round (x : V6) (h2 : vnorm x.w < π) (h3 : -1 + 1e-8 < 1 + 2 * cos (vnorm x.w)) :
    ∃ κ p q : ℝ, |κ - 1| ≤ 1e-17 ∧ |p| ≤ 1e-17 ∧ |q| ≤ 1e-17 ∧
      SE3.log (SE3.exp x) = some ⟨κ • x.w, x.v + p • cross x.w x.v + q • cross x.w (cross x.w x.v)⟩ := by
  by_cases h : sqNorm x.w < 4e-6
  · obtain ⟨κ, h4, h5, -⟩ := so3_series x.w h
    have hm0 : 0 ≤ sqNorm x.w := by rw [sqNorm_eq]; exact mul_self_nonneg _
    have hn := norm_lt_of_sq h
    have hn0 := Verif.Props.Quat.norm_nonneg x.w
    have hk := abs_le.1 h4
    norm_num at hk
    have hκ : 0 ≤ κ := by linarith [hk.1]
    have hnk : vnorm (κ • x.w) = κ * vnorm x.w := norm_smul _ hκ _
    have hnk3 : vnorm (κ • x.w) ≤ 3e-3 := by
      rw [hnk]
      norm_num at hn ⊢
      nlinarith [hk.2]
    obtain ⟨e, he, hb⟩ := logE_near (κ • x.w) (lt_of_le_of_lt hnk3 (by norm_num))
    have hs : sqNorm (κ • x.w) = κ ^ 2 * sqNorm x.w := by rw [sqNorm_eq, sqNorm_eq, hnk]; ring
    have hη : |e * κ ^ 2 - (1 / 12 + sqNorm x.w * (1 / 720 + sqNorm x.w * (1 / 30240)))| ≤ 3e-18 := by
      rw [hs] at hb
      have hb2 : |e - (1 / 12 + κ ^ 2 * sqNorm x.w * (1 / 720 + κ ^ 2 * sqNorm x.w * (1 / 30240)))| ≤ 2e-21 := by
        refine hb.trans ?_
        have : vnorm (κ • x.w) ^ 6 ≤ (3e-3 : ℝ) ^ 6 := pow_le_pow_left₀ (Verif.Props.Quat.norm_nonneg _) hnk3 6
        norm_num at this ⊢
        linarith
      generalize sqNorm x.w = m at *
      clear hb he hs h5 hnk hnk3
      have hm : m ≤ 1 / 1000 := by norm_num at h ⊢; linarith
      obtain ⟨δ, hδ⟩ : ∃ δ, δ = κ ^ 2 - 1 := ⟨_, rfl⟩
      have hd : |δ| ≤ 1.3e-17 := by
        have : δ = (κ - 1) * (κ + 1) := by rw [hδ]; ring
        rw [this, abs_mul]
        have h1 : |κ + 1| ≤ 2.1 := by rw [abs_le]; norm_num; constructor <;> linarith [hk.1, hk.2]
        refine (mul_le_mul h4 h1 (abs_nonneg _) (by norm_num)).trans (by norm_num)
      obtain ⟨ε, hε⟩ : ∃ ε, ε = e - (1 / 12 + κ ^ 2 * m * (1 / 720 + κ ^ 2 * m * (1 / 30240))) := ⟨_, rfl⟩
      rw [← hε] at hb2
      have hδ1 : |δ| ≤ 1 := hd.trans (by norm_num)
      have hδ1' := abs_le.1 hδ1
      have ek : κ ^ 2 = 1 + δ := by rw [hδ]; ring
      have ee : e * κ ^ 2 - (1 / 12 + m * (1 / 720 + m * (1 / 30240))) =
          ε * (1 + δ) + δ * (1 / 12 + m / 720 * (2 + δ) + m ^ 2 / 30240 * (3 + 3 * δ + δ ^ 2)) := by
        rw [hε, ek]; ring
      rw [ee]
      have hδ2 : δ ^ 2 ≤ 1 := by nlinarith
      have q2 : 0 ≤ δ ^ 2 := by positivity
      have hm2 : m ^ 2 ≤ 1 / 1000 := by nlinarith
      have bd : ∀ {x y X Y : ℝ}, |x| ≤ X → |y| ≤ Y → |x * y| ≤ X * Y := by
        intro x y X Y h1 h2
        rw [abs_mul]
        exact mul_le_mul h1 h2 (abs_nonneg _) ((abs_nonneg _).trans h1)
      have t1 := bd hb2 (show |1 + δ| ≤ 2 by rw [abs_le]; constructor <;> linarith)
      have t2 := bd hd (show |1 / 12 + m / 720 * (2 + δ) + m ^ 2 / 30240 * (3 + 3 * δ + δ ^ 2)| ≤ 1 / 10 by
        have u1 : |m / 720 * (2 + δ)| ≤ 1 / 720000 * 3 :=
          bd (by rw [abs_of_nonneg (by positivity)]; linarith) (by rw [abs_le]; constructor <;> linarith)
        have u2 : |m ^ 2 / 30240 * (3 + 3 * δ + δ ^ 2)| ≤ 1 / 30240000 * 7 :=
          bd (by rw [abs_of_nonneg (by positivity)]; linarith) (by rw [abs_le]; constructor <;> linarith)
        rw [abs_le] at u1 u2 ⊢
        constructor <;> linarith)
      rw [abs_le] at t1 t2 ⊢
      norm_num at t1 t2 ⊢
      constructor <;> linarith
    obtain ⟨c1, c2⟩ := se3_coeffs hm0 h h4 hη
    refine ⟨κ, _, _, h4.trans (by norm_num), c1, c2, ?_⟩
    have e1 : SE3.exp x = ⟨rodrigues (abcTaylor (sqNorm x.w)).1 (abcTaylor (sqNorm x.w)).2.1 x.w,
        (rodrigues (abcTaylor (sqNorm x.w)).2.1 (abcTaylor (sqNorm x.w)).2.2 x.w).mulVec x.v⟩ := by
      unfold SE3.exp abcSo3
      dsimp only
      rw [if_pos h]
    rw [e1]
    unfold SE3.log
    dsimp only
    rw [h5, he, Option.map_some, se3_apply]
  · have h' := not_lt.1 h
    refine ⟨1, 0, 0, by norm_num, by norm_num, by norm_num, ?_⟩
    rw [Se3Jac.C71_se3_log_exp_partial x h' h2 h3 (cos_gap h' h2), one_smul, zero_smul, zero_smul, add_zero, add_zero]

/-- The dual quaternion of `DQuat::exp` with the factors `s` and `k`. -/
noncomputable def screwOf (c s k : ℝ) (x : V6) : DQuat :=
  ⟨⟨c, s * x.w 0, s * x.w 1, s * x.w 2⟩,
   ⟨-dot x.w x.v / 2 * s, dot x.w x.v * k * x.w 0 + s * x.v 0, dot x.w x.v * k * x.w 1 + s * x.v 1,
     dot x.w x.v * k * x.w 2 + s * x.v 2⟩⟩

theorem screwOf_log (c s k : ℝ) (x : V6) (h : ¬ s * s * sqNorm x.w > 1e-8) :
    (screwOf c s k x).log =
      let a := 1 - 1 / (3 * (c * c * c)) * (s * s * sqNorm x.w) + 1 / (5 * (c * c * c * (c * c))) * (s * s * sqNorm x.w * (s * s * sqNorm x.w))
      let C := 5 / 24 - 379 / 1920 * (s * s * sqNorm x.w) + 46073 / 322560 * (s * s * sqNorm x.w * (s * s * sqNorm x.w))
        - 127431 / 1146880 * (s * s * sqNorm x.w * (s * s * sqNorm x.w) * (s * s * sqNorm x.w))
      ⟨(2 * a * s) • x.w, (2 * a * s) • x.v + (2 * (a * k + s * s * ((k * sqNorm x.w + s) * C + 1 / 2)) * dot x.w x.v) • x.w⟩ := by
  have hb : (screwOf c s k x).r.bar = s • x.w := by
    apply vec_ext <;> simp only [screwOf, bar_0, bar_1, bar_2, Pi.smul_apply, smul_eq_mul]
  have hd : (screwOf c s k x).d.bar = (dot x.w x.v * k) • x.w + s • x.v := by
    apply vec_ext <;> simp only [screwOf, bar_0, bar_1, bar_2, Pi.smul_apply, Pi.add_apply, smul_eq_mul]
  have hn : sqNorm (s • x.w) = s * s * sqNorm x.w := by simp only [sqNorm, dot, Pi.smul_apply, smul_eq_mul]; ring
  have hg : dot (s • x.w) ((dot x.w x.v * k) • x.w + s • x.v) = s * dot x.w x.v * (k * sqNorm x.w + s) := by
    simp only [sqNorm, dot, Pi.smul_apply, Pi.add_apply, smul_eq_mul]; ring
  unfold DQuat.log
  dsimp only
  rw [hb, hd, hn, if_neg h, hg]
  have h1 : (screwOf c s k x).r.w = c := rfl
  have h2 : (screwOf c s k x).d.w = -dot x.w x.v / 2 * s := rfl
  rw [h1, h2]
  apply V6.ext
  · apply vec_ext <;> simp only [Pi.smul_apply, smul_eq_mul] <;> ring
  · apply vec_ext <;> simp only [Pi.smul_apply, Pi.add_apply, smul_eq_mul] <;> ring

theorem screwOf_log_big (c s k : ℝ) (x : V6) (hs : 0 < s) (h0 : 0 < vnorm x.w) (h : s * s * sqNorm x.w > 1e-8) :
    (screwOf c s k x).log =
      ⟨(2 * atan2 (s * vnorm x.w) c / vnorm x.w) • x.w, (2 * atan2 (s * vnorm x.w) c / vnorm x.w) • x.v +
        (2 * (c * k * sqNorm x.w + c * s - atan2 (s * vnorm x.w) c / vnorm x.w + s * s * sqNorm x.w / 2) / sqNorm x.w * dot x.w x.v) • x.w⟩ := by
  have hb : (screwOf c s k x).r.bar = s • x.w := by
    apply vec_ext <;> simp only [screwOf, bar_0, bar_1, bar_2, Pi.smul_apply, smul_eq_mul]
  have hd : (screwOf c s k x).d.bar = (dot x.w x.v * k) • x.w + s • x.v := by
    apply vec_ext <;> simp only [screwOf, bar_0, bar_1, bar_2, Pi.smul_apply, Pi.add_apply, smul_eq_mul]
  have hn : sqNorm (s • x.w) = s * s * sqNorm x.w := by simp only [sqNorm, dot, Pi.smul_apply, smul_eq_mul]; ring
  have hv : √(s * s * sqNorm x.w) = s * vnorm x.w := by
    rw [← hn, sqrt_sqNorm, norm_smul _ hs.le]
  have hg : dot (s • x.w) ((dot x.w x.v * k) • x.w + s • x.v) = s * dot x.w x.v * (k * sqNorm x.w + s) := by
    simp only [sqNorm, dot, Pi.smul_apply, Pi.add_apply, smul_eq_mul]; ring
  unfold DQuat.log
  dsimp only
  rw [hb, hd, hn, if_pos h, hg, hv]
  have h1 : (screwOf c s k x).r.w = c := rfl
  have h2 : (screwOf c s k x).d.w = -dot x.w x.v / 2 * s := rfl
  rw [h1, h2, sqNorm_eq]
  generalize atan2 (s * vnorm x.w) c = A
  generalize dot x.w x.v = g
  generalize vnorm x.w = n at h0 ⊢
  have k1 : 2 * (A / (s * n)) * s = 2 * A / n := by field_simp
  have key : 2 * (A / (s * n) * (g * k) + ((c - A / (s * n)) * (s * g * (k * (n * n) + s) / (s * s * (n * n))) - -g / 2 * s) * s) =
      2 * (c * k * (n * n) + c * s - A / n + s * s * (n * n) / 2) / (n * n) * g := by
    field_simp
    ring
  apply V6.ext
  · apply vec_ext <;> simp only [Pi.smul_apply, smul_eq_mul]
    · linear_combination x.w 0 * k1
    · linear_combination x.w 1 * k1
    · linear_combination x.w 2 * k1
  · apply vec_ext <;> simp only [Pi.smul_apply, Pi.add_apply, smul_eq_mul]
    · linear_combination x.w 0 * key + x.v 0 * k1
    · linear_combination x.w 1 * key + x.v 1 * k1
    · linear_combination x.w 2 * key + x.v 2 * k1

/-- The factors of `DQuat::log` on its series branch after the series of `DQuat::exp`. -/
theorem dquat_tiny {m s k c : ℝ} (hm : 0 ≤ m) (h4 : m ≤ 4e-6) (hs : s = 0.5 - 1 / 48 * m + 1 / 3840 * (m * m))
    (hk : k = -1 / 24 + 1 / 960 * m - 1 / 107520 * (m * m)) (hc : 0.999 ≤ c) (h : s * s * m ≤ 1e-8) :
    let a := 1 - 1 / (3 * (c * c * c)) * (s * s * m) + 1 / (5 * (c * c * c * (c * c))) * (s * s * m * (s * s * m))
    let C := 5 / 24 - 379 / 1920 * (s * s * m) + 46073 / 322560 * (s * s * m * (s * s * m))
      - 127431 / 1146880 * (s * s * m * (s * s * m) * (s * s * m))
    |2 * a * s - 1| ≤ 1e-8 ∧ |2 * (a * k + s * s * ((k * m + s) * C + 1 / 2))| * m ≤ 2e-8 := by
  have hm1 : m * m ≤ m * 4e-6 := mul_le_mul_of_nonneg_left h4 hm
  have hmm : 0 ≤ m * m := by positivity
  have s1 : 0.4999 ≤ s := by rw [hs]; norm_num at h4 hm1 ⊢; linarith
  have s2 : s ≤ 0.5 := by rw [hs]; norm_num at h4 hm1 ⊢; linarith
  have s0 : 0 ≤ s := le_trans (by norm_num) s1
  have hm8 : m ≤ 4.01e-8 := by
    have h1 : 0.4999 * 0.4999 ≤ s * s := mul_le_mul s1 s1 (by norm_num) s0
    have h2 := mul_le_mul_of_nonneg_right h1 hm
    norm_num at h2 h ⊢
    linarith
  have s3 : 0.4999999991 ≤ s := by rw [hs]; norm_num at hm8 ⊢; linarith
  have hc0 : 0 < c := lt_of_lt_of_le (by norm_num) hc
  have z1 : 0 ≤ 1 / (3 * (c * c * c)) := by positivity
  have z2 : 1 / (3 * (c * c * c)) ≤ 0.34 := by
    rw [div_le_iff₀ (by positivity)]
    have : 0.999 * 0.999 * 0.999 ≤ c * c * c := by gcongr
    norm_num at this ⊢
    linarith
  have y1 : 0 ≤ 1 / (5 * (c * c * c * (c * c))) := by positivity
  have y2 : 1 / (5 * (c * c * c * (c * c))) ≤ 0.21 := by
    rw [div_le_iff₀ (by positivity)]
    have : 0.999 * 0.999 * 0.999 * (0.999 * 0.999) ≤ c * c * c * (c * c) := by gcongr
    norm_num at this ⊢
    linarith
  have t0 : 0 ≤ s * s * m := by positivity
  generalize 1 / (3 * (c * c * c)) = z at *
  generalize 1 / (5 * (c * c * c * (c * c))) = y at *
  intro a C
  have bd : ∀ {x y X Y : ℝ}, |x| ≤ X → |y| ≤ Y → |x * y| ≤ X * Y := by
    intro x y X Y h1 h2
    rw [abs_mul]
    exact mul_le_mul h1 h2 (abs_nonneg _) ((abs_nonneg _).trans h1)
  have hτ : s * s * m * (s * s * m) ≤ s * s * m * 1e-8 := mul_le_mul_of_nonneg_left h t0
  have hτ3 : s * s * m * (s * s * m) * (s * s * m) ≤ s * s * m * (s * s * m) * 1e-8 := mul_le_mul_of_nonneg_left h (by positivity)
  have hτ0 : 0 ≤ s * s * m * (s * s * m) := by positivity
  have hτ30 : 0 ≤ s * s * m * (s * s * m) * (s * s * m) := by positivity
  have w1 : 0 ≤ y * (s * s * m * (s * s * m)) := by positivity
  have w2 : y * (s * s * m * (s * s * m)) ≤ 0.21 * (s * s * m * 1e-8) := mul_le_mul y2 hτ (by positivity) (by norm_num)
  have w3 : z * (s * s * m) ≤ 0.34 * 1e-8 := mul_le_mul z2 h t0 (by norm_num)
  have w4 : 0 ≤ z * (s * s * m) := by positivity
  have hC : |C| ≤ 0.21 := by
    simp only [C]
    rw [abs_le]
    norm_num at h hτ hτ3 ⊢
    constructor <;> linarith
  have ha1 : 1 - 0.35e-8 ≤ a := by simp only [a]; norm_num at w3 ⊢; linarith
  have ha2 : a ≤ 1 + 1e-12 := by simp only [a]; norm_num at w2 h ⊢; linarith
  have hk1 : |k| ≤ 0.042 := by
    rw [hk, abs_le]
    norm_num at hm8 hm1 ⊢
    constructor <;> linarith
  clear_value a C
  constructor
  · have a0 : 0 ≤ a := le_trans (by norm_num) ha1
    have l : (1 - 0.35e-8) * 0.4999999991 ≤ a * s := mul_le_mul ha1 s3 (by norm_num) a0
    have u : a * s ≤ (1 + 1e-12) * 0.5 := mul_le_mul ha2 s2 s0 (by norm_num)
    rw [abs_le]
    norm_num at l u ⊢
    constructor <;> linarith
  · have haa : |a| ≤ 1.001 := by rw [abs_le]; norm_num at ha1 ha2 ⊢; constructor <;> linarith
    have hss : |s * s| ≤ 0.5 * 0.5 := bd (by rw [abs_of_nonneg s0]; exact s2) (by rw [abs_of_nonneg s0]; exact s2)
    have t1 := bd haa hk1
    have hkm : |k * m| ≤ 0.042 * 4.01e-8 := bd hk1 (by rw [abs_of_nonneg hm]; exact hm8)
    have hks : |k * m + s| ≤ 0.51 := by
      rw [abs_le] at hkm ⊢
      norm_num at hkm s1 s2 ⊢
      constructor <;> linarith
    have t2 := bd hks hC
    have t3 : |(k * m + s) * C + 1 / 2| ≤ 0.61 := by
      rw [abs_le] at t2 ⊢
      norm_num at t2 ⊢
      constructor <;> linarith
    have t4 := bd hss t3
    have t5 : |2 * (a * k + s * s * ((k * m + s) * C + 1 / 2))| ≤ 0.4 := by
      rw [abs_le] at t1 t4 ⊢
      norm_num at t1 t4 ⊢
      constructor <;> linarith
    refine (mul_le_mul t5 hm8 hm (by norm_num)).trans (by norm_num)

/-- The factors of `DQuat::log` on its trigonometric branch after the series of `DQuat::exp`. -/
theorem dquat_mid {n s k : ℝ} (h0 : 0 < n) (h : n ≤ 2e-3) (hs0 : 0 < s) (hs : s = 0.5 - 1 / 48 * (n * n) + 1 / 3840 * (n * n * (n * n)))
    (hk : k = -1 / 24 + 1 / 960 * (n * n) - 1 / 107520 * (n * n * (n * n))) :
    |2 * atan2 (s * n) (cos (n / 2)) / n - 1| ≤ 1e-8 ∧
    |2 * (cos (n / 2) * k * (n * n) + cos (n / 2) * s - atan2 (s * n) (cos (n / 2)) / n + s * s * (n * n) / 2) / (n * n)| * (n * n) ≤ 2e-8 := by
  obtain ⟨c1, c2, -⟩ := C112_expCoeffs n h0
  dsimp only at c1 c2
  rw [← hs] at c1
  rw [← hk] at c2
  have hx : 0 ≤ n / 2 := by positivity
  have g5 := s5 hx
  unfold S5 S3 at g5
  have eu : s * n = n / 2 - (n / 2) ^ 3 / 6 + (n / 2) ^ 5 / 120 := by rw [hs]; norm_num; ring
  have p6 : n ^ 6 ≤ 6.4e-17 := by
    calc n ^ 6 ≤ (2e-3 : ℝ) ^ 6 := pow_le_pow_left₀ h0.le h 6
      _ = 6.4e-17 := by norm_num
  have p7 : 0 < n ^ 7 := by positivity
  have p60 : 0 < n ^ 6 := by positivity
  have hu : s * n ≤ sin (n / 2) + n ^ 7 / 600000 := by
    have h1 := (abs_le.1 c1).2
    have h2 := mul_le_mul_of_nonneg_right h1 h0.le
    rw [sub_mul, div_mul_cancel₀ _ h0.ne'] at h2
    have e : n ^ 6 / 645120 * n = n ^ 7 / 645120 := by ring
    linarith
  obtain ⟨hc, -, -, hl2, hl1⟩ := arctan_round h0 (le_trans h (by norm_num)) (by rw [eu]; exact g5) hu
  have hc0 : 0 < cos (n / 2) := lt_of_lt_of_le (by norm_num) hc
  rw [← atan2_arctan hc0] at hl1 hl2
  have hsc := sin_sq_add_cos_sq (n / 2)
  have hS : |sin (n / 2)| ≤ 1 := abs_sin_le_one _
  have hC : |cos (n / 2)| ≤ 1 := abs_cos_le_one _
  generalize atan2 (s * n) (cos (n / 2)) = A at *
  generalize sin (n / 2) = S at *
  generalize cos (n / 2) = c at *
  obtain ⟨α, hα⟩ : ∃ α, α = A / n - 1 / 2 := ⟨_, rfl⟩
  have hAn : A = n / 2 + α * n := by rw [hα]; field_simp; ring
  have α0 : 0 ≤ α := by
    by_contra hcon
    push Not at hcon
    nlinarith
  have α1 : α ≤ n ^ 6 / 500000 := by
    have : α * n ≤ n ^ 6 / 500000 * n := by
      have e : n ^ 6 / 500000 * n = n ^ 7 / 500000 := by ring
      linarith
    exact le_of_mul_le_mul_right this h0
  obtain ⟨σ, hσ⟩ : ∃ σ, σ = s - S / n := ⟨_, rfl⟩
  obtain ⟨τ, hτ⟩ : ∃ τ, τ = k - (c / 2 - S / n) / n ^ 2 := ⟨_, rfl⟩
  rw [← hσ] at c1
  rw [← hτ] at c2
  have bd : ∀ {x y X Y : ℝ}, |x| ≤ X → |y| ≤ Y → |x * y| ≤ X * Y := by
    intro x y X Y h1 h2
    rw [abs_mul]
    exact mul_le_mul h1 h2 (abs_nonneg _) ((abs_nonneg _).trans h1)
  have e1 : 2 * A / n - 1 = 2 * α := by rw [hα]; field_simp
  constructor
  · rw [e1, abs_of_nonneg (by positivity)]
    norm_num at p6 ⊢
    linarith
  · have e2 : c * k * (n * n) + c * s - A / n + s * s * (n * n) / 2 = c * τ * (n * n) + c * σ - α + σ * (n * S) + σ * σ * (n * n) / 2 := by
      have e3 : A / n = 1 / 2 + α := by rw [hα]; ring
      have e4 : s = S / n + σ := by rw [hσ]; ring
      have e5 : k = (c / 2 - S / n) / n ^ 2 + τ := by rw [hτ]; ring
      rw [e3, e4, e5]
      field_simp
      linear_combination n * hsc
    rw [e2, abs_div, abs_of_pos (by positivity : 0 < n * n), div_mul_cancel₀ _ (by positivity)]
    have hn1 : |n| ≤ 1 := by rw [abs_of_pos h0]; exact h.trans (by norm_num)
    have hnn := bd hn1 hn1
    have hσ' : |σ| ≤ 1e-9 := c1.trans (by norm_num at p6 ⊢; linarith)
    have hτ' : |τ| ≤ 1e-9 := c2.trans (by norm_num at p6 ⊢; linarith)
    have t1 := bd (bd hC hτ') hnn
    have t2 := bd hC hσ'
    have t3 := bd hσ' (bd hn1 hS)
    have t4 := bd (bd hσ' hσ') hnn
    rw [abs_le] at t1 t2 t3 t4 ⊢
    norm_num at t1 t2 t3 t4 p6 ⊢
    constructor <;> linarith

/-- C112: `DQuat::log` undoes `DQuat::exp` only up to `1e-8`: the rotation and the translation are scaled by the same factor, and the translation
along the axis is off by up to `2e-8` of itself.  (Where the logarithm does not use its series the error is zero or below `1e-15`;
C112_dquat_log_violated says why.) -/
theorem C112_dquat_round (x : V6) (h2 : vnorm x.w < 2 * π) (hs : π ≤ vnorm x.w → 1e-8 < sin (vnorm x.w / 2) ^ 2) :
    ∃ κ β : ℝ, |κ - 1| ≤ 1e-8 ∧ |β| * sqNorm x.w ≤ 2e-8 ∧
      (DQuat.exp x).log = ⟨κ • x.w, κ • x.v + (β * dot x.w x.v) • x.w⟩ := by
  by_cases h : 4e-6 < sqNorm x.w
  · refine ⟨1, 0, by norm_num, by norm_num, ?_⟩
    have hsin : 1e-8 < sin (vnorm x.w / 2) ^ 2 := by
      rcases le_or_gt π (vnorm x.w) with hp | hp
      · exact hs hp
      · have hn : 2e-3 < vnorm x.w := by
          by_contra hc
          push Not at hc
          have := Verif.Props.Quat.norm_nonneg x.w
          rw [sqNorm_eq] at h
          norm_num at h hc
          nlinarith
        have h1 := mul_le_sin (x := vnorm x.w / 2) (by linarith [Verif.Props.Quat.norm_nonneg x.w]) (by linarith)
        have hpi := pi_lt_d2
        have hpp := pi_pos
        have h3 : 2 / π ≥ 2 / 3.15 := div_le_div_of_nonneg_left (by norm_num) hpp hpi.le
        have h5 : (2 / 3.15) * (2e-3 / 2) ≤ sin (vnorm x.w / 2) :=
          (mul_le_mul h3 (by linarith) (by norm_num) (by positivity)).trans h1
        have h6 := pow_le_pow_left₀ (by norm_num) h5 2
        norm_num at h6 ⊢
        linarith
    rw [C70_log_exp_partial x h h2 hsin, one_smul, one_smul, zero_mul, zero_smul, add_zero]
  · have h4 := not_lt.1 h
    have hm0 : 0 ≤ sqNorm x.w := by rw [sqNorm_eq]; exact mul_self_nonneg _
    have hn0 := Verif.Props.Quat.norm_nonneg x.w
    have hn : vnorm x.w ≤ 2e-3 := by
      by_contra hc
      push Not at hc
      rw [sqNorm_eq] at h4
      norm_num at h4 hc
      nlinarith
    have he : DQuat.exp x = screwOf (cos (vnorm x.w / 2)) (0.5 - 1 / 48 * sqNorm x.w + 1 / 3840 * (sqNorm x.w * sqNorm x.w))
        (-1 / 24 + 1 / 960 * sqNorm x.w - 1 / 107520 * (sqNorm x.w * sqNorm x.w)) x := by
      unfold DQuat.exp DQuat.expCoeffs screwOf
      simp only [gt_iff_lt, h, if_false, sqrt_sqNorm]
    rw [he]
    obtain ⟨s, hsd⟩ : ∃ s, s = 0.5 - 1 / 48 * sqNorm x.w + 1 / 3840 * (sqNorm x.w * sqNorm x.w) := ⟨_, rfl⟩
    obtain ⟨k, hkd⟩ : ∃ k, k = -1 / 24 + 1 / 960 * sqNorm x.w - 1 / 107520 * (sqNorm x.w * sqNorm x.w) := ⟨_, rfl⟩
    rw [← hsd, ← hkd]
    have hs0 : 0 < s := by
      rw [hsd]
      norm_num at h4 ⊢
      nlinarith
    by_cases hb : s * s * sqNorm x.w > 1e-8
    · have h0 : 0 < vnorm x.w := by
        rcases hn0.eq_or_lt with h0 | h0
        · rw [sqNorm_eq, ← h0] at hb
          norm_num at hb
        · exact h0
      rw [sqNorm_eq] at hsd hkd
      obtain ⟨r1, r2⟩ := dquat_mid h0 hn hs0 hsd hkd
      rw [← sqNorm_eq] at r2
      exact ⟨_, _, r1, r2, screwOf_log_big _ _ _ _ hs0 h0 hb⟩
    · have hc : 0.999 ≤ cos (vnorm x.w / 2) := by
        have := k2 (by positivity : 0 ≤ vnorm x.w / 2)
        unfold K2 at this
        norm_num at hn ⊢
        nlinarith
      obtain ⟨r1, r2⟩ := dquat_tiny hm0 h4 hsd hkd hc (not_lt.1 hb)
      exact ⟨_, _, r1, r2, screwOf_log _ _ _ _ hb⟩

/-- The hypotheses of the four round trips hold for a rotation by a tenth of a microradian. -/
example : vnorm ![1e-7, 0, 0] < π ∧ (π ≤ vnorm ![1e-7, 0, 0] → 1e-8 < sin (vnorm ![1e-7, 0, 0] / 2) ^ 2) ∧
    -1 + 1e-8 < 1 + 2 * cos (vnorm ![1e-7, 0, 0]) := by
  have hn : vnorm ![1e-7, 0, 0] = 1e-7 := by
    have e : sqNorm (![1e-7, 0, 0] : V3) = (1e-7 : ℝ) ^ 2 := by
      rw [sqNorm_at]
      simp
      norm_num
    unfold vnorm
    rw [e, sqrt_sq (by norm_num)]
  rw [hn]
  have hp := pi_gt_three
  have hk := k2 (by norm_num : (0 : ℝ) ≤ 1e-7)
  unfold K2 at hk
  refine ⟨by linarith, fun h => ?_, ?_⟩
  · exfalso; linarith
  · norm_num at hk ⊢
    linarith

end Verif.Props.LieSeries
