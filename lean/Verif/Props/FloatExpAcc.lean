import Verif.Props.FloatExp
import Mathlib.Analysis.Normed.Algebra.QuaternionExponential
/-!
# C150: the exponential in `double`s against the exponential series (common/math/quat.h)
-/
namespace Verif.Props.FloatExpAcc
open Verif.Model.Lie Verif.Binary64 Verif.FQuat Verif.Spec.Lie Verif.Props.FloatQuat Verif.Props.FloatExp
open Verif.Props.Quat (toH C43_hamilton)

/-- The rotation by the angle `|v|` about `v`: the exponential series of the quaternion `v / 2`. -/
noncomputable def rotation (v : V3) : Quaternion ℝ := NormedSpace.exp (hamilton 0 (v 0 / 2) (v 1 / 2) (v 2 / 2))

theorem norm_rotation (v : V3) : ‖rotation v‖ = 1 := by
  unfold rotation
  rw [Quaternion.norm_exp]
  simp [hamilton]

theorem norm_half (v : V3) {n : ℝ} (hn : 0 ≤ n) (n2 : n * n = v 0 * v 0 + v 1 * v 1 + v 2 * v 2) :
    ‖hamilton 0 (v 0 / 2) (v 1 / 2) (v 2 / 2)‖ = n / 2 := by
  have h := norm_toH_sq ⟨0, v 0 / 2, v 1 / 2, v 2 / 2⟩
  have e : ‖toH ⟨0, v 0 / 2, v 1 / 2, v 2 / 2⟩‖ ^ 2 = (n / 2) ^ 2 := by
    rw [h]; linear_combination (-1 / 4) * n2
  exact (pow_left_inj₀ (norm_nonneg _) (by positivity) two_ne_zero).1 e

/-- The rotation in closed form. -/
theorem rotation_eq (v : V3) {n : ℝ} (hn : 0 ≤ n) (n2 : n * n = v 0 * v 0 + v 1 * v 1 + v 2 * v 2) :
    rotation v = toH ⟨Real.cos (n / 2), Real.sin (n / 2) / n * v 0, Real.sin (n / 2) / n * v 1, Real.sin (n / 2) / n * v 2⟩ := by
  unfold rotation
  rw [Quaternion.exp_of_re_eq_zero _ rfl, norm_half v hn n2]
  have e : ∀ x : ℝ, Real.sin (n / 2) / (n / 2) * (x / 2) = Real.sin (n / 2) / n * x := fun x => by ring
  rw [show hamilton 0 (v 0 / 2) (v 1 / 2) (v 2 / 2) = toH ⟨0, v 0 / 2, v 1 / 2, v 2 / 2⟩ from rfl]
  apply Quaternion.ext <;> simp [e]

theorem u_eta : η ≤ 1 / 100 * u := by
  have := eta_le
  have : (1 / 2 ^ 250 : ℝ) ≤ 1 / 100 * u := by unfold u; norm_num
  linarith

/-- The cosine at the computed length. -/
theorem cos_small {r : ℝ → ℝ} (hr : NearestR r) (fma : Bool) (v : V3) {n : ℝ} (hn : 0 ≤ n)
    (n2 : n * n = v 0 * v 0 + v 1 * v 1 + v 2 * v 2) (hm0 : 0 ≤ r (Real.sqrt (sq3 r fma (v 0) (v 1) (v 2))))
    (hm : r (Real.sqrt (sq3 r fma (v 0) (v 1) (v 2))) ≤ 1 / 2 ^ 17) :
    n ≤ 1 / 2 ^ 16 ∧ |Real.cos (r (Real.sqrt (sq3 r fma (v 0) (v 1) (v 2))) / 2) - Real.cos (n / 2)| ≤ 1 / 100 * u := by
  have hu := u_pos
  have hu' := u_le
  have h3 := sq3_err hr fma (v 0) (v 1) (v 2)
  rw [← n2] at h3
  have uQ : 0 ≤ u * (n * n) := by positivity
  have sq : Real.sqrt (n * n) = n := Real.sqrt_mul_self hn
  rcases le_or_gt (1 / 2 ^ 120) (n * n) with h | h
  · obtain ⟨h5, h6⟩ := root_err hr h (h3.trans (by linarith [eta_pos]))
    rw [sq] at h5 h6
    generalize r (Real.sqrt (sq3 r fma (v 0) (v 1) (v 2))) = m at *
    have un : u * n ≤ n / 10000 := by nlinarith
    have hn16 : n ≤ 1 / 2 ^ 16 := by
      have := (abs_le.1 h5).1
      norm_num at hm ⊢
      linarith
    refine ⟨hn16, (Real.abs_cos_sub_cos_le _ _).trans ?_⟩
    rw [← sub_div, abs_div, abs_of_pos (by norm_num : (0 : ℝ) < 2)]
    have : u * n ≤ u * (1 / 2 ^ 16) := by gcongr
    norm_num at this ⊢
    linarith
  · have hn60 : n ≤ 1 / 2 ^ 60 := by
      by_contra hc
      push Not at hc
      have : (1 / 2 ^ 60 : ℝ) * (1 / 2 ^ 60) ≤ n * n := by gcongr
      norm_num at this h
      linarith
    have hs : sq3 r fma (v 0) (v 1) (v 2) ≤ (1 / 2 ^ 59) ^ 2 := by
      have := (abs_le.1 h3).2
      have e := eta_le
      have : u * (n * n) ≤ 1 / 10 ^ 15 * (n * n) := by gcongr
      norm_num at *
      linarith
    have hq : Real.sqrt (sq3 r fma (v 0) (v 1) (v 2)) ≤ 1 / 2 ^ 59 := by
      rw [Real.sqrt_le_left (by norm_num)]; exact hs
    have a0 := Real.sqrt_nonneg (sq3 r fma (v 0) (v 1) (v 2))
    have g := rel hr (Real.sqrt (sq3 r fma (v 0) (v 1) (v 2)))
    rw [abs_of_nonneg a0] at g
    generalize r (Real.sqrt (sq3 r fma (v 0) (v 1) (v 2))) = m at *
    generalize Real.sqrt (sq3 r fma (v 0) (v 1) (v 2)) = a at *
    have hm58 : m ≤ 1 / 2 ^ 58 := by
      have := (abs_le.1 g).2
      have : u * a ≤ 1 / 10 ^ 15 * a := by gcongr
      have e := eta_le
      norm_num at *
      linarith
    refine ⟨hn60.trans (by norm_num), ?_⟩
    have c1 := Real.one_sub_sq_div_two_le_cos (x := m / 2)
    have c2 := Real.one_sub_sq_div_two_le_cos (x := n / 2)
    have c3 := Real.cos_le_one (m / 2)
    have c4 := Real.cos_le_one (n / 2)
    have s1 : (m / 2) ^ 2 ≤ (1 / 2 ^ 58 / 2) ^ 2 := by gcongr
    have s2 : (n / 2) ^ 2 ≤ (1 / 2 ^ 60 / 2) ^ 2 := by gcongr
    rw [abs_le]
    unfold u
    norm_num at *
    constructor <;> linarith

/-- The factor of the second formula is close to one half. -/
theorem half {r : ℝ → ℝ} (hr : NearestR r) {m : ℝ} (hm0 : 0 ≤ m) (hm : m ≤ 1 / 2 ^ 17) :
    |r (r (1 / 2 - r (r (m * m) / 48)) + r (r (r (m * m) * r (m * m)) / 3840)) - 1 / 2| ≤ 1 / 2 ^ 39 := by
  have hmm : m * m ≤ 1 / 2 ^ 17 * (1 / 2 ^ 17) := by gcongr
  have hmm0 : 0 ≤ m * m := mul_self_nonneg m
  have hu : u = 1 / 2 ^ 53 := rfl
  have e1 := abs_le.1 (rerr hr (x := m * m) (by rw [abs_le]; norm_num at *; constructor <;> linarith))
  generalize r (m * m) = a at *
  rw [hu] at e1
  have ha : |a| ≤ 11 / 10 * (1 / 2 ^ 34) := by
    rw [abs_le]; norm_num at *; constructor <;> linarith [e1.1, e1.2]
  have ha' := abs_le.1 ha
  have e2 := abs_le.1 (rerr hr (x := a / 48) (by rw [abs_le]; norm_num at *; constructor <;> linarith [ha'.1, ha'.2]))
  generalize r (a / 48) = b at *
  rw [hu] at e2
  have haa : |a * a| ≤ 11 / 10 * (1 / 2 ^ 34) * (11 / 10 * (1 / 2 ^ 34)) := by
    rw [abs_mul]; gcongr
  have haa' := abs_le.1 haa
  have e3 := abs_le.1 (rerr hr (x := a * a) (by rw [abs_le]; norm_num at *; constructor <;> linarith [haa'.1, haa'.2]))
  generalize r (a * a) = c at *
  rw [hu] at e3
  have hc : |c| ≤ 1 / 2 ^ 52 := by
    rw [abs_le]; norm_num at *; constructor <;> linarith [e3.1, e3.2, haa'.1, haa'.2]
  have hc' := abs_le.1 hc
  have e4 := abs_le.1 (rerr hr (x := c / 3840) (by rw [abs_le]; norm_num at *; constructor <;> linarith [hc'.1, hc'.2]))
  generalize r (c / 3840) = d at *
  rw [hu] at e4
  have e5 := abs_le.1 (rerr hr (x := 1 / 2 - b) (by
    rw [abs_le]; norm_num at *; constructor <;> linarith [e2.1, e2.2, ha'.1, ha'.2]))
  generalize r (1 / 2 - b) = f at *
  rw [hu] at e5
  have e6 := abs_le.1 (rerr hr (x := f + d) (by
    rw [abs_le]; norm_num at *; constructor <;> linarith [e2.1, e2.2, ha'.1, ha'.2, e4.1, e4.2, hc'.1, hc'.2, e5.1, e5.2]))
  generalize r (f + d) = s at *
  rw [hu] at e6
  rw [abs_le]
  norm_num at *
  constructor <;> linarith [e2.1, e2.2, ha'.1, ha'.2, e4.1, e4.2, hc'.1, hc'.2, e5.1, e5.2, e6.1, e6.2]

/-- The vector part of the second formula. -/
theorem vec_small {r : ℝ → ℝ} (hr : NearestR r) {n s x : ℝ} (hn : 0 ≤ n) (hn' : n ≤ 1 / 2 ^ 16) (hx : |x| ≤ n)
    (hs : |s - 1 / 2| ≤ 1 / 2 ^ 39) : |r (s * x) - Real.sin (n / 2) / n * x| ≤ 2 * u := by
  have hu := u_pos
  have hu' := u_le
  have hx' : |x| ≤ 1 / 2 ^ 16 := hx.trans hn'
  have h1 : |s * x - 1 / 2 * x| ≤ 1 / 2 ^ 39 * (1 / 2 ^ 16) := by
    rw [← sub_mul, abs_mul]; gcongr
  have hs1 : |s| ≤ 1 := by
    have := abs_le.1 hs
    rw [abs_le]; norm_num at *; constructor <;> linarith [this.1, this.2]
  have h2 := rel hr (s * x)
  have h3 : |s * x| ≤ 1 * (1 / 2 ^ 16) := by rw [abs_mul]; gcongr
  have h4 : u * |s * x| ≤ u * (1 * (1 / 2 ^ 16)) := by gcongr
  have h5 : |1 / 2 * x - Real.sin (n / 2) / n * x| ≤ u := by
    rcases hn.eq_or_lt with h | h
    · rw [← h] at hx
      have : x = 0 := abs_nonpos_iff.1 hx
      rw [this]; simpa using hu.le
    · have a1 := Real.sin_gt_sub_cube (x := n / 2) (by linarith)
      have a2 := Real.sin_lt (x := n / 2) (by linarith)
      have e : 1 / 2 * x - Real.sin (n / 2) / n * x = (n / 2 - Real.sin (n / 2)) * (x / n) := by field_simp
      rw [e, abs_mul, abs_of_pos (by linarith)]
      have b1 : |x / n| ≤ 1 := by rw [abs_div, abs_of_pos h]; exact (div_le_one h).2 hx
      have b2 : (n / 2) ^ 3 ≤ (1 / 2 ^ 16 / 2) ^ 3 := by gcongr
      have b3 : n / 2 - Real.sin (n / 2) ≤ u := by
        unfold u; norm_num at *; linarith
      calc (n / 2 - Real.sin (n / 2)) * |x / n| ≤ u * 1 := by
            apply mul_le_mul b3 b1 (abs_nonneg _) hu.le
        _ = u := mul_one u
  have t1 := abs_add_le (r (s * x) - s * x) (s * x - 1 / 2 * x)
  have t2 := abs_add_le (r (s * x) - 1 / 2 * x) (1 / 2 * x - Real.sin (n / 2) / n * x)
  rw [sub_add_sub_cancel] at t1 t2
  have := u_eta
  have : (1 : ℝ) / 2 ^ 39 * (1 / 2 ^ 16) = 1 / 4 * u := by unfold u; norm_num
  linarith

theorem diff_le {e p : Quat} {c : ℝ} (hc : 0 ≤ c) (hw : |e.w - p.w| ≤ c)
    (hx : |e.x - p.x| ≤ c) (hy : |e.y - p.y| ≤ c) (hz : |e.z - p.z| ≤ c) : ‖toH e - toH p‖ ≤ 2 * c := by
  have h2 := norm_le_of (q := e.sub p) hc hw hx hy hz
  rwa [(C43_hamilton e p 1).2.2.2.2.1] at h2

theorem shrink {ρ x : ℝ} (hρ : 0 < ρ) (hx : |x| ≤ ρ) : |x / ρ - x| ≤ |ρ - 1| := by
  have e : x / ρ - x = x / ρ * (1 - ρ) := by field_simp
  rw [e, abs_mul, abs_sub_comm 1 ρ]
  have : |x / ρ| ≤ 1 := by rw [abs_div, abs_of_pos hρ]; exact (div_le_one hρ).2 hx
  calc |x / ρ| * |ρ - 1| ≤ 1 * |ρ - 1| := by gcongr
    _ = _ := one_mul _

/-- A normalised approximation of a quaternion of length one. -/
theorem normalize_near {r : ℝ → ℝ} (hr : NearestR r) (fma : Bool) {p e : Quat} (he : ‖toH e‖ = 1)
    (hw : |p.w - e.w| ≤ 5 / 2 * u) (hx : |p.x - e.x| ≤ 5 / 2 * u) (hy : |p.y - e.y| ≤ 5 / 2 * u) (hz : |p.z - e.z| ≤ 5 / 2 * u) :
    ‖toH (FQuat.normalize r fma p) - toH e‖ ≤ 2 * (20 * u) := by
  have hu := u_pos
  have hu' := u_le
  have d := diff_le (by positivity) hw hx hy hz
  have l : |‖toH p‖ - 1| ≤ 5 * u := by
    have := abs_norm_sub_norm_le (toH p) (toH e)
    rw [he] at this
    linarith
  have hρ : 1 / 2 ≤ ‖toH p‖ := by
    have := (abs_le.1 l).1
    norm_num at *
    linarith
  have hρ20 : 1 / 2 ^ 20 ≤ ‖toH p‖ := le_trans (by norm_num) hρ
  obtain ⟨k1, k2, k3, k4⟩ := normalize_err hr fma p hρ20
  have hsq := norm_toH_sq p
  generalize ‖toH p‖ = ρ at *
  have hρ0 : 0 < ρ := by linarith
  have fin : ∀ a b c : ℝ, b ^ 2 ≤ ρ ^ 2 → |a - b / ρ| ≤ 11 * u → |b - c| ≤ 5 / 2 * u → |a - c| ≤ 20 * u := by
    intro a b c hb h1 h2
    have h3 := shrink hρ0 (abs_le_of_sq_le_sq hb hρ0.le)
    have t1 := abs_add_le (a - b / ρ) (b / ρ - b)
    have t2 := abs_add_le (a - b) (b - c)
    rw [sub_add_sub_cancel] at t1 t2
    linarith
  have s1 := sq_nonneg p.w
  have s2 := sq_nonneg p.x
  have s3 := sq_nonneg p.y
  have s4 := sq_nonneg p.z
  exact diff_le (by positivity) (fin _ _ _ (by linarith) k1 hw) (fin _ _ _ (by linarith) k2 hx) (fin _ _ _ (by linarith) k3 hy)
    (fin _ _ _ (by linarith) k4 hz)

/-- **C150.** The exponential in `double`s is within `2 ^ -46` of the exponential series, on both sides of the limit between its two
formulas, for every rotation vector up to the length four. -/
theorem C150_exp_accuracy {r S C : ℝ → ℝ} (hr : NearestR r) (hS : ∀ x, |S x - Real.sin x| ≤ 1 / 2 ^ 52)
    (hC : ∀ x, |C x - Real.cos x| ≤ 1 / 2 ^ 52) (fma : Bool) (v : V3) (hv : v 0 * v 0 + v 1 * v 1 + v 2 * v 2 ≤ 16) :
    ‖toH (FQuat.exp r S C fma v) - rotation v‖ ≤ 1 / 2 ^ 46 := by
  have hu := u_pos
  have hu' := u_le
  have u2 : (1 : ℝ) / 2 ^ 52 = 2 * u := by unfold u; norm_num
  have u46 : (1 : ℝ) / 2 ^ 46 = 128 * u := by unfold u; norm_num
  rw [u2] at hS hC
  rw [u46]
  obtain ⟨l1, l2⟩ := limit hr
  have s1 := mul_self_nonneg (v 0)
  have s2 := mul_self_nonneg (v 1)
  have s3 := mul_self_nonneg (v 2)
  obtain ⟨N, hN, N2⟩ : ∃ n : ℝ, 0 ≤ n ∧ n * n = v 0 * v 0 + v 1 * v 1 + v 2 * v 2 :=
    ⟨_, Real.sqrt_nonneg _, Real.mul_self_sqrt (by linarith)⟩
  have hN4 : N ≤ 4 := by nlinarith
  have comp : ∀ x : ℝ, x * x ≤ N * N → |x| ≤ N := fun x hx => abs_le_of_sq_le_sq (by nlinarith) hN
  have c0 := comp (v 0) (by linarith)
  have c1 := comp (v 1) (by linarith)
  have c2 := comp (v 2) (by linarith)
  rw [rotation_eq v hN N2]
  unfold FQuat.exp
  simp only
  split_ifs with hlt
  · have hv5 : ∀ k, |v k| ≤ 2 ^ 500 := by
      have b : (4 : ℝ) ≤ 2 ^ 500 := by
        calc (4 : ℝ) = 2 ^ 2 := by norm_num
          _ ≤ 2 ^ 500 := pow_le_pow_right₀ (by norm_num) (by norm_num)
      intro k
      fin_cases k
      · exact c0.trans (hN4.trans b)
      · exact c1.trans (hN4.trans b)
      · exact c2.trans (hN4.trans b)
    generalize hmd : r (Real.sqrt (sq3 r fma (v 0) (v 1) (v 2))) = m at *
    obtain ⟨n, hn, n2, hmn, k⟩ := exp_first hr hS fma v hv5 m hmd (l1.trans hlt.le)
    have hnN : n = N := by
      have : n ^ 2 = N ^ 2 := by rw [sq, sq, n2, N2]
      exact (pow_left_inj₀ hn.le hN two_ne_zero).1 this
    subst hnN
    have hd : |m / 2 - n / 2| ≤ 18 * u := by
      rw [← sub_div, abs_div, abs_of_pos (by norm_num : (0 : ℝ) < 2)]
      have : u * n ≤ u * 4 := by gcongr
      linarith
    have hcos := (Real.abs_cos_sub_cos_le (m / 2) (n / 2)).trans hd
    have hsin := (Real.abs_sin_sub_sin_le (m / 2) (n / 2)).trans hd
    have fin : ∀ a x : ℝ, |x| ≤ n → |a - Real.sin (m / 2) / n * x| ≤ 14 * u → |a - Real.sin (n / 2) / n * x| ≤ 32 * u := by
      intro a x hx ha
      have b1 : |x / n| ≤ 1 := by rw [abs_div, abs_of_pos hn]; exact (div_le_one hn).2 hx
      have e : Real.sin (m / 2) / n * x - Real.sin (n / 2) / n * x = (Real.sin (m / 2) - Real.sin (n / 2)) * (x / n) := by ring
      have b2 : |Real.sin (m / 2) / n * x - Real.sin (n / 2) / n * x| ≤ 18 * u * 1 := by
        rw [e, abs_mul]; gcongr
      have t := abs_add_le (a - Real.sin (m / 2) / n * x) (Real.sin (m / 2) / n * x - Real.sin (n / 2) / n * x)
      rw [sub_add_sub_cancel] at t
      linarith
    have hw : |C (m / 2) - Real.cos (n / 2)| ≤ 32 * u := by
      have t := abs_add_le (C (m / 2) - Real.cos (m / 2)) (Real.cos (m / 2) - Real.cos (n / 2))
      rw [sub_add_sub_cancel] at t
      linarith [hC (m / 2)]
    refine (diff_le (c := 32 * u) (by positivity) hw (fin _ _ c0 (k 0)) (fin _ _ c1 (k 1)) (fin _ _ c2 (k 2))).trans ?_
    linarith
  · push Not at hlt
    have hm0 : 0 ≤ r (Real.sqrt (sq3 r fma (v 0) (v 1) (v 2))) := by
      have a0 := Real.sqrt_nonneg (sq3 r fma (v 0) (v 1) (v 2))
      have h1 := hr.near (Real.sqrt (sq3 r fma (v 0) (v 1) (v 2))) 0 F_zero
      rw [Rat.cast_zero, zero_sub, abs_neg, abs_of_nonneg a0] at h1
      linarith [(abs_le.1 h1).1]
    have hm := hlt.trans l2
    obtain ⟨h16, hcos⟩ := cos_small hr fma v hN N2 hm0 hm
    generalize r (Real.sqrt (sq3 r fma (v 0) (v 1) (v 2))) = m at *
    have hs := half hr hm0 hm
    generalize r (r (1 / 2 - r (r (m * m) / 48)) + r (r (r (m * m) * r (m * m)) / 3840)) = s at *
    have hw : |C (m / 2) - Real.cos (N / 2)| ≤ 5 / 2 * u := by
      have t := abs_add_le (C (m / 2) - Real.cos (m / 2)) (Real.cos (m / 2) - Real.cos (N / 2))
      rw [sub_add_sub_cancel] at t
      linarith [hC (m / 2)]
    have hvec : ∀ x : ℝ, |x| ≤ N → |r (s * x) - Real.sin (N / 2) / N * x| ≤ 5 / 2 * u := fun x hx =>
      (vec_small hr hN h16 hx hs).trans (by linarith)
    refine (normalize_near hr fma ?_ hw (hvec _ c0) (hvec _ c1) (hvec _ c2)).trans ?_
    · rw [← rotation_eq v hN N2]; exact norm_rotation v
    · linarith

/-- Products of approximations. -/
theorem prod_near (E : V3 → Quat) (vs : List V3) (hn : vs.length ≤ 2 ^ 40)
    (h : ∀ v ∈ vs, ‖toH (E v) - rotation v‖ ≤ 1 / 2 ^ 46) :
    ‖(vs.map (toH ∘ E)).prod - (vs.map rotation).prod‖ ≤ vs.length * (21 / 20 / 2 ^ 46) ∧ ‖(vs.map rotation).prod‖ = 1 := by
  induction vs with
  | nil => simp
  | cons v vs ih =>
    simp only [List.length_cons] at hn
    obtain ⟨i1, i2⟩ := ih (by omega) fun w hw => h w (List.mem_cons_of_mem _ hw)
    have hv := h v List.mem_cons_self
    have h1 := norm_rotation v
    simp only [List.map_cons, List.prod_cons, Function.comp_apply, List.length_cons]
    refine ⟨?_, by rw [norm_mul, h1, i2, one_mul]⟩
    generalize (vs.map (toH ∘ E)).prod = A at *
    generalize (vs.map rotation).prod = B at *
    generalize toH (E v) = a at *
    generalize rotation v = b at *
    have e : a * A - b * B = a * (A - B) + (a - b) * B := by noncomm_ring
    have ha : ‖a‖ ≤ 1 + 1 / 2 ^ 46 := by
      have := norm_add_le (a - b) b
      rw [sub_add_cancel] at this
      linarith
    have hl : (vs.length : ℝ) ≤ 2 ^ 40 := by exact_mod_cast (by omega : vs.length ≤ 2 ^ 40)
    have t := norm_add_le (a * (A - B)) ((a - b) * B)
    rw [norm_mul, norm_mul, i2, mul_one, ← e] at t
    have p : ‖a‖ * ‖A - B‖ ≤ (1 + 1 / 2 ^ 46) * (vs.length * (21 / 20 / 2 ^ 46)) := by gcongr
    push_cast
    generalize (vs.length : ℝ) = l at *
    norm_num at *
    linarith

/-- **C150.** The rotation that an integration of `n` increments accumulates in `double`s, exponentials and products, is within
`n / 2 ^ 45` of the product of the exact rotations. -/
theorem C150_integrate_accuracy {r S C : ℝ → ℝ} (hr : NearestR r) (hS : ∀ x, |S x - Real.sin x| ≤ 1 / 2 ^ 52)
    (hC : ∀ x, |C x - Real.cos x| ≤ 1 / 2 ^ 52) (fma : Bool) (vs : List V3)
    (hv : ∀ v ∈ vs, v 0 * v 0 + v 1 * v 1 + v 2 * v 2 ≤ 16) (hn : vs.length ≤ 2 ^ 40) :
    ‖toH (vs.foldl (fun q v => FQuat.mul r fma q (FQuat.exp r S C fma v)) Quat.identity) - (vs.map rotation).prod‖ ≤
      vs.length / 2 ^ 45 := by
  have hv5 : ∀ v ∈ vs, ∀ k, |v k| ≤ 2 ^ 500 := by
    intro v h k
    have b : (4 : ℝ) ≤ 2 ^ 500 := by
      calc (4 : ℝ) = 2 ^ 2 := by norm_num
        _ ≤ 2 ^ 500 := pow_le_pow_right₀ (by norm_num) (by norm_num)
    refine le_trans (abs_le_of_sq_le_sq ?_ (by norm_num)) b
    have g := hv v h
    have s1 := mul_self_nonneg (v 0)
    have s2 := mul_self_nonneg (v 1)
    have s3 := mul_self_nonneg (v 2)
    rw [sq]
    fin_cases k
    · show v 0 * v 0 ≤ _; norm_num; linarith
    · show v 1 * v 1 ≤ _; norm_num; linarith
    · show v 2 * v 2 ≤ _; norm_num; linarith
  have c := (C150_compose hr fma (vs.map (FQuat.exp r S C fma)) (by simpa using hn) (by
    intro e he
    obtain ⟨v, h1, rfl⟩ := List.mem_map.1 he
    exact C150_exp hr hS hC fma v (hv5 v h1))).1
  unfold compose at c
  rw [List.foldl_map, List.length_map, List.map_map] at c
  have p := (prod_near (FQuat.exp r S C fma) vs hn fun v h => C150_exp_accuracy hr hS hC fma v (hv v h)).1
  have t := norm_add_le (toH (vs.foldl (fun q v => FQuat.mul r fma q (FQuat.exp r S C fma v)) Quat.identity) -
    (vs.map (toH ∘ FQuat.exp r S C fma)).prod) ((vs.map (toH ∘ FQuat.exp r S C fma)).prod - (vs.map rotation).prod)
  rw [sub_add_sub_cancel] at t
  refine t.trans ?_
  have l0 : (0 : ℝ) ≤ vs.length := Nat.cast_nonneg _
  generalize (vs.length : ℝ) = l at *
  norm_num at *
  linarith

/-- There are such functions, with a large increment and one below the limit. -/
example : ∃ r S C : ℝ → ℝ, NearestR r ∧ (∀ x, |S x - Real.sin x| ≤ 1 / 2 ^ 52) ∧ (∀ x, |C x - Real.cos x| ≤ 1 / 2 ^ 52) ∧
    ∃ vs : List V3, vs.length = 2 ∧ ∀ v ∈ vs, v 0 * v 0 + v 1 * v 1 + v 2 * v 2 ≤ 16 := by
  obtain ⟨r, hr⟩ := exists_nearestR
  refine ⟨r, fun x => r (Real.sin x), fun x => r (Real.cos x), hr, fun x => ?_, fun x => ?_, [![1, 2, 3], ![0, 1 / 10 ^ 7, 0]], rfl, ?_⟩
  · refine (rerr hr ((Real.abs_sin_le_one x).trans (by norm_num))).trans (by unfold u; norm_num)
  · refine (rerr hr ((Real.abs_cos_le_one x).trans (by norm_num))).trans (by unfold u; norm_num)
  · intro v h
    simp only [List.mem_cons, List.not_mem_nil, or_false] at h
    rcases h with rfl | rfl
    · show (1 : ℝ) * 1 + 2 * 2 + 3 * 3 ≤ 16; norm_num
    · show (0 : ℝ) * 0 + 1 / 10 ^ 7 * (1 / 10 ^ 7) + 0 * 0 ≤ 16; norm_num

end Verif.Props.FloatExpAcc
