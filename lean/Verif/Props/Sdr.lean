import Verif.Model.Sdr
import Verif.Props.Ned
import Verif.Props.Atm
import Verif.Props.SdrOrbit
/-!
# C133: receiver, atmosphere and range of the reference simulator
-/
namespace Verif.Props.Sdr

open Verif.Sdr Verif.Model.Lie Verif.Props.Ned Verif.Props.Quat

/-! ### The place of the receiver -/

/-- The point at a latitude, longitude and height over the ellipsoid with the simulator's radius and eccentricity. -/
noncomputable def place (l : V3) : V3 :=
  let N := radius / √(1 - ecc2 * Real.sin (l 0) ^ 2)
  ![(N + l 2) * Real.cos (l 0) * Real.cos (l 1), (N + l 2) * Real.cos (l 0) * Real.sin (l 1),
    (N * (1 - ecc2) + l 2) * Real.sin (l 0)]

theorem ecc2_bounds : 0 < ecc2 ∧ ecc2 < 0.007 := by unfold ecc2; norm_num

theorem mono_of_odd {F : ℝ → ℝ} (ho : ∀ u, F (-u) = -F u) (h : ∀ u v, 0 ≤ u → u ≤ v → F u ≤ F v) : Monotone F := by
  have h0 : F 0 = 0 := by
    have := ho 0
    rw [neg_zero] at this
    linarith
  intro u v huv
  rcases le_total 0 u with hu | hu
  · exact h u v hu huv
  · rcases le_total 0 v with hv | hv
    · have h1 := h 0 (-u) le_rfl (by linarith)
      have h2 := h 0 v le_rfl hv
      rw [ho, h0] at h1
      linarith
    · have h1 := h (-v) (-u) (by linarith) (by linarith)
      rw [ho, ho] at h1
      linarith

/-- The sine of the latitude. -/
noncomputable def slat (r2 u : ℝ) : ℝ := u / √(r2 + u * u)

theorem slat_odd (r2 u : ℝ) : slat r2 (-u) = -slat r2 u := by
  unfold slat
  rw [neg_mul_neg, neg_div]

theorem slat_sq {r2 : ℝ} (hr : 0 ≤ r2) (u : ℝ) : slat r2 u * slat r2 u ≤ 1 := by
  unfold slat
  rw [div_mul_div_comm, Real.mul_self_sqrt (by nlinarith [mul_self_nonneg u])]
  apply div_le_one_of_le₀ (by linarith) (by nlinarith [mul_self_nonneg u])

theorem slat_nonneg {r2 u : ℝ} (hu : 0 ≤ u) : 0 ≤ slat r2 u := div_nonneg hu (Real.sqrt_nonneg _)

theorem slat_mono {r2 : ℝ} (hr : 0 ≤ r2) : ∀ u v, 0 ≤ u → u ≤ v → slat r2 u ≤ slat r2 v := by
  intro u v hu huv
  rcases hu.lt_or_eq with hp | rfl
  · unfold slat
    have hv : 0 < v := lt_of_lt_of_le hp huv
    have h1 : 0 < r2 + u * u := by positivity
    have h2 : 0 < r2 + v * v := by positivity
    rw [div_le_div_iff₀ (Real.sqrt_pos.mpr h1) (Real.sqrt_pos.mpr h2)]
    apply le_of_sq_le_sq _ (by positivity)
    rw [mul_pow, mul_pow, Real.sq_sqrt h2.le, Real.sq_sqrt h1.le]
    nlinarith [mul_nonneg hr (mul_nonneg (sub_nonneg.mpr huv) (add_nonneg hu hv.le))]
  · unfold slat
    rw [zero_div]
    exact div_nonneg huv (Real.sqrt_nonneg _)

/-- The next correction. -/
noncomputable def corr (s : ℝ) : ℝ := radius / √(1 - ecc2 * s * s) * ecc2 * s

theorem corr_odd (s : ℝ) : corr (-s) = -corr s := by
  unfold corr
  rw [show ecc2 * -s * -s = ecc2 * s * s by ring]
  ring

theorem root_pos {s : ℝ} (h : s * s ≤ 1) : 0.81 ≤ 1 - ecc2 * s * s := by
  obtain ⟨h1, h2⟩ := ecc2_bounds
  nlinarith [mul_self_nonneg s]

theorem corr_mono {s t : ℝ} (hs : 0 ≤ s) (hst : s ≤ t) (ht : t * t ≤ 1) : corr s ≤ corr t := by
  obtain ⟨h1, h2⟩ := ecc2_bounds
  have hs1 : s * s ≤ t * t := by nlinarith
  have ps := root_pos (hs1.trans ht)
  have pt := root_pos ht
  have hq : √(1 - ecc2 * t * t) ≤ √(1 - ecc2 * s * s) := Real.sqrt_le_sqrt (by nlinarith)
  have hpt : 0 < √(1 - ecc2 * t * t) := Real.sqrt_pos.mpr (by linarith)
  have hd : radius / √(1 - ecc2 * s * s) ≤ radius / √(1 - ecc2 * t * t) :=
    div_le_div_of_nonneg_left (by unfold radius; norm_num) hpt hq
  have h0 : 0 ≤ radius / √(1 - ecc2 * s * s) := div_nonneg (by unfold radius; norm_num) (Real.sqrt_nonneg _)
  unfold corr
  exact mul_le_mul (mul_le_mul_of_nonneg_right hd h1.le) hst hs (mul_nonneg (h0.trans hd) h1.le)

theorem corr_bound {s : ℝ} (h : s * s ≤ 1) : |corr s| ≤ 50000 := by
  obtain ⟨h1, h2⟩ := ecc2_bounds
  have hr : 0.9 ≤ √(1 - ecc2 * s * s) := Real.le_sqrt_of_sq_le (by have := root_pos h; norm_num at this ⊢; linarith)
  have hs : |s| ≤ 1 := abs_le_one_iff_mul_self_le_one.mpr h
  have hd : radius / √(1 - ecc2 * s * s) ≤ radius / 0.9 :=
    div_le_div_of_nonneg_left (by unfold radius; norm_num) (by norm_num) hr
  have h0 : 0 ≤ radius / √(1 - ecc2 * s * s) := div_nonneg (by unfold radius; norm_num) (Real.sqrt_nonneg _)
  unfold corr
  rw [abs_mul, abs_of_nonneg (mul_nonneg h0 h1.le)]
  have : radius / √(1 - ecc2 * s * s) * ecc2 ≤ 50000 := by
    have : radius / √(1 - ecc2 * s * s) * ecc2 ≤ radius / 0.9 * 0.007 := mul_le_mul hd h2.le h1.le (h0.trans hd)
    refine this.trans ?_
    unfold radius
    norm_num
  nlinarith [abs_nonneg s, mul_nonneg h0 h1.le]

theorem next_mono {r2 : ℝ} (hr : 0 ≤ r2) : Monotone fun u => corr (slat r2 u) := by
  apply mono_of_odd
  · intro u
    simp only [slat_odd, corr_odd]
  · intro u v hu huv
    exact corr_mono (slat_nonneg hu) (slat_mono hr u v hu huv) (slat_sq hr v)

theorem corr_sign {s : ℝ} (hs : 0 ≤ s) : 0 ≤ corr s :=
  mul_nonneg (mul_nonneg (div_nonneg (by unfold radius; norm_num) (Real.sqrt_nonneg _)) ecc2_bounds.1.le) hs

/-- The correction has the sign of `z`. -/
theorem keeps {r2 z d : ℝ} (h : 0 ≤ d * z) : 0 ≤ corr (slat r2 (z + d)) * z := by
  rcases lt_trichotomy z 0 with hz | hz | hz
  · have hd : d ≤ 0 := by nlinarith
    have : 0 ≤ corr (slat r2 (-(z + d))) := corr_sign (slat_nonneg (by linarith))
    rw [slat_odd, corr_odd] at this
    nlinarith
  · rw [hz, mul_zero]
  · have hd : 0 ≤ d := by nlinarith
    have : 0 ≤ corr (slat r2 (z + d)) := corr_sign (slat_nonneg (by linarith))
    nlinarith

theorem nh_pos {r2 z d : ℝ} (hp : 0 < r2 + z * z) (hd : 0 ≤ d * z) :
    0 < √(r2 + (z + d) * (z + d)) := Real.sqrt_pos.mpr (by nlinarith [mul_self_nonneg d])

theorem loop_succ (r2 z : ℝ) (n : ℕ) (d : ℝ) (hp : 0 < r2 + z * z) (hd : 0 ≤ d * z) : llhLoop r2 z (n + 1) d =
    if |d - corr (slat r2 (z + d))| < 1.0e-3 then some (turn r2 z d).1 else llhLoop r2 z n (corr (slat r2 (z + d))) := by
  have hn : (turn r2 z d).1.nh ≠ 0 := (nh_pos hp hd).ne'
  rw [llhLoop]
  simp only [if_neg hn]
  rfl

theorem rising {r2 z : ℝ} (hr : 0 ≤ r2) (hp : 0 < r2 + z * z) : ∀ (n : ℕ) (d : ℝ), 0 ≤ d * z → d ≤ corr (slat r2 (z + d)) →
    50000 - d < n * 1e-3 → (llhLoop r2 z n d).isSome := by
  intro n
  induction n with
  | zero =>
    intro d _ h1 h2
    have := (abs_le.mp (corr_bound (slat_sq hr (z + d)))).2
    norm_num at h2
    linarith
  | succ n ih =>
    intro d hd h1 h2
    rw [loop_succ _ _ _ _ hp hd]
    split_ifs with hs
    · rfl
    · rw [not_lt, abs_of_nonpos (by linarith)] at hs
      refine ih _ (keeps hd) (next_mono hr (by linarith)) ?_
      push_cast at h2
      norm_num at hs h2 ⊢
      linarith

theorem falling {r2 z : ℝ} (hr : 0 ≤ r2) (hp : 0 < r2 + z * z) : ∀ (n : ℕ) (d : ℝ), 0 ≤ d * z → corr (slat r2 (z + d)) ≤ d →
    d + 50000 < n * 1e-3 → (llhLoop r2 z n d).isSome := by
  intro n
  induction n with
  | zero =>
    intro d _ h1 h2
    have := (abs_le.mp (corr_bound (slat_sq hr (z + d)))).1
    norm_num at h2
    linarith
  | succ n ih =>
    intro d hd h1 h2
    rw [loop_succ _ _ _ _ hp hd]
    split_ifs with hs
    · rfl
    · rw [not_lt, abs_of_nonneg (by linarith)] at hs
      refine ih _ (keeps hd) (next_mono hr (by linarith)) ?_
      push_cast at h2
      norm_num at hs h2 ⊢
      linarith

theorem r2_nonneg (p : V3) : 0 ≤ p 0 * p 0 + p 1 * p 1 := by nlinarith [mul_self_nonneg (p 0), mul_self_nonneg (p 1)]

theorem far_pos {p : V3} (h : ¬ vnorm p < 1.0e-3) : 0 < p 0 * p 0 + p 1 * p 1 + p 2 * p 2 := by
  by_contra hn
  apply h
  have : vnorm p = 0 := Real.sqrt_eq_zero_of_nonpos (not_lt.mp hn)
  rw [this]
  norm_num

/-- The conversion to latitude, longitude and height ends for every point of space: its loop moves in one direction, by a
millimetre at least, and stays in bounds. -/
theorem C133_ends (p : V3) (n : ℕ) (hn : 100000002 ≤ n) : ∃ l, xyz2llh n p = some l := by
  unfold xyz2llh
  split_ifs with h
  · exact ⟨_, rfl⟩
  · have hr := r2_nonneg p
    have hp := far_pos h
    simp only
    set r2 := p 0 * p 0 + p 1 * p 1
    set z := p 2
    have hd : 0 ≤ ecc2 * z * z := by rw [mul_assoc]; exact mul_nonneg ecc2_bounds.1.le (mul_self_nonneg z)
    obtain ⟨m, rfl⟩ : ∃ m, n = m + 1 := ⟨n - 1, by omega⟩
    have hm : (100000001 : ℝ) ≤ m := by exact_mod_cast (by omega : 100000001 ≤ m)
    have hs : (llhLoop r2 z (m + 1) (ecc2 * z)).isSome := by
      rw [loop_succ _ _ _ _ hp hd]
      split_ifs
      · rfl
      · have hb := abs_le.mp (corr_bound (slat_sq hr (z + ecc2 * z)))
        rcases le_total (corr (slat r2 (z + ecc2 * z))) (corr (slat r2 (z + corr (slat r2 (z + ecc2 * z))))) with hle | hle
        · exact rising hr hp m _ (keeps hd) hle (by norm_num; linarith)
        · exact falling hr hp m _ (keeps hd) hle (by norm_num; linarith)
    obtain ⟨s, hs⟩ := Option.isSome_iff_exists.mp hs
    rw [hs]
    exact ⟨_, rfl⟩

theorem loop_result {r2 z : ℝ} (hp : 0 < r2 + z * z) : ∀ (n : ℕ) (d : ℝ) (s : Turn), 0 ≤ d * z → llhLoop r2 z n d = some s →
    ∃ d', 0 ≤ d' * z ∧ s = (turn r2 z d').1 ∧ |d' - corr (slat r2 (z + d'))| < 1.0e-3 := by
  intro n
  induction n with
  | zero => intro d s _ h; cases h
  | succ n ih =>
    intro d s hd h
    rw [loop_succ _ _ _ _ hp hd] at h
    split_ifs at h with hs
    · cases h
      exact ⟨d, hd, rfl, hs⟩
    · exact ih _ s (keeps hd) h

/-- The latitude, longitude and height found are those of a point less than a millimetre away, on the same parallel to the
axis; nearer to the centre than a millimetre they are those of the centre. -/
theorem C133_place (n : ℕ) (p l : V3) (h : xyz2llh n p = some l) :
    (∀ i, |place l i - p i| < 1e-3) ∧ (1e-3 ≤ vnorm p → place l 0 = p 0 ∧ place l 1 = p 1) := by
  unfold xyz2llh at h
  split_ifs at h with hf
  · cases h
    have hz : ∀ i, place ![0, 0, -radius] i = 0 := by
      intro i
      unfold place
      fin_cases i <;> simp
    refine ⟨fun i => ?_, fun hv => absurd hf (not_lt.mpr (by norm_num at hv ⊢; exact hv))⟩
    rw [hz, zero_sub, abs_neg]
    have hv : vnorm p = √(p 0 * p 0 + p 1 * p 1 + p 2 * p 2) := rfl
    refine lt_of_le_of_lt ?_ (show vnorm p < 1e-3 by norm_num at hf ⊢; exact hf)
    rw [hv]
    apply Real.abs_le_sqrt
    fin_cases i <;> simp only [Fin.zero_eta, Fin.mk_one, Fin.reduceFinMk] <;>
      nlinarith [mul_self_nonneg (p 0), mul_self_nonneg (p 1), mul_self_nonneg (p 2)]
  · have hr := r2_nonneg p
    have hp := far_pos hf
    obtain ⟨s, hs, hl⟩ := Option.map_eq_some_iff.mp h
    obtain ⟨d, hd, rfl, he⟩ := loop_result hp n _ s (by rw [mul_assoc]; exact mul_nonneg ecc2_bounds.1.le (mul_self_nonneg _)) hs
    set r2 := p 0 * p 0 + p 1 * p 1 with hr2
    set z := p 2 with hz
    have hn := nh_pos hp hd
    set nh := √(r2 + (z + d) * (z + d)) with hnh
    have hnn : nh * nh = r2 + (z + d) * (z + d) := Real.mul_self_sqrt (by nlinarith [mul_self_nonneg (z + d)])
    have hl0 : l 0 = atan2 (z + d) (√r2) := by rw [← hl]; rfl
    have hl1 : l 1 = atan2 (p 1) (p 0) := by rw [← hl]; rfl
    obtain ⟨c1, c2⟩ := atan2_spec (y := z + d) (x := √r2) hn (by rw [Real.mul_self_sqrt hr, hnn])
    rw [← hl0] at c1 c2
    have hsl : Real.sin (l 0) = slat r2 (z + d) := by
      unfold slat
      rw [← hnh, eq_div_iff hn.ne', ← c2]
      ring
    have hN : radius / √(1 - ecc2 * Real.sin (l 0) ^ 2) = radius / √(1 - ecc2 * slat r2 (z + d) * slat r2 (z + d)) := by
      rw [hsl]
      congr 2
      ring
    have hl2 : l 2 = nh - radius / √(1 - ecc2 * slat r2 (z + d) * slat r2 (z + d)) := by rw [← hl]; rfl
    have hx : √r2 * Real.cos (l 1) = p 0 ∧ √r2 * Real.sin (l 1) = p 1 := by
      rcases hr.lt_or_eq with h0 | h0
      · rw [hl1]
        exact atan2_spec (Real.sqrt_pos.mpr h0) (by rw [Real.mul_self_sqrt hr])
      · rw [← h0, Real.sqrt_zero, zero_mul, zero_mul]
        constructor
        · exact (mul_self_eq_zero.mp (by nlinarith [mul_self_nonneg (p 0), mul_self_nonneg (p 1)])).symm
        · exact (mul_self_eq_zero.mp (by nlinarith [mul_self_nonneg (p 0), mul_self_nonneg (p 1)])).symm
    have p0 : place l 0 = p 0 := by
      unfold place
      simp only [Matrix.cons_val_zero]
      rw [hN, hl2, add_sub_cancel, c1, hx.1]
    have p1 : place l 1 = p 1 := by
      unfold place
      simp only [Matrix.cons_val_zero, Matrix.cons_val_one]
      rw [hN, hl2, add_sub_cancel, c1, hx.2]
    have p2 : place l 2 - z = d - corr (slat r2 (z + d)) := by
      unfold place corr
      simp only [Matrix.cons_val]
      rw [hN, hl2]
      set N := radius / √(1 - ecc2 * slat r2 (z + d) * slat r2 (z + d))
      rw [show (N * (1 - ecc2) + (nh - N)) * Real.sin (l 0) = nh * Real.sin (l 0) - N * ecc2 * Real.sin (l 0) by ring, c2, hsl]
      ring
    refine ⟨fun i => ?_, fun _ => ⟨p0, p1⟩⟩
    fin_cases i
    · simp only [Fin.zero_eta]
      rw [p0, sub_self, abs_zero]
      norm_num
    · simp only [Fin.mk_one]
      rw [p1, sub_self, abs_zero]
      norm_num
    · simp only [Fin.reduceFinMk]
      rw [← hz, p2]
      norm_num at he ⊢
      exact he

/-- The eccentricity is that of the code's ellipsoid to `6e-14`. -/
theorem C133_ellipsoid : radius = Model.Wgs84.A ∧ |ecc2 - Model.Wgs84.E2| ≤ 6e-14 := by
  constructor
  · rfl
  · unfold ecc2 Model.Wgs84.E2 Model.Wgs84.F Model.Wgs84.A Model.Wgs84.B
    rw [abs_le]
    constructor <;> norm_num

/-! ### Azimuth and elevation -/

theorem atan2_scale {r : ℝ} (hr : 0 < r) (y x : ℝ) : atan2 (r * y) (r * x) = atan2 y x := by
  unfold atan2
  rw [← Complex.arg_real_mul ⟨x, y⟩ hr]
  congr 1
  apply Complex.ext <;> simp

/-- The local axes of the simulator are north, east and up, those of the code north, east and down. -/
theorem C133_frame (l v : V3) : ∃ q, Model.Wgs84.qE2n l = some q ∧
    q.rotp v = ![ecef2neu l v 0, ecef2neu l v 1, -ecef2neu l v 2] := by
  obtain ⟨q, hq, -, -, hr⟩ := C103_frame l
  refine ⟨q, hq, ?_⟩
  rw [hr]
  unfold ecef2neu dp north east Wgs84.up
  simp only [Matrix.cons_val_zero, Matrix.cons_val_one, Matrix.cons_val]
  congr 1
  · ring
  · congr 1
    · ring
    · congr 1
      ring

/-- The elevation of the simulator is the code's for the same place; its azimuth is the code's, with a circle (of the simulator's
circle number) added when it is negative. -/
theorem C133_azel (l v : V3) (hv : v ≠ 0) : ∃ q, Model.Wgs84.qE2n l = some q ∧
    neu2azel (ecef2neu l v) = (if (Model.Wgs84.azelIn q v).1 < 0 then (Model.Wgs84.azelIn q v).1 + 2 * PI
      else (Model.Wgs84.azelIn q v).1, (Model.Wgs84.azelIn q v).2) := by
  obtain ⟨q, hq, -, -, hr⟩ := C103_frame l
  obtain ⟨q', hq', hf⟩ := C133_frame l v
  rw [hq] at hq'
  cases hq'
  refine ⟨q, hq, ?_⟩
  obtain ⟨h0, h1, -⟩ := normalized_unit hv
  have hc : 0 < (vnorm v)⁻¹ := inv_pos.mpr h0
  set c := (vnorm v)⁻¹ with hcd
  have hlin : q.rotp (normalized v) = c • q.rotp v := by
    rw [h1, hr, hr]
    unfold dp
    funext i
    fin_cases i <;> simp <;> ring
  have e0 : q.rotp (normalized v) 0 = c * ecef2neu l v 0 := by rw [hlin, hf]; rfl
  have e1 : q.rotp (normalized v) 1 = c * ecef2neu l v 1 := by rw [hlin, hf]; rfl
  have e2 : q.rotp (normalized v) 2 = c * -ecef2neu l v 2 := by rw [hlin, hf]; rfl
  have haz : (Model.Wgs84.azelIn q v).1 = atan2 (ecef2neu l v 1) (ecef2neu l v 0) := by
    unfold Model.Wgs84.azelIn
    simp only [e0, e1]
    exact atan2_scale hc _ _
  have hel : (Model.Wgs84.azelIn q v).2 =
      atan2 (ecef2neu l v 2) (√(ecef2neu l v 0 * ecef2neu l v 0 + ecef2neu l v 1 * ecef2neu l v 1)) := by
    unfold Model.Wgs84.azelIn
    simp only [e0, e1, e2]
    rw [show c * ecef2neu l v 1 * (c * ecef2neu l v 1) + c * ecef2neu l v 0 * (c * ecef2neu l v 0) =
      c ^ 2 * (ecef2neu l v 0 * ecef2neu l v 0 + ecef2neu l v 1 * ecef2neu l v 1) by ring, Real.sqrt_mul (sq_nonneg c),
      Real.sqrt_sq hc.le, show -(c * -ecef2neu l v 2) = c * ecef2neu l v 2 by ring]
    exact atan2_scale hc _ _
  unfold neu2azel
  simp only [haz, hel]

/-! ### The ionosphere -/

theorem down_succ (n : ℕ) (t : ℝ) : down (n + 1) t = if t ≥ 86400 then down n (t - 86400) else some t := rfl
theorem up_succ (n : ℕ) (t : ℝ) : upward (n + 1) t = if t < 0 then upward n (t + 86400) else some t := rfl

theorem floor_back (t : ℝ) : ⌊(t - 86400) / 86400⌋ = ⌊t / 86400⌋ - 1 := by
  rw [show (t - 86400) / 86400 = t / 86400 - 1 by ring, Int.floor_sub_one]

theorem floor_forth (t : ℝ) : ⌊(t + 86400) / 86400⌋ = ⌊t / 86400⌋ + 1 := by
  rw [show (t + 86400) / 86400 = t / 86400 + 1 by ring, Int.floor_add_one]

theorem floor_day {t : ℝ} (h0 : 0 ≤ t) (h1 : t < 86400) : ⌊t / 86400⌋ = 0 := by
  rw [Int.floor_eq_zero_iff]
  exact ⟨by positivity, by rw [div_lt_one (by norm_num)]; exact h1⟩

theorem down_eq : ∀ (m n : ℕ) (t : ℝ), 0 ≤ t → t < 86400 * (m + 1) → m + 1 ≤ n →
    down n t = some (t - ⌊t / 86400⌋ * 86400) := by
  intro m
  induction m with
  | zero =>
    intro n t h0 h1 hn
    obtain ⟨k, rfl⟩ : ∃ k, n = k + 1 := ⟨n - 1, by omega⟩
    norm_num at h1
    rw [down_succ, if_neg (by linarith), floor_day h0 h1]
    simp
  | succ m ih =>
    intro n t h0 h1 hn
    obtain ⟨k, rfl⟩ : ∃ k, n = k + 1 := ⟨n - 1, by omega⟩
    rw [down_succ]
    split_ifs with h
    · rw [ih k (t - 86400) (by linarith) (by push_cast at h1 ⊢; linarith) (by omega), floor_back]
      push_cast
      congr 1
      ring
    · rw [floor_day h0 (not_le.mp h)]
      simp

theorem up_eq : ∀ (m n : ℕ) (t : ℝ), -(86400 * m) ≤ t → t < 86400 → m + 1 ≤ n →
    upward n t = some (t - ⌊t / 86400⌋ * 86400) := by
  intro m
  induction m with
  | zero =>
    intro n t h0 h1 hn
    obtain ⟨k, rfl⟩ : ∃ k, n = k + 1 := ⟨n - 1, by omega⟩
    norm_num at h0
    rw [up_succ, if_neg (by linarith), floor_day h0 h1]
    simp
  | succ m ih =>
    intro n t h0 h1 hn
    obtain ⟨k, rfl⟩ : ∃ k, n = k + 1 := ⟨n - 1, by omega⟩
    rw [up_succ]
    split_ifs with h
    · rw [ih k (t + 86400) (by push_cast at h0 ⊢; linarith) (by linarith) (by omega), floor_forth]
      push_cast
      congr 1
      ring
    · rw [floor_day (not_lt.mp h) h1]
      simp

/-- The loops for the local time end and leave the time of the day. -/
theorem C133_day (t : ℝ) : ∃ m, ∀ n, m ≤ n → dayTime n t = some (t - ⌊t / 86400⌋ * 86400) := by
  obtain ⟨m, hm⟩ := exists_nat_gt (|t| / 86400)
  rw [div_lt_iff₀ (by norm_num)] at hm
  refine ⟨m + 1, fun n hn => ?_⟩
  unfold dayTime
  rcases le_or_gt 0 t with h | h
  · rw [down_eq m n t h (by nlinarith [le_abs_self t]) hn, Option.bind_some]
    have h1 := Int.floor_le (t / 86400)
    have h2 := Int.lt_floor_add_one (t / 86400)
    rw [le_div_iff₀ (by norm_num)] at h1
    rw [div_lt_iff₀ (by norm_num)] at h2
    obtain ⟨k, rfl⟩ : ∃ k, n = k + 1 := ⟨n - 1, by omega⟩
    rw [up_succ, if_neg (by linarith)]
  · obtain ⟨k, rfl⟩ : ∃ k, n = k + 1 := ⟨n - 1, by omega⟩
    rw [down_succ, if_neg (by linarith), Option.bind_some]
    exact up_eq m (k + 1) t (by nlinarith [neg_abs_le t]) (by linarith) hn

/-- The coefficients of the test (models/test_prange_model.cxx 101-102). -/
noncomputable def coeffs : Iono :=
  ⟨true, true, 0.1118E-07, -0.7451E-08, -0.5961E-07, 0.1192E-06, 0.1167E+06, -0.2294E+06, -0.1311E+06, 0.1049E+07⟩

/-- The phase of the code. -/
noncomputable def phase (tow lat lon az el : ℝ) : ℝ :=
  2 * Real.pi * (Model.Wgs84.localTime tow (Model.Wgs84.pierceLon lat lon az el) - 50400) /
    Model.Wgs84.period (Model.Wgs84.pierceMag lat lon az el)

/-- With the exact circle number and the coefficients of the test the simulator's delay is the code's, 18 seconds later, except
where the phase is 1.57 to the last digit. -/
theorem C133_ionosphere (tow lat lon az el : ℝ) (hx : |phase tow lat lon az el| ≠ 1.57) :
    ∃ m, ∀ n, m ≤ n → iono Real.pi n coeffs (tow + 18) lat lon az el = some (Model.Wgs84.iono tow lat lon az el) := by
  obtain ⟨m, hm⟩ := C133_day (43200 * Model.Wgs84.pierceLon lat lon az el + tow + 18)
  refine ⟨m, fun n hn => ?_⟩
  specialize hm n hn
  have hphi : (if lat / Real.pi + (0.0137 / (el / Real.pi + 0.11) - 0.022) * Real.cos az > 0.416 then (0.416 : ℝ)
      else if lat / Real.pi + (0.0137 / (el / Real.pi + 0.11) - 0.022) * Real.cos az < -0.416 then -0.416
      else lat / Real.pi + (0.0137 / (el / Real.pi + 0.11) - 0.022) * Real.cos az) = Model.Wgs84.pierceLat lat az el := rfl
  have hlam : lon / Real.pi + (0.0137 / (el / Real.pi + 0.11) - 0.022) * Real.sin az /
      Real.cos (Model.Wgs84.pierceLat lat az el * Real.pi) = Model.Wgs84.pierceLon lat lon az el := rfl
  have hmag : Model.Wgs84.pierceLat lat az el + 0.064 * Real.cos ((Model.Wgs84.pierceLon lat lon az el - 1.617) * Real.pi)
      = Model.Wgs84.pierceMag lat lon az el := rfl
  unfold iono
  rw [if_neg (by simp [coeffs]), if_neg (by simp [coeffs])]
  simp only [hphi, hlam, hmag]
  rw [show (86400 / 2 * Model.Wgs84.pierceLon lat lon az el + (tow + 18) : ℝ) =
    43200 * Model.Wgs84.pierceLon lat lon az el + tow + 18 by ring, hm, Option.map_some]
  have hloc : 43200 * Model.Wgs84.pierceLon lat lon az el + tow + 18 -
      ⌊(43200 * Model.Wgs84.pierceLon lat lon az el + tow + 18) / 86400⌋ * 86400 =
      Model.Wgs84.localTime tow (Model.Wgs84.pierceLon lat lon az el) := rfl
  rw [hloc]
  have hper : ∀ a : ℝ, (if coeffs.be0 + coeffs.be1 * a + coeffs.be2 * (a * a) + coeffs.be3 * (a * a * a) < 72000 then 72000
      else coeffs.be0 + coeffs.be1 * a + coeffs.be2 * (a * a) + coeffs.be3 * (a * a * a)) = Model.Wgs84.period a := by
    intro a
    unfold Model.Wgs84.period
    rw [show (0.1167E+06 + a * (-0.2294E+06 + a * (-0.1311E+06 + a * 0.1049E+07)) : ℝ) =
      coeffs.be0 + coeffs.be1 * a + coeffs.be2 * (a * a) + coeffs.be3 * (a * a * a) by simp only [coeffs]; ring]
    split_ifs with h
    · rw [max_eq_right h.le]
    · rw [max_eq_left (not_lt.mp h)]
  have hamp : ∀ a : ℝ, (if coeffs.al0 + coeffs.al1 * a + coeffs.al2 * (a * a) + coeffs.al3 * (a * a * a) < 0 then 0
      else coeffs.al0 + coeffs.al1 * a + coeffs.al2 * (a * a) + coeffs.al3 * (a * a * a)) = Model.Wgs84.amp a := by
    intro a
    unfold Model.Wgs84.amp
    rw [show (0.1118E-07 + a * (-0.7451E-08 + a * (-0.5961E-07 + a * 0.1192E-06)) : ℝ) =
      coeffs.al0 + coeffs.al1 * a + coeffs.al2 * (a * a) + coeffs.al3 * (a * a * a) by simp only [coeffs]; ring]
    split_ifs with h
    · rw [max_eq_right h.le]
    · rw [max_eq_left (not_lt.mp h)]
  rw [hper, hamp]
  unfold Model.Wgs84.iono Model.Wgs84.cLight Model.Wgs84.slant
  unfold phase at hx
  simp only
  generalize 2 * Real.pi * (Model.Wgs84.localTime tow (Model.Wgs84.pierceLon lat lon az el) - 50400) /
    Model.Wgs84.period (Model.Wgs84.pierceMag lat lon az el) = X at *
  congr 1
  by_cases h : |X| < 1.57
  · rw [if_pos h, if_pos h.le]
    ring
  · rw [if_neg h, if_neg (fun h' => h (lt_of_le_of_ne h' hx))]
    ring

/-- Such a time: two in the afternoon at the pierce point, where the phase is 0. -/
example (lat lon az el : ℝ) : |phase (50400 - 18 - 43200 * Model.Wgs84.pierceLon lat lon az el) lat lon az el| ≠ 1.57 := by
  have : Model.Wgs84.localTime (50400 - 18 - 43200 * Model.Wgs84.pierceLon lat lon az el) (Model.Wgs84.pierceLon lat lon az el)
      = 50400 := by
    unfold Model.Wgs84.localTime
    simp only
    rw [show 43200 * Model.Wgs84.pierceLon lat lon az el + (50400 - 18 - 43200 * Model.Wgs84.pierceLon lat lon az el) + 18
      = 50400 by ring, floor_day (by norm_num) (by norm_num)]
    simp
  unfold phase
  rw [this]
  norm_num

/-- The delay is 0 when it is switched off, and five nanoseconds of vertical delay without coefficients. -/
theorem C133_flags (pi : ℝ) (n : ℕ) (c : Iono) (sec lat lon az el : ℝ) :
    (c.enable = false → iono pi n c sec lat lon az el = some 0) ∧
    (c.enable = true → c.vflg = false →
      iono pi n c sec lat lon az el = some ((1 + 16 * (0.53 - el / pi) ^ 3) * 5e-9 * 299792458)) := by
  constructor
  · intro h
    unfold iono
    rw [if_pos h]
  · intro h h'
    unfold iono
    rw [if_neg (by simp [h]), if_pos h']
    norm_num

/-! ### The range -/

/-- The earth turns while the signal travels: the simulator turns the satellite to first order in the angle `θ`, off by at most
`θ² / 2` of its coordinates, and its distance from the axis grows by the factor `√(1 + θ²)`. -/
theorem C133_rotation (pos vel rec : V3) (hθ : |Model.Ekf.omegaEarth * tau pos rec| ≤ 1) :
    let θ := Model.Ekf.omegaEarth * tau pos rec
    let q := pos - tau pos rec • vel
    let p := moved pos vel rec
    |p 0 - (Real.cos θ * q 0 + Real.sin θ * q 1)| ≤ θ ^ 2 / 2 * (|q 0| + |q 1|) ∧
    |p 1 - (Real.cos θ * q 1 - Real.sin θ * q 0)| ≤ θ ^ 2 / 2 * (|q 0| + |q 1|) ∧ p 2 = q 2 ∧
    p 0 ^ 2 + p 1 ^ 2 = (1 + θ ^ 2) * (q 0 ^ 2 + q 1 ^ 2) := by
  intro θ q p
  have h0 : p 0 = q 0 + θ * q 1 := by
    change q 0 + q 1 * Model.Ekf.omegaEarth * tau pos rec = q 0 + Model.Ekf.omegaEarth * tau pos rec * q 1
    ring
  have h1 : p 1 = q 1 - θ * q 0 := by
    change q 1 - q 0 * Model.Ekf.omegaEarth * tau pos rec = q 1 - Model.Ekf.omegaEarth * tau pos rec * q 0
    ring
  have hc : |1 - Real.cos θ| ≤ θ ^ 2 / 2 := by
    rw [abs_of_nonneg (by linarith [Real.cos_le_one θ])]
    linarith [Real.one_sub_sq_div_two_le_cos (x := θ)]
  have hs : |θ - Real.sin θ| ≤ θ ^ 2 / 2 := by
    refine (Real.abs_sub_sin_le θ).trans ?_
    have : |θ| ≤ 1 := hθ
    rw [← sq_abs θ]
    nlinarith [abs_nonneg θ, sq_nonneg |θ|]
  have hb : ∀ a b : ℝ, |(1 - Real.cos θ) * a| + |(θ - Real.sin θ) * b| ≤ θ ^ 2 / 2 * (|a| + |b|) := by
    intro a b
    rw [abs_mul, abs_mul]
    nlinarith [abs_nonneg a, abs_nonneg b]
  refine ⟨?_, ?_, rfl, ?_⟩
  · rw [h0, show q 0 + θ * q 1 - (Real.cos θ * q 0 + Real.sin θ * q 1) = (1 - Real.cos θ) * q 0 + (θ - Real.sin θ) * q 1 by ring]
    exact (abs_add_le _ _).trans (hb _ _)
  · rw [h1, show q 1 - θ * q 0 - (Real.cos θ * q 1 - Real.sin θ * q 0) = (1 - Real.cos θ) * q 1 - (θ - Real.sin θ) * q 0 by ring,
      add_comm |q 0|]
    exact (abs_sub _ _).trans (hb _ _)
  · rw [h0, h1]
    ring

/-- Such a light time: a satellite up to four thousand seconds of light away. -/
example (pos rec : V3) (h : vnorm (pos - rec) ≤ 1e12) : |Model.Ekf.omegaEarth * tau pos rec| ≤ 1 := by
  unfold Model.Ekf.omegaEarth tau
  have h0 : 0 ≤ vnorm (pos - rec) := Real.sqrt_nonneg _
  rw [abs_of_nonneg (by positivity)]
  norm_num at h ⊢
  linarith

/-- The rate is that of the distance of a satellite that goes on straight from the moved position; the drift of its clock and
the turning of the earth are not in it. -/
theorem C133_rate (n : ℕ) (pos vel : V3) (clk : ℝ) (c : Iono) (sec : ℝ) (rec p : V3) (r : Range)
    (h : computeRange n pos vel clk c sec rec = some (p, r)) (hne : p ≠ rec) :
    HasDerivAt (fun s : ℝ => vnorm (p + s • vel - rec)) r.rate 0 ∧ r.d = vnorm (p - rec) ∧
    r.range = r.d - 299792458 * clk + r.iono ∧ p = moved pos vel rec := by
  unfold computeRange at h
  simp only [Option.bind_eq_bind, Option.bind_eq_some_iff, Option.some.injEq, Prod.mk.injEq] at h
  obtain ⟨l, -, i, -, hp, hr⟩ := h
  rw [hp] at hr
  subst hr
  refine ⟨?_, rfl, by norm_num, hp.symm⟩
  simp only
  have hd : p - rec ≠ 0 := sub_ne_zero.mpr hne
  have hpos : 0 < vnorm (p - rec) := (normalized_unit hd).1
  have hq : ∀ i, HasDerivAt (fun s : ℝ => (p + s • vel - rec) i) (vel i) 0 := by
    intro i
    have : HasDerivAt (fun s : ℝ => p i + s * vel i - rec i) (vel i) 0 := by
      have := (((hasDerivAt_id (0 : ℝ)).mul_const (vel i)).const_add (p i)).sub_const (rec i)
      simpa using this
    exact this
  have hz : ∀ i, (p + (0 : ℝ) • vel - rec) i = (p - rec) i := by
    intro i
    rw [zero_smul, add_zero]
  have hsum := (((hq 0).mul (hq 0)).add ((hq 1).mul (hq 1))).add ((hq 2).mul (hq 2))
  have hsq : sqNorm (p - rec) ≠ 0 := by
    intro h0
    have : vnorm (p - rec) = 0 := by unfold vnorm; rw [h0, Real.sqrt_zero]
    exact hpos.ne' this
  have hroot := hsum.sqrt (by
    change sqNorm (p + (0 : ℝ) • vel - rec) ≠ 0
    rw [zero_smul, add_zero]
    exact hsq)
  have hfun : (fun s : ℝ => vnorm (p + s • vel - rec)) = fun y => √(((((fun s : ℝ => (p + s • vel - rec) 0) * fun s : ℝ => (p + s • vel - rec) 0) +
      (fun s : ℝ => (p + s • vel - rec) 1) * fun s : ℝ => (p + s • vel - rec) 1) +
      (fun s : ℝ => (p + s • vel - rec) 2) * fun s : ℝ => (p + s • vel - rec) 2) y) := rfl
  rw [hfun]
  refine hroot.congr_deriv ?_
  have hv : √(sqNorm (p + (0 : ℝ) • vel - rec)) = vnorm (p - rec) := by
    rw [zero_smul, add_zero]
    rfl
  change _ / (2 * √(sqNorm (p + (0 : ℝ) • vel - rec))) = _
  rw [hv]
  simp only [hz]
  field_simp
  ring

/-- The simulator moves the satellite in the caller's memory: unless the satellite is in the plane of the first and third axis it
is elsewhere afterwards, and a second call corrects the corrected position. -/
theorem C133_overwritten_violated (pos rec : V3) (hne : pos ≠ rec) (h1 : pos 1 ≠ 0) : moved pos 0 rec ≠ pos := by
  intro h
  have h0 := congrFun h 0
  have hp : 0 < vnorm (pos - rec) := (normalized_unit (sub_ne_zero.mpr hne)).1
  have ht : 0 < tau pos rec := div_pos hp (by norm_num)
  have hm : moved pos 0 rec 0 = pos 0 + pos 1 * Model.Ekf.omegaEarth * tau pos rec := by
    unfold moved
    simp
  rw [hm] at h0
  have : pos 1 * Model.Ekf.omegaEarth * tau pos rec = 0 := by linarith
  rcases mul_eq_zero.mp this with h2 | h2
  · rcases mul_eq_zero.mp h2 with h3 | h3
    · exact h1 h3
    · unfold Model.Ekf.omegaEarth at h3
      norm_num at h3
  · exact ht.ne' h2

end Verif.Props.Sdr
