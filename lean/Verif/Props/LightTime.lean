import Verif.Model.Orbit
import Mathlib.Analysis.InnerProductSpace.PiL2
import Mathlib.Topology.MetricSpace.Contracting

/-!
C95: the light time iteration (`common/satellite/satellite_cache.cxx` 42-56, the same loop in
`models/prange_model.cxx` 31-44 and `sim/sensors/gnss.cxx` 200-211).
-/

namespace Verif.Props.LightTime

open Verif.Model.Lie Verif.Model.Ekf Verif.Model.Orbit

theorem vnorm_eq (a : V3) : vnorm a = ‖(WithLp.toLp 2 a : EuclideanSpace ℝ (Fin 3))‖ := by
  rw [EuclideanSpace.norm_eq, vnorm, sqNorm, dot, Fin.sum_univ_three]
  simp only [Real.norm_eq_abs, sq, abs_mul_abs_self]

theorem vnorm_sub_le (a b : V3) : |vnorm a - vnorm b| ≤ vnorm (a - b) := by
  rw [vnorm_eq, vnorm_eq, vnorm_eq, WithLp.toLp_sub]
  exact abs_norm_sub_norm_le _ _

theorem vnorm_nonneg (a : V3) : 0 ≤ vnorm a := Real.sqrt_nonneg _

theorem planar_le (a b : V3) : |a 0 * b 1 - a 1 * b 0| ≤ vnorm a * vnorm b := by
  have h0 : 0 ≤ sqNorm a :=
    add_nonneg (add_nonneg (mul_self_nonneg _) (mul_self_nonneg _)) (mul_self_nonneg _)
  unfold vnorm
  rw [← Real.sqrt_mul h0]
  apply Real.abs_le_sqrt
  unfold sqNorm dot
  nlinarith [sq_nonneg (a 0 * b 0 + a 1 * b 1), sq_nonneg (a 2 * b 0), sq_nonneg (a 2 * b 1), sq_nonneg (a 0 * b 2),
    sq_nonneg (a 1 * b 2), sq_nonneg (a 2 * b 2)]

/-- The light time equation, with the turn of the earth during the flight to first order: a signal that left the
satellite at `s` is received at `t`. -/
def Received (p : ℝ → V3) (rec : V3) (t s : ℝ) : Prop :=
  cLight * (t - s) = vnorm (p s - rec) + omegaEarth * (p s 0 * rec 1 - p s 1 * rec 0) / cLight

/-- The ratio by which each iteration reduces the error, for a satellite no faster than `L`. -/
noncomputable def ratio (rec : V3) (L : ℝ) : ℝ := L * (1 + omegaEarth * vnorm rec / cLight) / cLight

/-- No faster than `L`. -/
def Speed (p : ℝ → V3) (L : ℝ) : Prop := ∀ s u, vnorm (p s - p u) ≤ L * |s - u|

/-- The new time of the code. -/
noncomputable def next (p : ℝ → V3) (rec : V3) (t s : ℝ) : ℝ := (lightStep p rec t s).2

theorem c_pos : (0 : ℝ) < cLight := by unfold cLight; norm_num
theorem w_pos : (0 : ℝ) < omegaEarth := by unfold omegaEarth; norm_num

theorem next_eq (p : ℝ → V3) (rec : V3) (t s : ℝ) :
    next p rec t s = t - (vnorm (p s - rec) + omegaEarth * (p s 0 * rec 1 - p s 1 * rec 0) / cLight) / cLight := by
  simp only [next, lightStep]; ring

theorem step_eq (p : ℝ → V3) (rec : V3) (t s : ℝ) : (lightStep p rec t s).1 = s - next p rec t s := by
  simp only [next, lightStep]; ring

/-- The fixed points of the iteration are the solutions of the light time equation. -/
theorem fixed_iff (p : ℝ → V3) (rec : V3) (t s : ℝ) : next p rec t s = s ↔ Received p rec t s := by
  rw [next_eq, Received]
  have := c_pos
  constructor
  · intro h
    have h2 : (vnorm (p s - rec) + omegaEarth * (p s 0 * rec 1 - p s 1 * rec 0) / cLight) / cLight = t - s := by
      linarith
    rw [div_eq_iff c_pos.ne'] at h2
    linarith
  · intro h
    rw [← h]
    field_simp
    ring

theorem next_lip {p : ℝ → V3} {rec : V3} {L : ℝ} (hL : Speed p L) (t s u : ℝ) :
    |next p rec t s - next p rec t u| ≤ ratio rec L * |s - u| := by
  have hc := c_pos
  have hw := w_pos
  have h1 : |vnorm (p s - rec) - vnorm (p u - rec)| ≤ vnorm (p s - p u) := by
    have := vnorm_sub_le (p s - rec) (p u - rec)
    rwa [show p s - rec - (p u - rec) = p s - p u by abel] at this
  have h2 := planar_le (p s - p u) rec
  simp only [Pi.sub_apply] at h2
  have h3 := hL s u
  have hr := vnorm_nonneg rec
  rw [next_eq, next_eq, show
    t - (vnorm (p s - rec) + omegaEarth * (p s 0 * rec 1 - p s 1 * rec 0) / cLight) / cLight
      - (t - (vnorm (p u - rec) + omegaEarth * (p u 0 * rec 1 - p u 1 * rec 0) / cLight) / cLight)
    = -((vnorm (p s - rec) - vnorm (p u - rec))
        + omegaEarth / cLight * ((p s 0 - p u 0) * rec 1 - (p s 1 - p u 1) * rec 0)) / cLight by field_simp; ring,
    abs_div, abs_neg, abs_of_pos hc, show ratio rec L * |s - u|
      = L * (1 + omegaEarth * vnorm rec / cLight) * |s - u| / cLight by rw [ratio]; ring]
  refine div_le_div_of_nonneg_right ?_ hc.le
  refine (abs_add_le _ _).trans ?_
  rw [abs_mul, abs_of_pos (div_pos hw hc)]
  have h4 : omegaEarth / cLight * |(p s 0 - p u 0) * rec 1 - (p s 1 - p u 1) * rec 0|
      ≤ omegaEarth / cLight * (L * |s - u| * vnorm rec) := by
    refine mul_le_mul_of_nonneg_left (h2.trans ?_) (div_pos hw hc).le
    exact mul_le_mul_of_nonneg_right h3 hr
  calc _ ≤ L * |s - u| + omegaEarth / cLight * (L * |s - u| * vnorm rec) := add_le_add (h1.trans h3) h4
    _ = _ := by ring

/-- There is exactly one time of transmission. -/
theorem C95_unique (p : ℝ → V3) (rec : V3) (L t : ℝ) (hL : Speed p L) (hK : ratio rec L < 1) :
    ∃! s, Received p rec t s := by
  have hK0 : 0 ≤ ratio rec L := by
    have := next_lip (rec := rec) hL 0 1 0
    simp at this
    exact (abs_nonneg _).trans this
  have hc : ContractingWith ⟨ratio rec L, hK0⟩ (next p rec t) := by
    refine ⟨by exact_mod_cast hK, LipschitzWith.of_dist_le_mul fun a b => ?_⟩
    rw [Real.dist_eq, Real.dist_eq]
    exact next_lip hL t a b
  refine ⟨ContractingWith.fixedPoint (next p rec t) hc, ?_, fun s hs => ?_⟩
  · exact (fixed_iff p rec t _).mp hc.fixedPoint_isFixedPt
  · exact hc.fixedPoint_unique ((fixed_iff p rec t s).mpr hs)

theorem loop_succ (p v : ℝ → V3) (rec : V3) (t : ℝ) (n : ℕ) (s : ℝ) : lightLoop p v rec t (n + 1) s =
    if |s - next p rec t s| * vnorm (v (next p rec t s)) > 1e-3 then lightLoop p v rec t n (next p rec t s)
    else some (next p rec t s) := by
  rw [← step_eq]; rfl

/-- The loop ends: the correction shrinks by the ratio in each iteration. -/
theorem C95_terminates (p v : ℝ → V3) (rec : V3) (L t : ℝ) (hL : Speed p L)
    (hv : ∀ s, vnorm (v s) ≤ L) (n : ℕ) : ∀ s,
    ratio rec L ^ n * |s - next p rec t s| * L ≤ 1e-3 → (lightLoop p v rec t (n + 1) s).isSome := by
  have hL0 : 0 ≤ L := (vnorm_nonneg _).trans (hv 0)
  have hK0 : 0 ≤ ratio rec L := by
    have := next_lip (rec := rec) hL 0 1 0
    simp at this
    exact (abs_nonneg _).trans this
  induction n with
  | zero =>
    intro s hs
    rw [loop_succ]
    have h1 : |s - next p rec t s| * vnorm (v (next p rec t s)) ≤ |s - next p rec t s| * L :=
      mul_le_mul_of_nonneg_left (hv _) (abs_nonneg _)
    rw [if_neg (not_lt.mpr (by rw [pow_zero, one_mul] at hs; linarith))]
    rfl
  | succ n ih =>
    intro s hs
    rw [loop_succ]
    split_ifs with h
    · apply ih
      have h1 := next_lip (rec := rec) hL t s (next p rec t s)
      have h2 : 0 ≤ ratio rec L ^ n := pow_nonneg hK0 n
      calc ratio rec L ^ n * |next p rec t s - next p rec t (next p rec t s)| * L
          ≤ ratio rec L ^ n * (ratio rec L * |s - next p rec t s|) * L :=
            mul_le_mul_of_nonneg_right (mul_le_mul_of_nonneg_left h1 h2) hL0
        _ = ratio rec L ^ (n + 1) * |s - next p rec t s| * L := by ring
        _ ≤ 1e-3 := hs
    · rfl

/-- The loop ends for some number of iterations, from every start. -/
theorem C95_halts (p v : ℝ → V3) (rec : V3) (L t : ℝ) (hL : Speed p L) (hK : ratio rec L < 1)
    (hv : ∀ s, vnorm (v s) ≤ L) (s : ℝ) : ∃ n r, lightLoop p v rec t n s = some r := by
  have hL0 : 0 ≤ L := (vnorm_nonneg _).trans (hv 0)
  have hK0 : 0 ≤ ratio rec L := by
    have := next_lip (rec := rec) hL 0 1 0
    simp at this
    exact (abs_nonneg _).trans this
  have hp : 0 ≤ |s - next p rec t s| * L := by positivity
  obtain ⟨n, hn⟩ := exists_pow_lt_of_lt_one (show (0 : ℝ) < 1e-3 / (|s - next p rec t s| * L + 1) by positivity) hK
  refine ⟨n + 1, ?_⟩
  apply Option.isSome_iff_exists.mp
  apply C95_terminates p v rec L t hL hv n s
  rw [lt_div_iff₀ (by linarith)] at hn
  have : 0 ≤ ratio rec L ^ n := pow_nonneg hK0 n
  nlinarith

/-- What the loop returns: the image of a time whose correction moved the satellite by at most a millimetre. -/
theorem loop_result (p v : ℝ → V3) (rec : V3) (t : ℝ) (n : ℕ) : ∀ s r, lightLoop p v rec t n s = some r →
    ∃ u, r = next p rec t u ∧ |u - r| * vnorm (v r) ≤ 1e-3 := by
  induction n with
  | zero => intro s r h; cases h
  | succ n ih =>
    intro s r h
    rw [loop_succ] at h
    split_ifs at h with hc
    · exact ih _ _ h
    · have hr := Option.some.inj h
      refine ⟨s, hr.symm, ?_⟩
      rw [← hr]
      exact not_lt.mp hc

/-- The error of the result: with the satellite moving no slower than `l` and no faster than `L`, its position is
within `ratio / (1 - ratio) * L / l` millimetres of the position at the time of transmission. -/
theorem C95_accuracy (p v : ℝ → V3) (rec : V3) (L l t : ℝ) (hL : Speed p L) (hK : ratio rec L < 1) (hl : 0 < l)
    (hv : ∀ s, l ≤ vnorm (v s)) (n : ℕ) (s r u : ℝ) (h : lightLoop p v rec t n s = some r) (hu : Received p rec t u) :
    |r - u| ≤ ratio rec L / (1 - ratio rec L) * (1e-3 / l) ∧
      vnorm (p r - p u) ≤ ratio rec L / (1 - ratio rec L) * (L / l) * 1e-3 := by
  obtain ⟨w, hw, hs⟩ := loop_result p v rec t n s r h
  have hK0 : 0 ≤ ratio rec L := by
    have := next_lip (rec := rec) hL 0 1 0
    simp at this
    exact (abs_nonneg _).trans this
  have hf := (fixed_iff p rec t u).mpr hu
  have h1 : |r - u| ≤ ratio rec L * |w - u| := by
    have := next_lip (rec := rec) hL t w u
    rwa [← hw, hf] at this
  have h2 : |w - u| ≤ |w - r| + |r - u| := abs_sub_le w r u
  have h3 : |w - r| ≤ 1e-3 / l := by
    rw [le_div_iff₀ hl]
    exact (mul_le_mul_of_nonneg_left (hv r) (abs_nonneg _)).trans hs
  have h4 : |r - u| ≤ ratio rec L / (1 - ratio rec L) * (1e-3 / l) := by
    rw [div_mul_eq_mul_div, le_div_iff₀ (by linarith)]
    nlinarith
  have hL0 : 0 ≤ L := by
    have := (vnorm_nonneg _).trans (hL 1 0)
    simpa using this
  refine ⟨h4, (hL r u).trans ?_⟩
  calc L * |r - u| ≤ L * (ratio rec L / (1 - ratio rec L) * (1e-3 / l)) := mul_le_mul_of_nonneg_left h4 hL0
    _ = _ := by ring

/-- For a receiver within ten thousand kilometres of the centre of the earth and a satellite slower than ten
kilometres per second the ratio is below `4e-5`. -/
theorem C95_ratio (rec : V3) (L : ℝ) (h0 : 0 ≤ L) (h1 : L ≤ 10000) (hr : vnorm rec ≤ 1e7) : ratio rec L ≤ 4e-5 := by
  have hn := vnorm_nonneg rec
  unfold ratio
  rw [div_le_iff₀ c_pos]
  have h2 : omegaEarth * vnorm rec / cLight ≤ 1e-5 := by
    rw [div_le_iff₀ c_pos]
    unfold omegaEarth cLight
    linarith
  have h3 : L * (1 + omegaEarth * vnorm rec / cLight) ≤ 10000 * (1 + 1e-5) := by
    have : 0 ≤ omegaEarth * vnorm rec / cLight := div_nonneg (mul_nonneg w_pos.le hn) c_pos.le
    nlinarith
  refine h3.trans ?_
  unfold cLight
  norm_num

/-- So for such a receiver and a satellite between one and ten kilometres per second the position is right to half a
micrometre, whatever the start. -/
theorem C95_micrometre (p v : ℝ → V3) (rec : V3) (t : ℝ) (hr : vnorm rec ≤ 1e7) (hL : Speed p 10000)
    (hv : ∀ s, 1000 ≤ vnorm (v s)) (n : ℕ) (s r u : ℝ) (h : lightLoop p v rec t n s = some r)
    (hu : Received p rec t u) : vnorm (p r - p u) ≤ 5e-7 := by
  have hk := C95_ratio rec 10000 (by norm_num) le_rfl hr
  have hK0 : 0 ≤ ratio rec 10000 := by
    have := next_lip (rec := rec) hL 0 1 0
    simp at this
    exact (abs_nonneg _).trans this
  refine (C95_accuracy p v rec 10000 1000 t hL (by linarith) (by norm_num) hv n s r u h hu).2.trans ?_
  have : ratio rec 10000 / (1 - ratio rec 10000) ≤ 4.1e-5 := by
    rw [div_le_iff₀ (by linarith)]
    nlinarith
  nlinarith

/-- A satellite on a straight line meets the hypotheses. -/
noncomputable def line (s : ℝ) : V3 := ![2e7 + 4000 * s, 0, 0]

example : Speed line 10000 ∧ (∀ s : ℝ, 1000 ≤ vnorm ((fun _ => ![4000, 0, 0]) s : V3)) ∧
    vnorm (![6.4e6, 0, 0] : V3) ≤ 1e7 := by
  have hx : ∀ a : ℝ, vnorm (![a, 0, 0] : V3) = |a| := by
    intro a
    rw [vnorm, sqNorm, dot]
    simp [Real.sqrt_mul_self_eq_abs]
  refine ⟨fun s u => ?_, fun s => ?_, ?_⟩
  · have : line s - line u = ![4000 * (s - u), 0, 0] := by
      funext i; fin_cases i <;> simp [line]; ring
    rw [this, hx, abs_mul]
    have := abs_nonneg (s - u)
    norm_num
    linarith
  · rw [hx]; norm_num
  · rw [hx]; norm_num

end Verif.Props.LightTime
