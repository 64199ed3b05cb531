import Verif.Model.Orbit
import Mathlib.Analysis.SpecialFunctions.Trigonometric.Bounds
import Mathlib.Topology.Order.IntermediateValue

/-!
C89: the Kepler equation solver of `common/satellite/satellite_state.cxx` (35-40) for every eccentricity that a
broadcast message can carry (32 bits times `2^-33`, so below one half).
-/

namespace Verif.Props.Kepler

open Verif.Model.Orbit

/-- Kepler's equation. -/
def KeplerEq (e M E : ℝ) : Prop := E - e * Real.sin E = M

/-- Two values with the same mean anomaly are the same. -/
theorem kepler_inj {e M E F : ℝ} (h0 : 0 ≤ e) (h1 : e < 1) (hE : KeplerEq e M E) (hF : KeplerEq e M F) : E = F := by
  unfold KeplerEq at *
  by_contra hne
  have hs : |Real.sin E - Real.sin F| ≤ |E - F| := by
    have := Real.sin_sub_sin E F
    rw [this, abs_mul, abs_mul, abs_two]
    have h2 : |Real.sin ((E - F) / 2)| ≤ |(E - F) / 2| := Real.abs_sin_le_abs
    have h3 := Real.abs_cos_le_one ((E + F) / 2)
    have h4 : |(E - F) / 2| = |E - F| / 2 := by rw [abs_div, abs_two]
    nlinarith [abs_nonneg (Real.sin ((E - F) / 2)), abs_nonneg (Real.cos ((E + F) / 2))]
  have hEF : E - F = e * (Real.sin E - Real.sin F) := by linarith
  have : |E - F| = e * |Real.sin E - Real.sin F| := by
    conv_lhs => rw [hEF]
    rw [abs_mul, abs_of_nonneg h0]
  have hp : 0 < |E - F| := abs_pos.mpr (sub_ne_zero.mpr hne)
  nlinarith

/-- Kepler's equation has exactly one solution. -/
theorem C89_unique (e M : ℝ) (h0 : 0 ≤ e) (h1 : e < 1) : ∃! E, KeplerEq e M E := by
  have hc : ContinuousOn (fun x : ℝ => x - e * Real.sin x) (Set.Icc (M - 1) (M + 1)) := by fun_prop
  have hm : M ∈ Set.Icc ((M - 1) - e * Real.sin (M - 1)) ((M + 1) - e * Real.sin (M + 1)) := by
    constructor
    · nlinarith [Real.neg_one_le_sin (M - 1), Real.sin_le_one (M - 1)]
    · nlinarith [Real.neg_one_le_sin (M + 1), Real.sin_le_one (M + 1)]
  obtain ⟨E, _, hE⟩ := intermediate_value_Icc (by linarith) hc hm
  exact ⟨E, hE, fun F hF => kepler_inj h0 h1 hF hE⟩

/-- One Newton step squares the error. -/
theorem newton_err {e M E x : ℝ} (h0 : 0 ≤ e) (h1 : e ≤ 1 / 2) (hE : KeplerEq e M E) (hx : |x - E| ≤ 1 / 2) :
    |newton e M x - E| ≤ 5 / 8 * |x - E| ^ 2 := by
  have hc1 := Real.cos_le_one x
  have hc2 := Real.neg_one_le_cos x
  have hD : 0 < 1 - e * Real.cos x := by nlinarith
  have hsE : Real.sin E = Real.sin x * Real.cos (x - E) - Real.cos x * Real.sin (x - E) := by
    rw [← Real.sin_sub]; congr 1; ring
  set h := x - E with hh
  have key : newton e M x - E
      = e * (Real.sin x * (1 - Real.cos h) + Real.cos x * (Real.sin h - h)) / (1 - e * Real.cos x) := by
    unfold newton KeplerEq at *
    rw [← hE, hsE, eq_div_iff hD.ne', sub_mul, sub_mul, div_mul_cancel₀ _ hD.ne', hh]
    ring
  have hb1 : |1 - Real.cos h| ≤ h ^ 2 / 2 := by
    rw [abs_of_nonneg (by linarith [Real.cos_le_one h])]
    linarith [Real.one_sub_sq_div_two_le_cos (x := h)]
  have hb2 : |Real.sin h - h| ≤ |h| ^ 3 / 6 := by
    rw [abs_sub_comm]; exact Real.abs_sub_sin_le h
  have hnum : |Real.sin x * (1 - Real.cos h) + Real.cos x * (Real.sin h - h)| ≤ 5 / 8 * |h| ^ 2 := by
    refine (abs_add_le _ _).trans ?_
    rw [abs_mul, abs_mul]
    have s1 : |Real.sin x| * |1 - Real.cos h| ≤ h ^ 2 / 2 :=
      (mul_le_of_le_one_left (abs_nonneg _) (Real.abs_sin_le_one x)).trans hb1
    have s2 : |Real.cos x| * |Real.sin h - h| ≤ |h| ^ 3 / 6 :=
      (mul_le_of_le_one_left (abs_nonneg _) (Real.abs_cos_le_one x)).trans hb2
    rw [← sq_abs h] at s1
    nlinarith [abs_nonneg h, sq_nonneg |h|]
  rw [key, abs_div, abs_mul, abs_of_nonneg h0, abs_of_pos hD, div_le_iff₀ hD]
  have hle : e ≤ 1 - e * Real.cos x := by nlinarith
  have hn0 : 0 ≤ 5 / 8 * |h| ^ 2 := by positivity
  calc e * |Real.sin x * (1 - Real.cos h) + Real.cos x * (Real.sin h - h)| ≤ e * (5 / 8 * |h| ^ 2) :=
        mul_le_mul_of_nonneg_left hnum h0
    _ ≤ (1 - e * Real.cos x) * (5 / 8 * |h| ^ 2) := mul_le_mul_of_nonneg_right hle hn0
    _ = _ := by ring

theorem start_err {e M E : ℝ} (h0 : 0 ≤ e) (h1 : e ≤ 1 / 2) (hE : KeplerEq e M E) : |M - E| ≤ 1 / 2 := by
  unfold KeplerEq at hE
  have : M - E = -(e * Real.sin E) := by linarith
  rw [this, abs_neg, abs_mul, abs_of_nonneg h0]
  nlinarith [Real.abs_sin_le_one E, abs_nonneg (Real.sin E)]

/-- The test of the loop certifies the result. -/
theorem stop_err {e M E prev : ℝ} (h0 : 0 ≤ e) (h1 : e ≤ 1 / 2) (hE : KeplerEq e M E) (hp : |prev - E| ≤ 1 / 2)
    (hs : |newton e M prev - prev| ≤ 1e-13) : |newton e M prev - E| ≤ 2e-26 := by
  have hn := newton_err h0 h1 hE hp
  have ht : |prev - E| ≤ |newton e M prev - prev| + |newton e M prev - E| := by
    have := abs_sub_abs_le_abs_sub (prev - E) (newton e M prev - E)
    have e1 : prev - E - (newton e M prev - E) = -(newton e M prev - prev) := by ring
    rw [e1, abs_neg] at this
    linarith
  have ha := abs_nonneg (prev - E)
  have h2 : |prev - E| ≤ 16 / 11 * 1e-13 := by nlinarith
  nlinarith

theorem err_mono {e M E x a b : ℝ} (h0 : 0 ≤ e) (h1 : e ≤ 1 / 2) (hE : KeplerEq e M E) (hx : |x - E| ≤ a)
    (ha : a ≤ 1 / 2) (hb : 5 / 8 * a ^ 2 ≤ b) : |newton e M x - E| ≤ b := by
  have := newton_err h0 h1 hE (hx.trans ha)
  have h3 : |x - E| ^ 2 ≤ a ^ 2 := by
    have := abs_nonneg (x - E)
    nlinarith
  linarith

theorem loop_succ (e M prev ek : ℝ) (n : ℕ) : solveLoop e M (n + 1) prev ek
    = if |ek - prev| > 1e-13 then solveLoop e M n ek (newton e M ek) else ek := rfl

/-- The loop stays where the test holds. -/
theorem loop_stop {e M prev ek : ℝ} (n : ℕ) (h : |ek - prev| ≤ 1e-13) : solveLoop e M n prev ek = ek := by
  cases n with
  | zero => rfl
  | succ n => rw [loop_succ, if_neg (not_lt.mpr h)]

/-- The first test passes. -/
theorem first_test {M : ℝ} (hM : |M| ≤ 1e300) : |M - dblMax| > 1e-13 := by
  have : dblMax - M ≤ |M - dblMax| := by rw [abs_sub_comm]; exact le_abs_self _
  have h2 := le_abs_self M
  unfold dblMax at *
  have : (1e-13 : ℝ) < 1.7976931348623157e308 - 1e300 := by norm_num
  linarith

/-- At most six Newton steps are made: the bound of thirty is never reached. -/
theorem C89_six_steps (e M : ℝ) (h0 : 0 ≤ e) (h1 : e ≤ 1 / 2) (n : ℕ) :
    solveLoop e M (n + 6) dblMax M = solveLoop e M 6 dblMax M := by
  obtain ⟨E, hE, _⟩ := C89_unique e M h0 (by linarith)
  have b0 : |M - E| ≤ 1 / 2 := start_err h0 h1 hE
  set x0 := M with hx0
  have b1 : |newton e x0 x0 - E| ≤ 0.157 := err_mono h0 h1 hE b0 le_rfl (by norm_num)
  set x1 := newton e x0 x0
  have b2 : |newton e x0 x1 - E| ≤ 0.0155 := err_mono h0 h1 hE b1 (by norm_num) (by norm_num)
  set x2 := newton e x0 x1
  have b3 : |newton e x0 x2 - E| ≤ 0.000151 := err_mono h0 h1 hE b2 (by norm_num) (by norm_num)
  set x3 := newton e x0 x2
  have b4 : |newton e x0 x3 - E| ≤ 1.5e-8 := err_mono h0 h1 hE b3 (by norm_num) (by norm_num)
  set x4 := newton e x0 x3
  have b5 : |newton e x0 x4 - E| ≤ 1.5e-16 := err_mono h0 h1 hE b4 (by norm_num) (by norm_num)
  set x5 := newton e x0 x4
  have b6 : |newton e x0 x5 - E| ≤ 1e-16 := err_mono h0 h1 hE b5 (by norm_num) (by norm_num)
  have hs : |newton e x0 x5 - x5| ≤ 1e-13 := by
    have e1 : newton e x0 x5 - x5 = (newton e x0 x5 - E) - (x5 - E) := by ring
    rw [e1]
    refine (abs_sub _ _).trans ?_
    have : (1e-16 : ℝ) + 1.5e-16 ≤ 1e-13 := by norm_num
    linarith
  have hl := loop_stop (e := e) (M := x0) n hs
  have hl0 := loop_stop (e := e) (M := x0) 0 hs
  simp only [show n + 6 = n + 5 + 1 from rfl, show n + 5 = n + 4 + 1 from rfl, show n + 4 = n + 3 + 1 from rfl,
    show n + 3 = n + 2 + 1 from rfl, show n + 2 = n + 1 + 1 from rfl, show (6 : ℕ) = 0 + 1 + 1 + 1 + 1 + 1 + 1 from rfl,
    loop_succ]
  rw [show newton e x0 x0 = x1 from rfl, show newton e x0 x1 = x2 from rfl, show newton e x0 x2 = x3 from rfl,
    show newton e x0 x3 = x4 from rfl, show newton e x0 x4 = x5 from rfl, hl, hl0]

/-- The result of the solver, for any bound on the number of iterations from six upwards, is within `2e-26` of the
solution of Kepler's equation (in exact arithmetic). -/
theorem C89_accuracy_steps (e M E : ℝ) (h0 : 0 ≤ e) (h1 : e ≤ 1 / 2) (hM : |M| ≤ 1e300) (hE : KeplerEq e M E)
    (n : ℕ) : |solveLoop e M (n + 6) dblMax M - E| ≤ 2e-26 := by
  rw [C89_six_steps e M h0 h1 n]
  have b0 : |M - E| ≤ 1 / 2 := start_err h0 h1 hE
  have hf := first_test hM
  set x0 := M with hx0
  have b1 : |newton e x0 x0 - E| ≤ 0.157 := err_mono h0 h1 hE b0 le_rfl (by norm_num)
  have c1 := stop_err h0 h1 hE b0
  set x1 := newton e x0 x0
  have b2 : |newton e x0 x1 - E| ≤ 0.0155 := err_mono h0 h1 hE b1 (by norm_num) (by norm_num)
  have c2 := stop_err h0 h1 hE (prev := x1) (b1.trans (by norm_num))
  set x2 := newton e x0 x1
  have b3 : |newton e x0 x2 - E| ≤ 0.000151 := err_mono h0 h1 hE b2 (by norm_num) (by norm_num)
  have c3 := stop_err h0 h1 hE (prev := x2) (b2.trans (by norm_num))
  set x3 := newton e x0 x2
  have b4 : |newton e x0 x3 - E| ≤ 1.5e-8 := err_mono h0 h1 hE b3 (by norm_num) (by norm_num)
  have c4 := stop_err h0 h1 hE (prev := x3) (b3.trans (by norm_num))
  set x4 := newton e x0 x3
  have b5 : |newton e x0 x4 - E| ≤ 1.5e-16 := err_mono h0 h1 hE b4 (by norm_num) (by norm_num)
  have c5 := stop_err h0 h1 hE (prev := x4) (b4.trans (by norm_num))
  set x5 := newton e x0 x4
  have b6 : |newton e x0 x5 - E| ≤ 2e-26 := err_mono h0 h1 hE b5 (by norm_num) (by norm_num)
  simp only [show (6 : ℕ) = 0 + 1 + 1 + 1 + 1 + 1 + 1 from rfl, loop_succ]
  rw [show newton e x0 x0 = x1 from rfl, show newton e x0 x1 = x2 from rfl, show newton e x0 x2 = x3 from rfl,
    show newton e x0 x3 = x4 from rfl, show newton e x0 x4 = x5 from rfl, if_pos hf]
  split_ifs with t1 t2 t3 t4 t5
  · exact b6
  · exact c5 (not_lt.mp t5)
  · exact c4 (not_lt.mp t4)
  · exact c3 (not_lt.mp t3)
  · exact c2 (not_lt.mp t2)
  · exact c1 (not_lt.mp t1)

/-- The solver. -/
theorem C89_accuracy (e M E : ℝ) (h0 : 0 ≤ e) (h1 : e ≤ 1 / 2) (hM : |M| ≤ 1e300) (hE : KeplerEq e M E) :
    |solve e M - E| ≤ 2e-26 := C89_accuracy_steps e M E h0 h1 hM hE 24

/-- On a circular orbit and on the line of apsides the solver is exact. -/
theorem C89_circular (M : ℝ) (hM : |M| ≤ 1e300) : solve 0 M = M := by
  have hn : newton 0 M M = M := by simp [newton]
  have : solve 0 M = solveLoop 0 M 29 M (newton 0 M M) := by
    unfold solve; rw [show (30 : ℕ) = 29 + 1 from rfl, loop_succ, if_pos (first_test hM)]
  rw [this, hn]
  exact loop_stop 29 (by norm_num)

theorem C89_perigee (e : ℝ) : solve e 0 = 0 := by
  have hn : newton e 0 0 = 0 := by simp [newton]
  have : solve e 0 = solveLoop e 0 29 0 (newton e 0 0) := by
    unfold solve; rw [show (30 : ℕ) = 29 + 1 from rfl, loop_succ, if_pos (first_test (by norm_num))]
  rw [this, hn]
  exact loop_stop 29 (by norm_num)

/-- The first test of the loop is needed: with `ek_prev` starting at the mean anomaly no step is made. -/
example (e M : ℝ) (n : ℕ) : solveLoop e M n M M = M := loop_stop n (by norm_num)

/-- An instance of the hypotheses with a nonzero eccentricity. -/
example : KeplerEq (1 / 2) (Real.pi / 2 - 1 / 2) (Real.pi / 2) ∧ |solve (1 / 2) (Real.pi / 2 - 1 / 2) - Real.pi / 2| ≤ 2e-26 := by
  have h : KeplerEq (1 / 2) (Real.pi / 2 - 1 / 2) (Real.pi / 2) := by simp [KeplerEq]
  refine ⟨h, C89_accuracy _ _ _ (by norm_num) le_rfl ?_ h⟩
  rw [abs_le]
  constructor <;> nlinarith [Real.pi_pos, Real.pi_le_four]

end Verif.Props.Kepler
