import Verif.Props.LightTime
/-!
# C153: the light time iteration where the closest ephemeris changes

`getState` takes the closest ephemeris for each time (common/satellite/satellite.h 68-97), so the position jumps at the time in the
middle of two ephemerides, and the iteration may step to and fro.
-/
namespace Verif.Props.LightTimeSwitch
open Verif.Model.Lie Verif.Model.Ekf Verif.Model.Orbit Verif.Props.LightTime

/-- One ephemeris before `m`, the other from `m` on (common/satellite/satellite.h 68-97: `findClosestEphemeris` with two in the almanac, the
later one on a tie; `m` is the middle of their times). -/
noncomputable def switch (m : ℝ) (p₁ p₂ : ℝ → V3) (s : ℝ) : V3 := if s < m then p₁ s else p₂ s

theorem vnorm_tri (a b : V3) : vnorm (a + b) ≤ vnorm a + vnorm b := by
  rw [vnorm_eq, vnorm_eq, vnorm_eq, WithLp.toLp_add]
  exact norm_add_le _ _

theorem vnorm_comm (a b : V3) : vnorm (a - b) = vnorm (b - a) := by
  rw [vnorm_eq, vnorm_eq, WithLp.toLp_sub, WithLp.toLp_sub]
  exact norm_sub_rev _ _

/-- Two orbits that are apart by at most `J` at the switch. -/
theorem jump {p₁ p₂ : ℝ → V3} {L J m : ℝ} (h₁ : Speed p₁ L) (h₂ : Speed p₂ L) (hJ : vnorm (p₁ m - p₂ m) ≤ J) (hJ0 : 0 ≤ J) (s u : ℝ) :
    vnorm (switch m p₁ p₂ s - switch m p₁ p₂ u) ≤ L * |s - u| + J := by
  have cross : ∀ a b : ℝ, a < m → m ≤ b → vnorm (p₁ a - p₂ b) ≤ L * |a - b| + J := by
    intro a b ha hb
    have e : p₁ a - p₂ b = (p₁ a - p₁ m) + ((p₁ m - p₂ m) + (p₂ m - p₂ b)) := by abel
    rw [e]
    have t1 := vnorm_tri (p₁ a - p₁ m) ((p₁ m - p₂ m) + (p₂ m - p₂ b))
    have t2 := vnorm_tri (p₁ m - p₂ m) (p₂ m - p₂ b)
    have a1 := h₁ a m
    have a2 := h₂ m b
    have e2 : |a - b| = |a - m| + |m - b| := by
      rw [abs_of_neg (by linarith), abs_of_neg (by linarith), abs_of_nonpos (by linarith)]; ring
    rw [e2]
    linarith
  unfold switch
  split_ifs with ha hb hb
  · linarith [h₁ s u]
  · exact cross s u ha (not_lt.1 hb)
  · rw [vnorm_comm, abs_sub_comm]; exact cross u s hb (not_lt.1 ha)
  · linarith [h₂ s u]

theorem ratio_add (rec : V3) (a b : ℝ) : ratio rec (a + b) = ratio rec a + ratio rec b := by unfold ratio; ring

theorem ratio_mul (rec : V3) (a b : ℝ) : ratio rec (a * b) = ratio rec a * b := by unfold ratio; ring

theorem ratio_mono (rec : V3) {a b : ℝ} (h : a ≤ b) : ratio rec a ≤ ratio rec b := by
  unfold ratio
  have : 0 ≤ omegaEarth * vnorm rec / cLight := div_nonneg (mul_nonneg w_pos.le (vnorm_nonneg _)) c_pos.le
  have := c_pos
  gcongr

/-- How far the next times of two positions are apart. -/
theorem next_diff (p q : ℝ → V3) (rec : V3) (t s u : ℝ) : |next p rec t s - next q rec t u| ≤ ratio rec (vnorm (p s - q u)) := by
  have hc := c_pos
  have hw := w_pos
  have h1 : |vnorm (p s - rec) - vnorm (q u - rec)| ≤ vnorm (p s - q u) := by
    have := vnorm_sub_le (p s - rec) (q u - rec)
    rwa [show p s - rec - (q u - rec) = p s - q u by abel] at this
  have h2 := planar_le (p s - q u) rec
  simp only [Pi.sub_apply] at h2
  rw [next_eq, next_eq, show
    t - (vnorm (p s - rec) + omegaEarth * (p s 0 * rec 1 - p s 1 * rec 0) / cLight) / cLight
      - (t - (vnorm (q u - rec) + omegaEarth * (q u 0 * rec 1 - q u 1 * rec 0) / cLight) / cLight)
    = -((vnorm (p s - rec) - vnorm (q u - rec))
        + omegaEarth / cLight * ((p s 0 - q u 0) * rec 1 - (p s 1 - q u 1) * rec 0)) / cLight by field_simp; ring,
    abs_div, abs_neg, abs_of_pos hc, ratio]
  refine div_le_div_of_nonneg_right ?_ hc.le
  refine (abs_add_le _ _).trans ?_
  rw [abs_mul, abs_of_pos (div_pos hw hc)]
  have h4 : omegaEarth / cLight * |(p s 0 - q u 0) * rec 1 - (p s 1 - q u 1) * rec 0|
      ≤ omegaEarth / cLight * (vnorm (p s - q u) * vnorm rec) :=
    mul_le_mul_of_nonneg_left h2 (div_pos hw hc).le
  calc _ ≤ vnorm (p s - q u) + omegaEarth / cLight * (vnorm (p s - q u) * vnorm rec) := add_le_add h1 h4
    _ = _ := by ring

theorem loop_ends (p v : ℝ → V3) (rec : V3) (t K j V : ℝ) (hK0 : 0 ≤ K) (hK : K < 1)
    (hv : ∀ s, vnorm (v s) ≤ V) (hn : ∀ s u, |next p rec t s - next p rec t u| ≤ K * |s - u| + j) (n : ℕ) :
    ∀ s, (K ^ n * |s - next p rec t s| + j / (1 - K)) * V ≤ 1e-3 → (lightLoop p v rec t (n + 1) s).isSome := by
  have hV0 : 0 ≤ V := (vnorm_nonneg _).trans (hv 0)
  have hj0 : 0 ≤ j := by have := hn 0 0; simpa using this
  have hj : j / (1 - K) = K * (j / (1 - K)) + j := by
    have : 1 - K ≠ 0 := by linarith
    field_simp
    ring
  have hjK : 0 ≤ j / (1 - K) := div_nonneg hj0 (by linarith)
  -- the stronger claim with the error of the jumps kept apart
  have key : ∀ n s a, |s - next p rec t s| ≤ a + j / (1 - K) → 0 ≤ a → (K ^ n * a + j / (1 - K)) * V ≤ 1e-3 →
      (lightLoop p v rec t (n + 1) s).isSome := by
    intro n
    induction n with
    | zero =>
      intro s a hs ha h
      rw [loop_succ]
      have h1 : |s - next p rec t s| * vnorm (v (next p rec t s)) ≤ |s - next p rec t s| * V :=
        mul_le_mul_of_nonneg_left (hv _) (abs_nonneg _)
      rw [pow_zero, one_mul] at h
      have h2 : |s - next p rec t s| * V ≤ (a + j / (1 - K)) * V := mul_le_mul_of_nonneg_right hs hV0
      rw [if_neg (not_lt.mpr (by linarith))]
      rfl
    | succ n ih =>
      intro s a hs ha h
      rw [loop_succ]
      split_ifs with hc
      · apply ih _ (K * a) _ (mul_nonneg hK0 ha)
        · rw [← mul_assoc, ← pow_succ]; exact h
        · have h1 := hn s (next p rec t s)
          have h2 : K * |s - next p rec t s| ≤ K * (a + j / (1 - K)) := mul_le_mul_of_nonneg_left hs hK0
          rw [mul_add] at h2
          linarith
      · rfl
  intro s hs
  exact key n s _ (by linarith) (abs_nonneg _) hs

/-- **C153.** The iteration ends also where the ephemeris changes, from every start, if the distance of the two orbits at the switch times
the speed is at most 2.9e5 m²/s, which is 72 metres for satellites of four kilometres per second; for satellites up to ten kilometres per second and
receivers within ten thousand kilometres of the centre of the earth. -/
theorem C153_ends_partial {p₁ p₂ : ℝ → V3} (v : ℝ → V3) (rec : V3) (m t : ℝ) {J V : ℝ} (hr : vnorm rec ≤ 1e7) (h₁ : Speed p₁ V)
    (h₂ : Speed p₂ V) (hv : ∀ s, vnorm (v s) ≤ V) (hV : V ≤ 10000) (hJ : vnorm (p₁ m - p₂ m) ≤ J) (hJV : J * V ≤ 2.9e5) (s : ℝ) :
    ∃ n r, lightLoop (switch m p₁ p₂) v rec t n s = some r := by
  have hV0 : 0 ≤ V := (vnorm_nonneg _).trans (hv 0)
  have hJ0 : 0 ≤ J := (vnorm_nonneg _).trans hJ
  have hK := C95_ratio rec V hV0 hV hr
  have hz : ratio rec 0 = 0 := by unfold ratio; simp
  have hK0 : 0 ≤ ratio rec V := by have := ratio_mono rec hV0; rwa [hz] at this
  have hj0 : 0 ≤ ratio rec J := by have := ratio_mono rec hJ0; rwa [hz] at this
  have hj : ratio rec J * V ≤ 9.7e-4 := by
    rw [← ratio_mul]
    unfold ratio
    rw [div_le_iff₀ c_pos]
    have h2 : omegaEarth * vnorm rec / cLight ≤ 1e-5 := by
      rw [div_le_iff₀ c_pos]
      unfold omegaEarth cLight
      linarith
    have h0 : 0 ≤ omegaEarth * vnorm rec / cLight := div_nonneg (mul_nonneg w_pos.le (vnorm_nonneg _)) c_pos.le
    have : J * V * (1 + omegaEarth * vnorm rec / cLight) ≤ 2.9e5 * (1 + 1e-5) := by gcongr
    refine this.trans ?_
    unfold cLight
    norm_num
  set p := switch m p₁ p₂ with hp
  have hn : ∀ s u, |next p rec t s - next p rec t u| ≤ ratio rec V * |s - u| + ratio rec J := by
    intro s u
    have h := (next_diff p p rec t s u).trans (ratio_mono rec (jump h₁ h₂ hJ hJ0 s u))
    rwa [ratio_add, ratio_mul] at h
  generalize ratio rec V = K at *
  generalize ratio rec J = j at *
  have hb : j / (1 - K) * V ≤ 9.8e-4 := by
    rw [div_mul_eq_mul_div, div_le_iff₀ (by linarith)]
    linarith
  obtain ⟨n, hn'⟩ := exists_pow_lt_of_lt_one (show (0 : ℝ) < 1e-9 / (|s - next p rec t s| + 1) by positivity) (show K < 1 by linarith)
  refine ⟨n + 1, ?_⟩
  apply Option.isSome_iff_exists.mp
  apply loop_ends p v rec t K j V hK0 (by linarith) hv hn n s
  rw [lt_div_iff₀ (by positivity)] at hn'
  have h3 : 0 ≤ K ^ n := pow_nonneg hK0 n
  have h4 : K ^ n * |s - next p rec t s| ≤ 1e-9 := by linarith
  have h5 : K ^ n * |s - next p rec t s| * V ≤ 1e-9 * 10000 :=
    mul_le_mul h4 hV hV0 (by norm_num)
  rw [add_mul]
  linarith

/-- **C153.** What it then returns is at most a millimetre more than the jump of the orbit away from the satellite's position at a time
of transmission, if there is one. -/
theorem C153_accuracy_partial {p₁ p₂ : ℝ → V3} (v : ℝ → V3) (rec : V3) (m t : ℝ) (hr : vnorm rec ≤ 1e7) (h₁ : Speed p₁ 10000)
    (h₂ : Speed p₂ 10000) (hv : ∀ s, 1000 ≤ vnorm (v s)) {J : ℝ} (hJ : vnorm (p₁ m - p₂ m) ≤ J) (hJ25 : J ≤ 25) (n : ℕ) (s r u : ℝ)
    (h : lightLoop (switch m p₁ p₂) v rec t n s = some r) (hu : Received (switch m p₁ p₂) rec t u) :
    vnorm (switch m p₁ p₂ r - switch m p₁ p₂ u) ≤ J + 1e-3 := by
  have hJ0 : 0 ≤ J := (vnorm_nonneg _).trans hJ
  obtain ⟨w, hw, hs⟩ := loop_result _ v rec t n s r h
  have hK := C95_ratio rec 10000 (by norm_num) le_rfl hr
  have hf := (fixed_iff (switch m p₁ p₂) rec t u).mpr hu
  have h1 := (next_diff (switch m p₁ p₂) (switch m p₁ p₂) rec t w u).trans (ratio_mono rec (jump h₁ h₂ hJ hJ0 w u))
  rw [ratio_add, ratio_mul, ← hw, hf] at h1
  have hj : ratio rec J ≤ 8.4e-8 := by
    refine (ratio_mono rec hJ25).trans ?_
    unfold ratio
    rw [div_le_iff₀ c_pos]
    have h2 : omegaEarth * vnorm rec / cLight ≤ 1e-5 := by
      rw [div_le_iff₀ c_pos]
      unfold omegaEarth cLight
      linarith
    have : (25 : ℝ) * (1 + omegaEarth * vnorm rec / cLight) ≤ 25 * (1 + 1e-5) := by gcongr
    refine this.trans ?_
    unfold cLight
    norm_num
  have h2 : |w - u| ≤ |w - r| + |r - u| := abs_sub_le w r u
  have h3 : |w - r| ≤ 1e-6 := by
    have := mul_le_mul_of_nonneg_left (hv r) (abs_nonneg (w - r))
    linarith
  have h4 := jump h₁ h₂ hJ hJ0 r u
  have a1 := abs_nonneg (w - u)
  have a2 := abs_nonneg (r - u)
  have h5 : ratio rec 10000 * |w - u| ≤ 4e-5 * |w - u| := mul_le_mul_of_nonneg_right hK a1
  linarith

/-- The orbit of the witness: straight, and 300 metres further from `0` on. -/
noncomputable def near (s : ℝ) : V3 := ![2e7 + 4000 * s, 0, 0]
noncomputable def far (s : ℝ) : V3 := ![2e7 + 300 + 4000 * s, 0, 0]

theorem vnorm_x (a : ℝ) : vnorm (![a, 0, 0] : V3) = |a| := by
  rw [vnorm, sqNorm, dot]
  simp [Real.sqrt_mul_self_eq_abs]

/-- The receiver, and the time of reception in the middle of the two times that the ephemerides give. -/
noncomputable def here : V3 := ![6.4e6, 0, 0]
noncomputable def now : ℝ := (1.36e7 + 150) / cLight

theorem next_near {s : ℝ} (h : s < 0) (h' : -1 ≤ s) : next (switch 0 near far) here now s = (150 - 4000 * s) / cLight := by
  rw [next_eq]
  have e : switch 0 near far s = ![2e7 + 4000 * s, 0, 0] := by unfold switch; rw [if_pos h]; rfl
  have d : (![2e7 + 4000 * s, 0, 0] : V3) - here = ![1.36e7 + 4000 * s, 0, 0] := by
    funext i; fin_cases i <;> simp [here]; ring
  rw [e, d, vnorm_x, abs_of_pos (by linarith)]
  simp [here, now]
  ring

theorem next_far {s : ℝ} (h : 0 ≤ s) : next (switch 0 near far) here now s = (-150 - 4000 * s) / cLight := by
  rw [next_eq]
  have e : switch 0 near far s = ![2e7 + 300 + 4000 * s, 0, 0] := by unfold switch; rw [if_neg (not_lt.2 h)]; rfl
  have d : (![2e7 + 300 + 4000 * s, 0, 0] : V3) - here = ![1.36e7 + 300 + 4000 * s, 0, 0] := by
    funext i; fin_cases i <;> simp [here]; ring
  rw [e, d, vnorm_x, abs_of_pos (by linarith)]
  simp [here, now]
  ring

theorem line (b : ℝ) : Speed (fun s => ![b + 4000 * s, 0, 0]) 4000 := by
  intro s u
  have : (![b + 4000 * s, 0, 0] : V3) - ![b + 4000 * u, 0, 0] = ![4000 * (s - u), 0, 0] := by
    funext i; fin_cases i <;> simp; ring
  show vnorm ((![b + 4000 * s, 0, 0] : V3) - ![b + 4000 * u, 0, 0]) ≤ _
  rw [this, vnorm_x, abs_mul]
  norm_num

/-- **C153, violated.** With 300 metres between the two ephemerides the loop need not end: it goes to and fro between them for ever, also
from the start that the code takes. -/
theorem C153_endless_violated : Speed near 4000 ∧ Speed far 4000 ∧ vnorm (near 0 - far 0) = 300 ∧ vnorm here ≤ 1e7 ∧
    ∀ n, lightLoop (switch 0 near far) (fun _ => ![4000, 0, 0]) here now n now = none := by
  have hc : cLight = 299792458 := by unfold cLight; norm_num
  refine ⟨line _, line _, ?_, ?_, ?_⟩
  · have : near 0 - far 0 = ![-300, 0, 0] := by
      funext i; fin_cases i <;> simp [near, far]
    rw [this, vnorm_x]; norm_num
  · unfold here; rw [vnorm_x]; norm_num
  · have cyc : ∀ n, ∀ s, -2e-6 ≤ s → s ≤ 2e-6 →
        lightLoop (switch 0 near far) (fun _ => ![4000, 0, 0]) here now n s = none := by
      intro n
      induction n with
      | zero => intro s _ _; rfl
      | succ n ih =>
        intro s h1 h2
        rw [loop_succ, vnorm_x]
        rcases lt_or_ge s 0 with h | h
        · rw [next_near h (by linarith), hc]
          rw [if_pos, ih _ (by linarith) (by linarith)]
          rw [abs_of_neg (by linarith), abs_of_pos (by norm_num)]
          linarith
        · rw [next_far h, hc]
          rw [if_pos, ih _ (by linarith) (by linarith)]
          rw [abs_of_pos (by linarith), abs_of_pos (by norm_num)]
          linarith
    intro n
    cases n with
    | zero => rfl
    | succ n =>
      have hn : 0 ≤ now := by unfold now; rw [hc]; norm_num
      have hn1 : now = (1.36e7 + 150) / 299792458 := by unfold now; rw [hc]
      rw [loop_succ, vnorm_x, next_far hn, hc]
      rw [if_pos, cyc _ _ (by rw [hn1]; norm_num) (by rw [hn1]; norm_num)]
      rw [hn1, abs_of_pos (by norm_num), abs_of_pos (by norm_num)]
      norm_num

/-- **C153, the statement.** The iteration ends for every two ephemerides. It does not (`C153_statement_false`); what is missing from
`C153_ends_partial` is larger jumps. -/
def Statement : Prop := ∀ (p₁ p₂ v : ℝ → V3) (rec : V3) (m t : ℝ), vnorm rec ≤ 1e7 → Speed p₁ 10000 → Speed p₂ 10000 →
  (∀ s, vnorm (v s) ≤ 10000) → ∃ n r, lightLoop (switch m p₁ p₂) v rec t n t = some r

theorem C153_statement_false : ¬ Statement := by
  intro h
  have wide : ∀ {p : ℝ → V3}, Speed p 4000 → Speed p 10000 := fun hp s u => (hp s u).trans (by gcongr; norm_num)
  obtain ⟨a, b, -, c, d⟩ := C153_endless_violated
  obtain ⟨n, r, hr⟩ := h near far (fun _ => ![4000, 0, 0]) here 0 now c (wide a) (wide b) (fun _ => by rw [vnorm_x]; norm_num)
  rw [d n] at hr
  cases hr

/-- Two metres between the orbits, at four kilometres per second: the loop ends. -/
example : ∃ n r, lightLoop (switch 0 near (fun s => ![2e7 + 2 + 4000 * s, 0, 0])) (fun _ => ![4000, 0, 0]) here now n now = some r := by
  refine C153_ends_partial (V := 4000) (J := 2) _ _ _ _ (by unfold here; rw [vnorm_x]; norm_num) (line _) (line _)
    (fun _ => by rw [vnorm_x]; norm_num) (by norm_num) ?_ (by norm_num) _
  have : (![2e7 + 4000 * 0, 0, 0] : V3) - ![2e7 + 2 + 4000 * 0, 0, 0] = ![-2, 0, 0] := by
    funext i; fin_cases i <;> simp
  rw [this, vnorm_x]; norm_num

end Verif.Props.LightTimeSwitch
