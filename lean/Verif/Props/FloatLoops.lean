import Verif.Model.FloatLoops
import Verif.Lemmas.RealRounding
import Verif.Props.SdrOrbit
/-!
# C149: loops with a floating point test end in doubles

The exact versions are C89, C94 and C133.
-/
namespace Verif.Props.FloatLoops
open Verif.FloatLoops Verif.Binary64 Verif.Model.Orbit Verif.Model.Lie Verif.Props.Kepler

/-! ### GLONASS: time steps -/

/-- Without rounding the steps are those of the integration of C94. -/
theorem C149_glonass_model (acc : V3) (n : ℕ) (step dt : ℝ) (x : V3 × V3) :
    gloLoop acc n step dt x = (gloSteps id 1e-9 n step dt).map fun l => l.foldl (fun x h => rk4 (glonassOrbit acc) h x) x := by
  induction n generalizing step dt x with
  | zero => rfl
  | succ n ih =>
    unfold gloLoop gloSteps
    split
    · dsimp only
      rw [ih, Option.map_map]
      rfl
    · rfl

theorem sub_sixty {r : ℚ → ℚ} (hr : Nearest r) {dt : ℚ} (hF : F dt) (hb : |dt| ≤ 2 ^ 55) (h : 60 ≤ |dt|) (s : ℚ)
    (hs : s = if dt < 0 then -60 else 60) : r (dt - s) = dt - s ∧ F (dt - s) ∧ |dt - s| = |dt| - 60 := by
  have ha : |dt - s| = |dt| - 60 := by
    rw [hs]
    split
    · rename_i h0
      rw [abs_of_neg h0] at h ⊢
      rw [abs_of_nonpos (by linarith)]; ring
    · rename_i h0
      push Not at h0
      rw [abs_of_nonneg h0] at h ⊢
      rw [abs_of_nonneg (by linarith)]
  have hF' : F (dt - s) := by
    have h1 : |dt - s| ≤ |dt| := by linarith
    have : s = ((if dt < 0 then -15 else 15 : Int) : ℚ) * 2 ^ 2 := by
      rw [hs]; split <;> norm_num
    rw [this] at h1 ⊢
    exact F_sub hF _ 2 (by simpa using hb) h1
  exact ⟨hr.exact hF', hF', ha⟩

/-- **C149.** The steps in doubles are the exact ones: none of the subtractions rounds, for any time up to `2^55` seconds. -/
theorem C149_glonass_exact {r : ℚ → ℚ} (hr : Nearest r) (tol : ℚ) (n : ℕ) (dt : ℚ) (hF : F dt) (hb : |dt| ≤ 2 ^ 55) (s : ℚ)
    (hs : s = if dt < 0 then -60 else 60) : gloSteps r tol n s dt = gloSteps id tol n s dt := by
  induction n generalizing dt s with
  | zero => rfl
  | succ n ih =>
    unfold gloSteps
    split
    · dsimp only
      congr 1
      by_cases h : |dt| < 60
      · rw [if_pos h, sub_self, hr.exact F_zero]
        cases n with
        | zero => rfl
        | succ n =>
          unfold gloSteps
          dsimp only [id]
          simp only [abs_zero, sub_self, if_pos (show (0 : ℚ) < 60 by norm_num)]
          split
          · congr 1
            rw [hr.exact F_zero]
            have : ∀ m, gloSteps r tol m (0 : ℚ) 0 = gloSteps id tol m 0 0 := by
              intro m
              induction m with
              | zero => rfl
              | succ m im =>
                unfold gloSteps
                simp only [abs_zero, sub_self, if_pos (show (0 : ℚ) < 60 by norm_num), hr.exact F_zero, im, id]
            exact this n
          · rfl
      · rw [if_neg h]
        push Not at h
        obtain ⟨e1, e2, e3⟩ := sub_sixty hr hF hb h s hs
        rw [e1]
        by_cases h0 : dt - s = 0
        · rw [h0]
          have : ∀ m, gloSteps r tol m s 0 = gloSteps id tol m s 0 := by
            intro m
            induction m with
            | zero => rfl
            | succ m im =>
              unfold gloSteps
              simp only [abs_zero, sub_self, if_pos (show (0 : ℚ) < 60 by norm_num), hr.exact F_zero, id]
              split
              · congr 1
                have : ∀ m, gloSteps r tol m (0 : ℚ) 0 = gloSteps id tol m 0 0 := by
                  intro m
                  induction m with
                  | zero => rfl
                  | succ m im =>
                    unfold gloSteps
                    simp only [abs_zero, sub_self, if_pos (show (0 : ℚ) < 60 by norm_num), hr.exact F_zero, im, id]
                exact this m
              · rfl
          exact this n
        · refine ih (dt - s) e2 (by rw [e3]; linarith) s ?_
          rw [hs] at h0 e3 ⊢
          split
          · rename_i hneg
            rw [if_pos hneg] at h0 e3
            rw [abs_of_neg hneg] at h
            rw [if_pos (lt_of_le_of_ne (by linarith) h0)]
          · rename_i hpos
            rw [if_neg hpos] at h0 e3
            push Not at hpos
            rw [abs_of_nonneg hpos] at h
            rw [if_neg (by linarith)]
    · rfl

/-- **C149.** The loop in doubles ends after one step for each minute begun; the steps add up to the time asked for, but for
a rest below the tolerance, and none is longer than a minute. -/
theorem C149_glonass_ends {r : ℚ → ℚ} (hr : Nearest r) (tol : ℚ) (ht : 0 < tol) (n : ℕ) (dt : ℚ) (hF : F dt)
    (hb : |dt| ≤ 2 ^ 55) (s : ℚ) (hs : s = if dt < 0 then -60 else 60) (hn : |dt| < 60 * n) :
    ∃ l, gloSteps r tol (n + 1) s dt = some l ∧ |dt - l.sum| ≤ tol ∧ (∀ h ∈ l, |h| ≤ 60) ∧ l.length ≤ n := by
  induction n generalizing dt s with
  | zero => simp only [Nat.cast_zero, mul_zero] at hn; exact absurd hn (not_lt.2 (abs_nonneg _))
  | succ n ih =>
    unfold gloSteps
    by_cases h1 : |dt| > tol
    · rw [if_pos h1]
      dsimp only
      by_cases h : |dt| < 60
      · refine ⟨[dt], ?_, by simpa using ht.le, by simpa using h.le, by simp⟩
        rw [if_pos h, sub_self, hr.exact F_zero]
        unfold gloSteps
        rw [if_neg (by rw [abs_zero]; exact not_lt.2 ht.le)]
        rfl
      · rw [if_neg h]
        push Not at h
        obtain ⟨e1, e2, e3⟩ := sub_sixty hr hF hb h s hs
        have hs60 : |s| ≤ 60 := by rw [hs]; split <;> norm_num
        rw [e1]
        by_cases h0 : dt - s = 0
        · refine ⟨[s], ?_, ?_, by simpa using hs60, by simp⟩
          · rw [h0]
            unfold gloSteps
            rw [if_neg (by rw [abs_zero]; exact not_lt.2 ht.le)]
            rfl
          · simp [h0, ht.le]
        · obtain ⟨l, hl, hsum, hall, hlen⟩ := ih (dt - s) e2 (by rw [e3]; linarith) s (by
            rw [hs] at h0 e3 ⊢
            split
            · rename_i hneg
              rw [if_pos hneg] at h0 e3
              rw [abs_of_neg hneg] at h
              rw [if_pos (lt_of_le_of_ne (by linarith) h0)]
            · rename_i hpos
              rw [if_neg hpos] at h0 e3
              push Not at hpos
              rw [abs_of_nonneg hpos] at h
              rw [if_neg (by linarith)]) (by rw [e3]; push_cast at hn; linarith)
          refine ⟨s :: l, by rw [hl]; rfl, ?_, ?_, by simpa using hlen⟩
          · rw [List.sum_cons, ← sub_sub]; exact hsum
          · intro x hx
            rcases List.mem_cons.1 hx with rfl | hx
            · exact hs60
            · exact hall x hx
    · rw [if_neg h1]
      exact ⟨[], rfl, by simpa using not_lt.1 h1, by simp, by simp⟩

/-- **C149.** Beyond that it may never end: `2^60` seconds less a minute are `2^60` seconds. -/
theorem C149_glonass_beyond {r : ℚ → ℚ} (hr : Nearest r) (tol : ℚ) (ht : tol < 60) (n : ℕ) :
    gloSteps r tol n 60 (2 ^ 60) = none := by
  have h : r (2 ^ 60 - 60) = 2 ^ 60 := by
    have := hr.eq_of (m := 2 ^ 53) (e := 7) (by norm_num) le_rfl (by norm_num) (x := 2 ^ 60 - 60) (by norm_num [abs_of_pos])
    rw [this]; norm_num
  induction n with
  | zero => rfl
  | succ n ih =>
    unfold gloSteps
    rw [if_pos (by rw [abs_of_pos (by norm_num)]; linarith)]
    dsimp only
    rw [if_neg (by rw [abs_of_pos (by norm_num)]; norm_num), h, ih]
    rfl

/-! ### The time of the day -/

/-- **C149.** The time of the day in the simulator is the exact one, rounded once. -/
theorem C149_day {r : ℚ → ℚ} (hr : Nearest r) (t : ℚ) (hF : F t) (hb : |t| ≤ 2 ^ 60) :
    ∃ m, ∀ n, m ≤ n → dayTime r n t = some (r (t - ⌊t / 86400⌋ * 86400)) := by
  have hdown : ∀ k : ℕ, ∀ t : ℚ, F t → |t| ≤ 2 ^ 60 → 0 ≤ t → t < 86400 * (k + 1) → ∀ n, k < n →
      down r n t = some (t - ⌊t / 86400⌋ * 86400) ∧ F (t - ⌊t / 86400⌋ * 86400) := by
    intro k
    induction k with
    | zero =>
      intro t hF _ h0 h1 n hn
      obtain ⟨m, rfl⟩ : ∃ m, n = m + 1 := ⟨n - 1, by omega⟩
      have hfl : ⌊t / 86400⌋ = 0 := by
        rw [Int.floor_eq_iff]; constructor
        · simpa using div_nonneg h0 (by norm_num)
        · rw [div_lt_iff₀ (by norm_num)]; push_cast; simp at h1; linarith
      rw [hfl]
      simp at h1
      unfold down
      rw [if_neg (by push Not; linarith)]
      simp [hF]
    | succ k ih =>
      intro t hF hb h0 h1 n hn
      obtain ⟨m, rfl⟩ : ∃ m, n = m + 1 := ⟨n - 1, by omega⟩
      by_cases h : t ≥ 86400
      · have hF' : F (t - 86400) := by
          have := F_sub hF 675 7 (by simpa using hb) (by
            rw [abs_of_nonneg h0, abs_of_nonneg (by norm_num; linarith)]; norm_num)
          norm_num at this; exact this
        unfold down
        rw [if_pos h, hr.exact hF']
        have := ih (t - 86400) hF' (by rw [abs_of_nonneg h0] at hb; rw [abs_of_nonneg (by linarith)]; linarith) (by linarith)
          (by push_cast at h1; linarith) m (by omega)
        have hfl : ⌊(t - 86400) / 86400⌋ = ⌊t / 86400⌋ - 1 := by
          rw [show (t - 86400) / 86400 = t / 86400 - 1 by ring, Int.floor_sub_one]
        rw [hfl] at this
        push_cast at this
        rw [show t - 86400 - ((⌊t / 86400⌋ : ℚ) - 1) * 86400 = t - ⌊t / 86400⌋ * 86400 by ring] at this
        exact this
      · push Not at h
        have hfl : ⌊t / 86400⌋ = 0 := by
          rw [Int.floor_eq_iff]; constructor
          · simpa using div_nonneg h0 (by norm_num)
          · rw [div_lt_iff₀ (by norm_num)]; push_cast; linarith
        rw [hfl]
        unfold down
        rw [if_neg (by push Not; linarith)]
        simp [hF]
  have hup : ∀ k : ℕ, ∀ t : ℚ, F t → |t| ≤ 2 ^ 60 → t < 0 → -(86400 * (k + 1)) ≤ t → ∀ n, k + 1 < n →
      upward r n t = some (r (t - ⌊t / 86400⌋ * 86400)) := by
    intro k
    induction k with
    | zero =>
      intro t hF _ h0 h1 n hn
      obtain ⟨m, rfl⟩ : ∃ m, n = m + 1 + 1 := ⟨n - 2, by omega⟩
      have hfl : ⌊t / 86400⌋ = -1 := by
        rw [Int.floor_eq_iff]; constructor
        · rw [le_div_iff₀ (by norm_num)]; push_cast; simp at h1; linarith
        · rw [div_lt_iff₀ (by norm_num)]; push_cast; linarith
      rw [hfl]
      simp at h1
      have h2 : 0 ≤ r (t + 86400) := hr.ge_of_ge F_zero (by linarith)
      unfold upward
      rw [if_pos h0]
      unfold upward
      rw [if_neg (not_lt.2 h2)]
      congr 2; push_cast; ring
    | succ k ih =>
      intro t hF hb h0 h1 n hn
      by_cases h : -86400 ≤ t
      · obtain ⟨m, rfl⟩ : ∃ m, n = m + 1 + 1 := ⟨n - 2, by omega⟩
        have hfl : ⌊t / 86400⌋ = -1 := by
          rw [Int.floor_eq_iff]; constructor
          · rw [le_div_iff₀ (by norm_num)]; push_cast; linarith
          · rw [div_lt_iff₀ (by norm_num)]; push_cast; linarith
        rw [hfl]
        have h2 : 0 ≤ r (t + 86400) := hr.ge_of_ge F_zero (by linarith)
        unfold upward
        rw [if_pos h0]
        unfold upward
        rw [if_neg (not_lt.2 h2)]
        congr 2; push_cast; ring
      · push Not at h
        obtain ⟨m, rfl⟩ : ∃ m, n = m + 1 := ⟨n - 1, by omega⟩
        have hF' : F (t + 86400) := by
          have := F_sub hF (-675) 7 (by simpa using hb) (by
            rw [abs_of_neg h0, abs_of_nonpos (by norm_num; linarith)]; norm_num)
          norm_num at this; exact this
        unfold upward
        rw [if_pos h0, hr.exact hF']
        have := ih (t + 86400) hF' (by rw [abs_of_neg h0] at hb; rw [abs_of_neg (by linarith)]; linarith) (by linarith)
          (by push_cast at h1; linarith) m (by omega)
        have hfl : ⌊(t + 86400) / 86400⌋ = ⌊t / 86400⌋ + 1 := by
          rw [show (t + 86400) / 86400 = t / 86400 + 1 by ring, Int.floor_add_one]
        rw [hfl] at this
        push_cast at this
        rw [show t + 86400 - ((⌊t / 86400⌋ : ℚ) + 1) * 86400 = t - ⌊t / 86400⌋ * 86400 by ring] at this
        exact this
  obtain ⟨k, hk⟩ := exists_nat_gt (|t| / 86400)
  rw [div_lt_iff₀ (by norm_num)] at hk
  refine ⟨k + 2, fun n hn => ?_⟩
  unfold dayTime
  rcases lt_or_ge t 0 with h0 | h0
  · have hd : down r n t = some t := by
      obtain ⟨m, rfl⟩ : ∃ m, n = m + 1 := ⟨n - 1, by omega⟩
      unfold down; rw [if_neg (by push Not; linarith)]
    rw [hd]
    rw [abs_of_neg h0] at hk
    exact hup k t hF hb h0 (by linarith) n (by omega)
  · rw [abs_of_nonneg h0] at hk
    obtain ⟨h1, h2⟩ := hdown k t hF hb h0 (by linarith) n (by omega)
    rw [h1, hr.exact h2]
    obtain ⟨m, rfl⟩ : ∃ m, n = m + 1 := ⟨n - 1, by omega⟩
    have h3 : 0 ≤ t - ⌊t / 86400⌋ * 86400 := by
      have := Int.floor_le (t / 86400)
      rw [le_div_iff₀ (by norm_num)] at this
      linarith
    change upward r (m + 1) _ = _
    unfold upward
    rw [if_neg (not_lt.2 h3)]

/-- **C149.** So it may be the end of the day: a moment before midnight. -/
theorem C149_midnight {r : ℚ → ℚ} (hr : Nearest r) : ∃ m, ∀ n, m ≤ n → dayTime r n (-1 / 2 ^ 60) = some 86400 := by
  have hF : F (-1 / 2 ^ 60) := ⟨-1, -60, by norm_num, by norm_num, by norm_num⟩
  obtain ⟨m, hm⟩ := C149_day hr (-1 / 2 ^ 60) hF (by norm_num [abs_of_neg])
  refine ⟨m, fun n hn => ?_⟩
  rw [hm n hn]
  have hfl : ⌊(-1 / 2 ^ 60 : ℚ) / 86400⌋ = -1 := by rw [Int.floor_eq_iff]; norm_num
  rw [hfl]
  have := hr.eq_of (m := 675 * 2 ^ 43) (e := -36) (by norm_num) (by norm_num) (by norm_num)
    (x := -1 / 2 ^ 60 - ((-1 : Int) : ℚ) * 86400) (by norm_num [abs_of_pos])
  rw [this]
  norm_num

/-! ### The eccentric anomaly -/

/-- A sine or cosine of the library: right to one unit in the last place of one. -/
def Good (f g : ℝ → ℝ) : Prop := ∀ x, |f x - g x| ≤ 2 ^ (-52 : Int)

/-- The error of one step. -/
noncomputable def δ : ℝ := 4.86e-15

/-- One Newton step squares the error (on a slightly larger interval than in C89). -/
theorem newton_wide {e M E x : ℝ} (h0 : 0 ≤ e) (h1 : e ≤ 1 / 2) (hE : KeplerEq e M E) (hx : |x - E| ≤ 0.6) :
    |newton e M x - E| ≤ 5 / 8 * |x - E| ^ 2 := by
  have hc1 := Real.cos_le_one x
  have hc2 := Real.neg_one_le_cos x
  have hD : 0 < 1 - e * Real.cos x := by nlinarith
  have hsE : Real.sin E = Real.sin x * Real.cos (x - E) - Real.cos x * Real.sin (x - E) := by
    rw [← Real.sin_sub]; congr 1; ring
  set h := x - E with hh
  have key : newton e M x - E
      = e * (Real.sin x * (1 - Real.cos h) + Real.cos x * (Real.sin h - h)) / (1 - e * Real.cos x) := by
    unfold newton KeplerEq at *
    rw [← hE, hsE, eq_div_iff hD.ne', sub_mul, sub_mul, div_mul_cancel₀ _ hD.ne', hh]
    ring
  have hb1 : |1 - Real.cos h| ≤ h ^ 2 / 2 := by
    rw [abs_of_nonneg (by linarith [Real.cos_le_one h])]
    linarith [Real.one_sub_sq_div_two_le_cos (x := h)]
  have hb2 : |Real.sin h - h| ≤ |h| ^ 3 / 6 := by
    rw [abs_sub_comm]; exact Real.abs_sub_sin_le h
  have hnum : |Real.sin x * (1 - Real.cos h) + Real.cos x * (Real.sin h - h)| ≤ 5 / 8 * |h| ^ 2 := by
    refine (abs_add_le _ _).trans ?_
    rw [abs_mul, abs_mul]
    have s1 : |Real.sin x| * |1 - Real.cos h| ≤ h ^ 2 / 2 :=
      (mul_le_of_le_one_left (abs_nonneg _) (Real.abs_sin_le_one x)).trans hb1
    have s2 : |Real.cos x| * |Real.sin h - h| ≤ |h| ^ 3 / 6 :=
      (mul_le_of_le_one_left (abs_nonneg _) (Real.abs_cos_le_one x)).trans hb2
    rw [← sq_abs h] at s1
    have s3 : |h| ^ 3 ≤ 3 / 5 * |h| ^ 2 := by
      rw [pow_succ' |h| 2]; exact mul_le_mul_of_nonneg_right (hx.trans (by norm_num)) (sq_nonneg _)
    linarith [sq_nonneg |h|]
  rw [key, abs_div, abs_mul, abs_of_nonneg h0, abs_of_pos hD, div_le_iff₀ hD]
  have hle : e ≤ 1 - e * Real.cos x := by nlinarith
  have hn0 : 0 ≤ 5 / 8 * |h| ^ 2 := by positivity
  calc e * |Real.sin x * (1 - Real.cos h) + Real.cos x * (Real.sin h - h)| ≤ e * (5 / 8 * |h| ^ 2) :=
        mul_le_mul_of_nonneg_left hnum h0
    _ ≤ (1 - e * Real.cos x) * (5 / 8 * |h| ^ 2) := mul_le_mul_of_nonneg_right hle hn0
    _ = _ := by ring

section Kepler
variable {r s c : ℝ → ℝ} (hr : NearestR r) (hs : Good s Real.sin) (hc : Good c Real.cos)
  {e M E : ℝ} (h0 : 0 ≤ e) (h1 : e ≤ 1 / 2) (hM : |M| ≤ 62) (hE : KeplerEq e M E)

include hr hc h0 h1 in
theorem om_err (x : ℝ) : |om r c e x - (1 - e * Real.cos x)| ≤ 2.8e-16 ∧ 0.499 ≤ om r c e x := by
  have hcx := abs_le.1 (hc x)
  have b1 := Real.neg_one_le_cos x
  have b2 := Real.cos_le_one x
  have p52 : (2 : ℝ) ^ (-52 : Int) = 1 / 2 ^ 52 := by norm_num
  rw [p52] at hcx
  have k1 : |e * c x - e * Real.cos x| ≤ 1 / 2 ^ 53 := by
    rw [← mul_sub, abs_mul, abs_of_nonneg h0]
    have := hc x
    rw [p52] at this
    have h2 := mul_le_mul h1 this (abs_nonneg _) (by norm_num)
    linarith
  have k2 : |e * c x| ≤ 2 ^ (0 : Int) := by
    rw [zpow_zero, abs_mul, abs_of_nonneg h0]
    have : |c x| ≤ 2 := by rw [abs_le]; constructor <;> norm_num at hcx ⊢ <;> linarith [hcx.1, hcx.2]
    nlinarith [abs_nonneg (c x)]
  have k3 := hr.err 0 (by norm_num) k2
  norm_num at k3
  have k1' := abs_le.1 k1
  have k3' := abs_le.1 k3
  have hec : |e * Real.cos x| ≤ 1 / 2 := by
    rw [abs_mul, abs_of_nonneg h0]
    nlinarith [Real.abs_cos_le_one x, abs_nonneg (Real.cos x)]
  have hec' := abs_le.1 hec
  norm_num at k1' k3'
  have k4 : |1 - r (e * c x)| ≤ 2 ^ (1 : Int) := by
    rw [abs_le]; constructor <;> norm_num <;> linarith [k1'.1, k1'.2, k3'.1, k3'.2, hec'.1, hec'.2]
  have k5 := hr.err 1 (by norm_num) k4
  norm_num at k5
  have k5' := abs_le.1 k5
  unfold om
  constructor
  · rw [abs_le]; constructor <;> norm_num <;> linarith [k1'.1, k1'.2, k3'.1, k3'.2, k5'.1, k5'.2]
  · norm_num; linarith [k1'.1, k1'.2, k3'.1, k3'.2, k5'.1, k5'.2, hec'.1, hec'.2]

include hr hs hc h0 h1 hM hE in
/-- One step in doubles is a Newton step to `4.86e-15`. -/
theorem step_err {x : ℝ} (hx : |x - E| ≤ 0.51) : |newtonR r s c e M x - newton e M x| ≤ δ := by
  have hME := start_err h0 h1 hE
  obtain ⟨o1, o2⟩ := om_err hr hc h0 h1 x
  have hD : 1 / 2 ≤ 1 - e * Real.cos x := by nlinarith [Real.cos_le_one x, Real.neg_one_le_cos x]
  set D := 1 - e * Real.cos x with hDdef
  set o := om r c e x with ho
  have p52 : (2 : ℝ) ^ (-52 : Int) = 1 / 2 ^ 52 := by norm_num
  -- the sine
  have a1 : |e * s x - e * Real.sin x| ≤ 1 / 2 ^ 53 := by
    rw [← mul_sub, abs_mul, abs_of_nonneg h0]
    have := hs x
    rw [p52] at this
    have h2 := mul_le_mul h1 this (abs_nonneg _) (by norm_num)
    linarith
  have a0 : |e * Real.sin x| ≤ 1 / 2 := by
    rw [abs_mul, abs_of_nonneg h0]
    nlinarith [Real.abs_sin_le_one x, abs_nonneg (Real.sin x)]
  have a1' := abs_le.1 a1
  have a0' := abs_le.1 a0
  norm_num at a1'
  have a2 := hr.err 0 (by norm_num) (x := e * s x) (by
    rw [zpow_zero, abs_le]; constructor <;> linarith [a1'.1, a1'.2, a0'.1, a0'.2])
  norm_num at a2
  have a2' := abs_le.1 a2
  -- the difference
  have d0 : |M - x| ≤ 1.01 := by
    have e1 : M - x = (M - E) - (x - E) := by ring
    rw [e1]
    refine (abs_sub _ _).trans ?_
    norm_num at hx ⊢; linarith
  have d0' := abs_le.1 d0
  norm_num at d0'
  have d1 := hr.err 1 (by norm_num) (x := M - x) (by
    rw [abs_le]; constructor <;> norm_num <;> linarith [d0'.1, d0'.2])
  norm_num at d1
  have d1' := abs_le.1 d1
  -- the numerator
  have n1 := hr.err 1 (by norm_num) (x := r (M - x) + r (e * s x)) (by
    rw [abs_le]; constructor <;> norm_num <;>
      linarith [d0'.1, d0'.2, d1'.1, d1'.2, a0'.1, a0'.2, a1'.1, a1'.2, a2'.1, a2'.2])
  norm_num at n1
  have n1' := abs_le.1 n1
  set N := r (r (M - x) + r (e * s x)) with hN
  set t := M - x + e * Real.sin x with ht
  have n2 : |N - t| ≤ 4e-16 := by
    rw [abs_le]; constructor <;> norm_num <;>
      linarith [d1'.1, d1'.2, a1'.1, a1'.2, a2'.1, a2'.2, n1'.1, n1'.2]
  -- the quotient
  have hnew : newton e M x = x + t / D := by rw [ht, hDdef, Verif.Props.SdrOrbit.step_newton]
  have htD : |t / D| ≤ 0.7 := by
    have h5 := newton_wide h0 h1 hE (hx.trans (by norm_num))
    have h6 : |x - E| ^ 2 ≤ 0.51 ^ 2 := pow_le_pow_left₀ (abs_nonneg _) hx 2
    have e1 : t / D = (newton e M x - E) - (x - E) := by rw [hnew]; ring
    rw [e1]
    refine (abs_sub _ _).trans ?_
    norm_num at hx h5 h6 ⊢; linarith
  have hq : |N / o - t / D| ≤ 1.25e-15 := by
    have ho0 : (0 : ℝ) < o := by norm_num at o2; linarith
    have hD0 : (0 : ℝ) < D := by linarith
    have e1 : N / o - t / D = ((N - t) + t / D * (D - o)) / o := by field_simp; ring
    rw [e1, abs_div, abs_of_pos ho0, div_le_iff₀ ho0]
    refine (abs_add_le _ _).trans ?_
    rw [abs_mul, abs_sub_comm D]
    have := mul_le_mul htD o1 (abs_nonneg _) (by norm_num)
    norm_num at this n2 o2 ⊢
    nlinarith
  have hq' := abs_le.1 hq
  have htD' := abs_le.1 htD
  norm_num at hq' htD'
  have q1 := hr.err 0 (by norm_num) (x := N / o) (by
    rw [zpow_zero, abs_le]; constructor <;> linarith [hq'.1, hq'.2, htD'.1, htD'.2])
  norm_num at q1
  have q1' := abs_le.1 q1
  -- the sum
  have hM' := abs_le.1 hM
  have hME' := abs_le.1 hME
  have hx' := abs_le.1 hx
  norm_num at hx'
  have z1 := hr.err 6 (by norm_num) (x := x + r (N / o)) (by
    rw [abs_le]; constructor <;> norm_num <;>
      linarith [hM'.1, hM'.2, hME'.1, hME'.2, hx'.1, hx'.2, q1'.1, q1'.2, hq'.1, hq'.2, htD'.1, htD'.2])
  norm_num at z1
  have z1' := abs_le.1 z1
  have hdef : newtonR r s c e M x = r (x + r (N / o)) := rfl
  rw [hdef, hnew, δ, abs_le]
  constructor <;> norm_num <;> linarith [z1'.1, z1'.2, q1'.1, q1'.2, hq'.1, hq'.2]

include hr hs hc h0 h1 hM hE in
theorem err_step {x a b : ℝ} (hx : |x - E| ≤ a) (ha : a ≤ 0.51) (hb : 5 / 8 * a ^ 2 + δ ≤ b) :
    |newtonR r s c e M x - E| ≤ b := by
  have h2 := step_err hr hs hc h0 h1 hM hE (hx.trans ha)
  have h3 := newton_wide h0 h1 hE ((hx.trans ha).trans (by norm_num))
  have h4 : |x - E| ^ 2 ≤ a ^ 2 := pow_le_pow_left₀ (abs_nonneg _) hx 2
  have := abs_sub_le (newtonR r s c e M x) (newton e M x) E
  linarith

/-- One iteration more. -/
theorem more (r s c : ℝ → ℝ) (tol e M : ℝ) (n : ℕ) (p : ℝ)
    (h : (anomaly r s c tol e M n (newtonR r s c e M p) (newtonR r s c e M (newtonR r s c e M p))
      (om r c e (newtonR r s c e M p))).isSome) :
    (anomaly r s c tol e M (n + 1) p (newtonR r s c e M p) (om r c e p)).isSome := by
  unfold anomaly
  split_ifs with hs
  · exact h
  · rfl

include hr hs hc h0 h1 hM hE in
theorem ended {tol : ℝ} (v o : ℝ) : ∀ n p, |p - E| ≤ 0.51 →
    anomaly r s c tol e M n p (newtonR r s c e M p) (om r c e p) = some (v, o) →
    ∃ q, v = newtonR r s c e M q ∧ o = om r c e q ∧ |q - E| ≤ 0.51 ∧ |r (v - q)| ≤ tol := by
  intro n
  induction n with
  | zero => intro p _ h; cases h
  | succ n ih =>
    intro p hp h
    unfold anomaly at h
    split_ifs at h with hs'
    · exact ih _ (err_step hr hs hc h0 h1 hM hE hp le_rfl (by rw [δ]; norm_num)) h
    · simp only [Option.some.injEq, Prod.mk.injEq] at h
      obtain ⟨rfl, rfl⟩ := h
      exact ⟨p, rfl, rfl, hp, not_lt.mp hs'⟩

include hr hs hc h0 h1 hM hE in
/-- **C149.** The loop for the eccentric anomaly, which has no limit on its iterations and a tolerance of one and a half
units in the last place, ends in doubles after at most seven steps, for every eccentricity a message can carry and every
mean anomaly up to 62 radians, with the solution of Kepler's equation to `4.87e-15`. -/
theorem C149_anomaly (tol : ℝ) (ht : |tol - 1e-14| ≤ 1e-30) (n : ℕ) :
    ∃ ek o, anomaly r s c tol e M (n + 8) (r (M + 1)) M 0 = some (ek, o) ∧ |ek - E| ≤ 4.87e-15 ∧
      |o - (1 - e * Real.cos ek)| ≤ 1e-14 := by
  have ht' := abs_le.1 ht
  norm_num at ht'
  have b0 : |M - E| ≤ 1 / 2 := start_err h0 h1 hE
  have hM' := abs_le.1 hM
  have hfirst : anomaly r s c tol e M (n + 8) (r (M + 1)) M 0
      = anomaly r s c tol e M (n + 7) M (newtonR r s c e M M) (om r c e M) := by
    rw [show n + 8 = (n + 7) + 1 by ring]
    conv_lhs => unfold anomaly
    rw [if_pos]
    have k1 := hr.err 6 (by norm_num) (x := M + 1) (by rw [abs_le]; constructor <;> norm_num <;> linarith [hM'.1, hM'.2])
    norm_num at k1
    have k1' := abs_le.1 k1
    have k2 := hr.err 1 (by norm_num) (x := M - r (M + 1)) (by
      rw [abs_le]; constructor <;> norm_num <;> linarith [k1'.1, k1'.2])
    norm_num at k2
    have k2' := abs_le.1 k2
    have : 1 / 2 ≤ -r (M - r (M + 1)) := by linarith [k1'.1, k1'.2, k2'.1, k2'.2]
    have := this.trans (neg_le_abs _)
    linarith [ht'.1, ht'.2]
  have step : ∀ {x a b : ℝ}, |x - E| ≤ a → a ≤ 0.51 → 5 / 8 * a ^ 2 + δ ≤ b → |newtonR r s c e M x - E| ≤ b :=
    fun hx ha hb => err_step hr hs hc h0 h1 hM hE hx ha hb
  have hsome : (anomaly r s c tol e M (n + 7) M (newtonR r s c e M M) (om r c e M)).isSome := by
    have b1 := step (b := 0.157) b0 (by norm_num) (by rw [δ]; norm_num)
    have b2 := step (b := 0.0155) b1 (by norm_num) (by rw [δ]; norm_num)
    have b3 := step (b := 0.000151) b2 (by norm_num) (by rw [δ]; norm_num)
    have b4 := step (b := 1.43e-8) b3 (by norm_num) (by rw [δ]; norm_num)
    have b5 := step (b := 4.99e-15) b4 (by norm_num) (by rw [δ]; norm_num)
    have b6 := step (b := 4.87e-15) b5 (by norm_num) (by rw [δ]; norm_num)
    refine more _ _ _ _ _ _ (n + 6) _ (more _ _ _ _ _ _ (n + 5) _ (more _ _ _ _ _ _ (n + 4) _
      (more _ _ _ _ _ _ (n + 3) _ (more _ _ _ _ _ _ (n + 2) _ ?_))))
    generalize newtonR r s c e M (newtonR r s c e M (newtonR r s c e M (newtonR r s c e M (newtonR r s c e M M)))) = x5 at *
    rw [show n + 2 = (n + 1) + 1 by ring]
    unfold anomaly
    rw [if_neg]
    · rfl
    · rw [not_lt]
      have k0 : |newtonR r s c e M x5 - x5| ≤ 9.86e-15 := by
        refine (abs_sub_le _ E _).trans ?_
        rw [abs_sub_comm E]
        norm_num at b5 b6 ⊢; linarith
      have k1 := hr.err (-46) (by norm_num) (x := newtonR r s c e M x5 - x5) (k0.trans (by norm_num))
      norm_num at k1 k0
      have := abs_sub_abs_le_abs_sub (r (newtonR r s c e M x5 - x5)) (newtonR r s c e M x5 - x5)
      linarith [ht'.1, ht'.2]
  obtain ⟨⟨v, o⟩, hv⟩ := Option.isSome_iff_exists.mp hsome
  obtain ⟨q, hq1, hq2, hq3, hq4⟩ := ended hr hs hc h0 h1 hM hE v o _ M
    (b0.trans (by norm_num)) hv
  have hb : |v - E| ≤ 5 / 8 * |q - E| ^ 2 + δ := by rw [hq1]; exact step le_rfl hq3 le_rfl
  -- the difference of the last two
  have hvq : |v - q| ≤ 1.003e-14 := by
    have hd : |v - q| ≤ 2 := by
      have := abs_sub_le v E q
      rw [abs_sub_comm E] at this
      have h9 : |q - E| ^ 2 ≤ 0.51 ^ 2 := pow_le_pow_left₀ (abs_nonneg _) hq3 2
      rw [δ] at hb
      norm_num at h9 hq3 hb ⊢
      linarith
    have k0 := hr.err 1 (by norm_num) (x := v - q) (by norm_num; exact hd)
    norm_num at k0
    have c0 := abs_sub_abs_le_abs_sub (v - q) (r (v - q))
    rw [abs_sub_comm] at k0
    have c1 : |v - q| ≤ 1.1e-13 := by norm_num; linarith [ht'.1, ht'.2]
    have k1 := hr.err (-42) (by norm_num) (x := v - q) (c1.trans (by norm_num))
    norm_num at k1
    rw [abs_sub_comm] at k1
    norm_num
    linarith [ht'.1, ht'.2]
  have hqE : |q - E| ≤ 3e-14 := by
    have := abs_sub_le q v E
    rw [abs_sub_comm q v] at this
    have h9 : |q - E| ^ 2 ≤ 0.51 * |q - E| := by
      rw [sq]; exact mul_le_mul_of_nonneg_right hq3 (abs_nonneg _)
    rw [δ] at hb
    norm_num at h9 hvq hb ⊢
    linarith
  have hvE : |v - E| ≤ 4.87e-15 := by
    have h9 : |q - E| ^ 2 ≤ (3e-14) ^ 2 := pow_le_pow_left₀ (abs_nonneg _) hqE 2
    rw [δ] at hb
    norm_num at h9 hb ⊢
    linarith
  refine ⟨v, o, by rw [hfirst, hv], hvE, ?_⟩
  rw [hq2]
  have k1 := (om_err hr hc h0 h1 q).1
  have k2 : |(1 - e * Real.cos q) - (1 - e * Real.cos v)| ≤ 1 / 2 * |v - q| := by
    have e1 : (1 - e * Real.cos q) - (1 - e * Real.cos v) = e * (Real.cos v - Real.cos q) := by ring
    have hcs : |Real.cos v - Real.cos q| ≤ |v - q| := by
      rw [Real.cos_sub_cos, abs_mul, abs_mul, abs_neg, abs_two]
      have h2 : |Real.sin ((v - q) / 2)| ≤ |(v - q) / 2| := Real.abs_sin_le_abs
      have h3 := Real.abs_sin_le_one ((v + q) / 2)
      have h4 : |(v - q) / 2| = |v - q| / 2 := by rw [abs_div, abs_two]
      nlinarith [abs_nonneg (Real.sin ((v - q) / 2)), abs_nonneg (Real.sin ((v + q) / 2))]
    rw [e1, abs_mul, abs_of_nonneg h0]
    exact mul_le_mul h1 hcs (abs_nonneg _) (by norm_num)
  have := abs_sub_le (om r c e q) (1 - e * Real.cos q) (1 - e * Real.cos v)
  norm_num at k1 hvq ⊢
  linarith

end Kepler

/-- The hypotheses can be met: an eccentricity of a hundredth, the rounding of a processor and correctly rounded functions. -/
example : ∃ r s c : ℝ → ℝ, NearestR r ∧ Good s Real.sin ∧ Good c Real.cos ∧ ∃ E, KeplerEq 0.01 47 E ∧
    ∃ ek o, anomaly r s c 1e-14 0.01 47 8 (r (47 + 1)) 47 0 = some (ek, o) ∧ |ek - E| ≤ 4.87e-15 := by
  obtain ⟨r, hr⟩ := exists_nearestR
  have hs : Good (fun x => r (Real.sin x)) Real.sin := fun x =>
    (hr.err 0 (by norm_num) (by rw [zpow_zero]; exact Real.abs_sin_le_one x)).trans (by norm_num)
  have hc : Good (fun x => r (Real.cos x)) Real.cos := fun x =>
    (hr.err 0 (by norm_num) (by rw [zpow_zero]; exact Real.abs_cos_le_one x)).trans (by norm_num)
  obtain ⟨E, hE, -⟩ := C89_unique 0.01 47 (by norm_num) (by norm_num)
  obtain ⟨ek, o, h, h', -⟩ := C149_anomaly hr hs hc (by norm_num) (by norm_num) (by norm_num [abs_of_pos]) hE 1e-14
    (by norm_num) 0
  exact ⟨r, _, _, hr, hs, hc, E, hE, ek, o, h, h'⟩

/-- Two hours and a tenth of a second: 121 steps. -/
example : F 7200.125 ∧ ∃ l, gloSteps Verif.FTime.rnd (1 / 10 ^ 9) 122 60 7200.125 = some l ∧ |7200.125 - l.sum| ≤ 1 / 10 ^ 9 ∧
    l.length ≤ 121 := by
  have hF : F 7200.125 := ⟨57601, -3, by norm_num, by norm_num, by norm_num⟩
  obtain ⟨l, h1, h2, -, h4⟩ := C149_glonass_ends rnd_nearest (1 / 10 ^ 9) (by norm_num) 121 7200.125 hF
    (by norm_num [abs_of_pos]) 60 (by norm_num) (by norm_num [abs_of_pos])
  exact ⟨hF, l, h1, h2, h4⟩

end Verif.Props.FloatLoops
