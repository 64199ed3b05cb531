import Verif.Model.Rtklib
import Verif.Lemmas.Time
import Verif.Props.Kepler
import Verif.Props.GlonassOrbit
import Verif.Props.Atm
import Verif.Props.QuatLog

/-!
C129: satellite positions, satellite clocks and atmospheric delays agree with RTKLIB, the reference implementation kept
in `third_party/rtklib`.
-/

namespace Verif.Props.Rtklib

open Verif Verif.Model.Lie Verif.Model.Ekf Verif.Model.Orbit Verif.Model.Rtklib

/-! ### Times and numbers -/

/-- A difference of timestamps is the difference of the reference. -/
theorem C129_timediff (a b : Utc.Time) (ha : TimeSpec.Norm a) (hb : TimeSpec.Norm b)
    (hd : -2 ^ 63 < a.sec - b.sec ∧ a.sec - b.sec < 2 ^ 63) :
    ∃ d, Utc.sub a b = some d ∧ (Utc.toSecNs d : ℝ) * 1e-9 = timediff (toTime a) (toTime b) := by
  obtain ⟨d, h1, -, h2⟩ := Utc.sub_defined a b ha hb hd
  refine ⟨d, h1, ?_⟩
  have h3 : (Utc.toSecNs d : ℤ) = (a.sec - b.sec) * 1000000000 + (a.nsec - b.nsec) := by
    unfold TimeSpec.instant at h2
    unfold Utc.toSecNs
    norm_num at h2
    linarith
  rw [h3]
  simp only [timediff, toTime]
  push_cast
  ring

theorem satsys_eq (sat : ℤ) : satsys sat = if sat ≤ 0 ∨ 55 < sat then (Sys.none, 0) else if sat ≤ 32 then (Sys.gps, sat)
    else (Sys.sbs, sat + 87) := by
  unfold satsys
  simp only [MAXSAT, NSATGPS, MAXPRNGPS, MINPRNGPS, NSATGLO, NSATGAL, NSATQZS, NSATCMP, NSATIRN, NSATSBS, NSATLEO,
    MAXPRNSBS, MINPRNSBS]
  norm_num
  split_ifs <;> first | rfl | omega | (simp; omega)

theorem satno_eq (sys : Sys) (prn : ℤ) : satno sys prn = if sys = Sys.gps ∧ 1 ≤ prn ∧ prn ≤ 32 then prn
    else if sys = Sys.sbs ∧ 120 ≤ prn ∧ prn ≤ 142 then prn - 87 else 0 := by
  unfold satno
  cases sys <;>
    simp only [MINPRNGPS, MAXPRNGPS, MINPRNGLO, MAXPRNGLO, MINPRNGAL, MAXPRNGAL, MINPRNQZS, MAXPRNQZS, MINPRNCMP,
      MAXPRNCMP, MINPRNIRN, MAXPRNIRN, MINPRNLEO, MAXPRNLEO, MINPRNSBS, MAXPRNSBS, NSATGPS, NSATGLO, NSATGAL, NSATQZS,
      NSATCMP, NSATIRN, NSATLEO, reduceCtorEq, false_and, true_and, if_false] <;>
    split_ifs <;> omega

/-- Every satellite number belongs to GPS or SBAS or to no system, and numbers and pairs correspond. -/
theorem C129_numbers (sat : ℤ) :
    (satsys sat).1 ∈ [Sys.none, Sys.gps, Sys.sbs] ∧
    ((satsys sat).1 = Sys.gps ↔ 1 ≤ sat ∧ sat ≤ 32) ∧
    ((satsys sat).1 ≠ Sys.none → satno (satsys sat).1 (satsys sat).2 = sat) ∧
    (∀ sys prn, satno sys prn ≠ 0 → satsys (satno sys prn) = (sys, prn)) := by
  refine ⟨?_, ?_, ?_, ?_⟩
  · rw [satsys_eq]; split_ifs <;> simp
  · rw [satsys_eq]; split_ifs <;> simp <;> omega
  · rw [satsys_eq, satno_eq]
    split_ifs <;> simp_all <;> omega
  · intro sys prn h
    rw [satno_eq] at h ⊢
    rw [satsys_eq]
    split_ifs at h ⊢ <;> simp_all <;> omega

example : satsys 7 = (Sys.gps, 7) ∧ satsys 33 = (Sys.sbs, 120) ∧ satsys 56 = (Sys.none, 0) ∧ satno Sys.gal 11 = 0 := by
  decide

/-! ### Kepler's equation -/

theorem kloop_succ (e M E Ek : ℝ) (n : ℕ) : keplerLoop e M (n + 1) E Ek
    = if |E - Ek| > 1E-13 then keplerLoop e M n (newton e M E) E else some E := rfl

/-- When the loop of the reference ends, the loop of the code has the same result. -/
theorem loops (e M x : ℝ) : ∀ n E Ek, keplerLoop e M n E Ek = some x → solveLoop e M n Ek E = x := by
  intro n
  induction n with
  | zero => intro E Ek h; cases h
  | succ n ih =>
    intro E Ek h
    rw [kloop_succ] at h
    rw [Kepler.loop_succ]
    by_cases hc : |E - Ek| > 1E-13
    · rw [if_pos hc] at h ⊢; exact ih _ _ h
    · rw [if_neg hc] at h ⊢; exact Option.some.inj h

theorem kloop_stop {e M E Ek : ℝ} (n : ℕ) (h : |E - Ek| ≤ 1e-13) : keplerLoop e M (n + 1) E Ek = some E := by
  rw [kloop_succ, if_neg (not_lt.mpr h)]

theorem kstep {e M E Ek : ℝ} {n : ℕ} (h : ∃ x, keplerLoop e M n (newton e M E) E = some x) :
    ∃ x, keplerLoop e M (n + 1) E Ek = some x := by
  rw [kloop_succ]
  by_cases hc : |E - Ek| > 1E-13
  · rw [if_pos hc]; exact h
  · rw [if_neg hc]; exact ⟨_, rfl⟩

/-- The loop of the reference ends before its limit. -/
theorem kloop_ends (e M : ℝ) (h0 : 0 ≤ e) (h1 : e ≤ 1 / 2) : ∃ E, keplerLoop e M 30 M 0 = some E := by
  obtain ⟨E, hE, _⟩ := Kepler.C89_unique e M h0 (by linarith)
  have b0 : |M - E| ≤ 1 / 2 := Kepler.start_err h0 h1 hE
  set x0 := M with hx0
  have b1 : |newton e x0 x0 - E| ≤ 0.157 := Kepler.err_mono h0 h1 hE b0 le_rfl (by norm_num)
  set x1 := newton e x0 x0
  have b2 : |newton e x0 x1 - E| ≤ 0.0155 := Kepler.err_mono h0 h1 hE b1 (by norm_num) (by norm_num)
  set x2 := newton e x0 x1
  have b3 : |newton e x0 x2 - E| ≤ 0.000151 := Kepler.err_mono h0 h1 hE b2 (by norm_num) (by norm_num)
  set x3 := newton e x0 x2
  have b4 : |newton e x0 x3 - E| ≤ 1.5e-8 := Kepler.err_mono h0 h1 hE b3 (by norm_num) (by norm_num)
  set x4 := newton e x0 x3
  have b5 : |newton e x0 x4 - E| ≤ 1.5e-16 := Kepler.err_mono h0 h1 hE b4 (by norm_num) (by norm_num)
  set x5 := newton e x0 x4
  have b6 : |newton e x0 x5 - E| ≤ 1e-16 := Kepler.err_mono h0 h1 hE b5 (by norm_num) (by norm_num)
  have hs : |newton e x0 x5 - x5| ≤ 1e-13 := by
    have e1 : newton e x0 x5 - x5 = (newton e x0 x5 - E) - (x5 - E) := by ring
    rw [e1]
    refine (abs_sub _ _).trans ?_
    have : (1e-16 : ℝ) + 1.5e-16 ≤ 1e-13 := by norm_num
    linarith
  have hl : ∃ x, keplerLoop e x0 24 (newton e x0 x5) x5 = some x := ⟨_, kloop_stop 23 hs⟩
  exact kstep (kstep (kstep (kstep (kstep (kstep hl)))))

/-- The eccentric anomalies agree: exactly unless the mean anomaly is within `1e-13` of zero, where the reference takes
the mean anomaly itself, and to `1.1e-13` always. -/
theorem C129_anomaly (e M : ℝ) (h0 : 0 ≤ e) (h1 : e ≤ 1 / 2) (hM : |M| ≤ 1e300) :
    ∃ E, keplerLoop e M 30 M 0 = some E ∧ |solve e M - E| ≤ 1.1e-13 ∧ (1e-13 < |M| ∨ M = 0 → solve e M = E) ∧
      (|M| ≤ 1e-13 → E = M) := by
  obtain ⟨E, hE⟩ := kloop_ends e M h0 h1
  refine ⟨E, hE, ?_⟩
  have hsmall : |M| ≤ 1e-13 → E = M := by
    intro h
    rw [show (30 : ℕ) = 29 + 1 from rfl, kloop_stop 29 (by simpa using h)] at hE
    exact (Option.some.inj hE).symm
  have hbig : 1e-13 < |M| → solve e M = E := by
    intro h
    rw [show (30 : ℕ) = 29 + 1 from rfl, kloop_succ, if_pos (by simpa using h)] at hE
    have := loops e M E 29 _ _ hE
    unfold solve
    rw [show (30 : ℕ) = 29 + 1 from rfl, Kepler.loop_succ, if_pos (Kepler.first_test hM), this]
  refine ⟨?_, ?_, hsmall⟩
  · by_cases h : 1e-13 < |M|
    · rw [hbig h, sub_self, abs_zero]; norm_num
    · push Not at h
      rw [hsmall h]
      obtain ⟨X, hX, _⟩ := Kepler.C89_unique e M h0 (by linarith)
      have ha := Kepler.C89_accuracy e M X h0 h1 hM hX
      have hk : X - e * Real.sin X = M := hX
      have hs : |Real.sin X| ≤ |X| := Real.abs_sin_le_abs
      have e1 : |e * Real.sin X| ≤ 1 / 2 * |X| := by
        rw [abs_mul, abs_of_nonneg h0]
        exact mul_le_mul h1 hs (abs_nonneg _) (by norm_num)
      have e2 : |X| ≤ |M| + |e * Real.sin X| := by
        have := abs_add_le M (e * Real.sin X)
        rwa [show M + e * Real.sin X = X by linarith] at this
      have e3 : |X - M| ≤ 1e-13 := by
        rw [show X - M = e * Real.sin X by linarith]
        linarith
      calc |solve e M - M| = |(solve e M - X) + (X - M)| := by ring_nf
        _ ≤ |solve e M - X| + |X - M| := abs_add_le _ _
        _ ≤ 2e-26 + 1e-13 := by linarith
        _ ≤ 1.1e-13 := by norm_num
  · rintro (h | rfl)
    · exact hbig h
    · rw [hsmall (by norm_num), Kepler.C89_perigee]

/-- Close to perigee the results are different: the reference does not make a step, the code does. -/
theorem C129_perigee_violated : keplerLoop (1 / 2) 1e-14 30 1e-14 0 = some 1e-14 ∧ solve (1 / 2) 1e-14 ≠ 1e-14 := by
  refine ⟨?_, ?_⟩
  · rw [show (30 : ℕ) = 29 + 1 from rfl, kloop_stop 29]
    rw [sub_zero, abs_of_pos (by norm_num)]; norm_num
  · intro h
    obtain ⟨X, hX, _⟩ := Kepler.C89_unique (1 / 2) 1e-14 (by norm_num) (by norm_num)
    have ha := Kepler.C89_accuracy (1 / 2) 1e-14 X (by norm_num) (by norm_num)
      (by rw [abs_of_pos (by norm_num)]; norm_num) hX
    rw [h] at ha
    have hk : X - 1 / 2 * Real.sin X = 1e-14 := hX
    obtain ⟨a1, a2⟩ := abs_le.mp ha
    have hx1 : 0.9e-14 ≤ X := by
      have : (0.9e-14 : ℝ) ≤ 1e-14 - 2e-26 := by norm_num
      linarith
    have hx2 : X ≤ 1 := by
      have : (1e-14 : ℝ) + 2e-26 ≤ 1 := by norm_num
      linarith
    have hx0 : 0 < X := by
      have : (0 : ℝ) < 0.9e-14 := by norm_num
      linarith
    have hs : X - X ^ 3 / 6 < Real.sin X := Real.sin_gt_sub_cube hx0
    have h3 : X / 2 ≤ X - X ^ 3 / 6 := by nlinarith [mul_pos hx0 hx0]
    have h4 : (2e-26 : ℝ) < 0.9e-14 / 4 := by norm_num
    linarith

/-! ### Positions and clocks of GPS satellites -/

theorem mu_gps : MU_GPS = gm := by norm_num [MU_GPS, gm]
theorem omge_gps : OMGE = omegaEarth := by norm_num [OMGE, omegaEarth]

/-- The constants of the reference for every satellite number. -/
theorem constants_of (sat : ℤ) : constants (satsys sat).1 = (gm, omegaEarth) ∧ (satsys sat).1 ≠ Sys.cmp := by
  have h := (C129_numbers sat).1
  simp only [List.mem_cons, List.mem_nil_iff, or_false] at h
  rcases h with h | h | h <;> rw [h] <;> exact ⟨Prod.ext mu_gps omge_gps, by decide⟩

/-- The reference at a given eccentric anomaly. -/
theorem at_anomaly (sat sva flag : ℤ) (toe toc t : Utc.Time) (k : Kepler) (hk : k.sqrta ≠ 0) (E : ℝ)
    (hl : keplerLoop k.ecc (k.mk' (timediff (toTime t) (toTime toe))) 30
      (k.mk' (timediff (toTime t) (toTime toe))) 0 = some E)
    (hc : k.toeToc = timediff (toTime toe) (toTime toc)) :
    eph2pos (toTime t) (toEph sat sva flag toe toc k)
      = .at (k.pos (timediff (toTime t) (toTime toe)) E)
          (k.clkBias (timediff (toTime t) (toTime toe)) E + k.af1 * k.toeToc) (varUraeph (satsys sat).1 sva) := by
  obtain ⟨hcon, hcmp⟩ := constants_of sat
  have hA : ¬ (toEph sat sva flag toe toc k).A ≤ 0 := by
    have : 0 < k.sqrta * k.sqrta := mul_self_pos.mpr hk
    exact not_le.mpr this
  unfold eph2pos eph2posOf
  rw [if_neg hA]
  simp only [toEph, hcon]
  have hm : k.m0 + (Real.sqrt (gm / (k.sqrta * k.sqrta * (k.sqrta * k.sqrta) * (k.sqrta * k.sqrta))) + k.deltaN)
      * timediff (toTime t) (toTime toe) = k.mk' (timediff (toTime t) (toTime toe)) := rfl
  rw [hm, hl]
  simp only
  have htc : timediff (toTime t) (toTime toc) = timediff (toTime t) (toTime toe) + k.toeToc := by
    rw [hc]; unfold timediff; push_cast; ring
  rw [if_neg (fun h => hcmp h.1)]
  have hC : CLIGHT = cLight := rfl
  congr 1
  · unfold Kepler.pos Kepler.xpk Kepler.ypk Kepler.rk Kepler.uk Kepler.ik Kepler.corrU Kepler.corrR Kepler.corrI
      Kepler.phik Kepler.tak Kepler.omegak Kepler.A
    simp only
    funext i
    fin_cases i
    · simp; ring
    · simp; ring
    · simp
  · unfold Kepler.clkBias Kepler.A
    rw [htc, hC]
    simp only
    ring

/-- Whenever the code has a state for a GPS satellite, the reference has the same position, and its clock differs by
the product of the drift and the time between the time of clock and the time of ephemeris. -/
theorem C129_gps_partial (sat sva flag : ℤ) (toe toc t : Utc.Time) (k : Kepler) (hk : k.sqrta ≠ 0) (h0 : 0 ≤ k.ecc)
    (h1 : k.ecc ≤ 1 / 2) (hc : k.toeToc = timediff (toTime toe) (toTime toc))
    (hM : 1e-13 < |k.mk' (timediff (toTime t) (toTime toe))| ∨ k.mk' (timediff (toTime t) (toTime toe)) = 0)
    (hM' : |k.mk' (timediff (toTime t) (toTime toe))| ≤ 1e300) (p v : V3) (b d : ℝ)
    (h : k.eph2Sat (timediff (toTime t) (toTime toe)) = some (p, v, b, d)) :
    eph2pos (toTime t) (toEph sat sva flag toe toc k) = .at p (b + k.af1 * k.toeToc) (varUraeph (satsys sat).1 sva) := by
  obtain ⟨E, hE, -, hex, -⟩ := C129_anomaly k.ecc _ h0 h1 hM'
  have hs := hex hM
  rw [at_anomaly sat sva flag toe toc t k hk E hE hc]
  unfold Kepler.eph2Sat at h
  simp only [hs] at h
  split_ifs at h
  obtain ⟨rfl, rfl, rfl, rfl⟩ : _ ∧ _ ∧ _ ∧ _ := by
    simpa only [Option.some.injEq, Prod.mk.injEq] using h
  rfl

/-- The claim for GPS: position and clock are those of the reference. -/
def C129_statement : Prop :=
  ∀ (sat sva flag : ℤ) (toe toc t : Utc.Time) (k : Kepler), k.sqrta ≠ 0 → 0 ≤ k.ecc → k.ecc ≤ 1 / 2 →
    k.toeToc = timediff (toTime toe) (toTime toc) →
    ∀ p v b d, k.eph2Sat (timediff (toTime t) (toTime toe)) = some (p, v, b, d) →
      ∃ var, eph2pos (toTime t) (toEph sat sva flag toe toc k) = .at p b var

/-- A circular orbit of a satellite whose clock drifts by `f1`, referred to a time `s` seconds before the ephemeris. -/
noncomputable def ringOf (r f1 s : ℝ) : Kepler :=
  { sqrta := r, ecc := 0, m0 := 1, deltaN := 0, w := 0, i0 := 0, idot := 0, omega0 := 0,
    omegadot := omegaEarth, cus := 0, cuc := 0, crs := 0, crc := 0, cis := 0, cic := 0, af0 := 0, af1 := f1,
    af2 := 0, toes := 0, toeToc := s }

theorem ringOf_tak (r f1 s M : ℝ) (h1 : 0 < M) (h2 : M < Real.pi) : (ringOf r f1 s).tak M = M := by
  have := Quat.atan2_polar (r := 1) (θ := M) one_pos (by linarith [Real.pi_pos]) h2.le
  simp only [one_mul] at this
  simp [Kepler.tak, ringOf, this]

theorem ringOf_sat (r f1 s dt : ℝ) (hdt : |dt| ≤ 7200) (h1 : 0 < (ringOf r f1 s).mk' dt)
    (h2 : (ringOf r f1 s).mk' dt < 3) :
    ∃ v d, (ringOf r f1 s).eph2Sat dt = some (![r * r * Real.cos ((ringOf r f1 s).mk' dt),
      r * r * Real.sin ((ringOf r f1 s).mk' dt), 0], v, f1 * dt, d) := by
  have hpi := Real.pi_gt_three
  have hM : |(ringOf r f1 s).mk' dt| ≤ 1e300 := by
    rw [abs_of_pos h1]; have : (3 : ℝ) ≤ 1e300 := by norm_num
    linarith
  have hsol : solve (ringOf r f1 s).ecc ((ringOf r f1 s).mk' dt) = (ringOf r f1 s).mk' dt := Kepler.C89_circular _ hM
  unfold Kepler.eph2Sat
  simp only [hsol]
  generalize (ringOf r f1 s).mk' dt = M at *
  have ht := ringOf_tak r f1 s M h1 (by linarith)
  rw [if_neg (not_lt.mpr hdt), if_neg (by rw [ht]; exact (Real.sin_pos_of_pos_of_lt_pi h1 (by linarith)).ne')]
  refine ⟨(ringOf r f1 s).vel dt M, (ringOf r f1 s).clkDrift dt, ?_⟩
  congr 2
  · unfold Kepler.pos Kepler.xpk Kepler.ypk Kepler.rk Kepler.uk Kepler.ik Kepler.corrU Kepler.corrR Kepler.corrI
      Kepler.phik Kepler.omegak Kepler.A
    rw [ht]
    simp [ringOf]
  · congr 1
    simp [Kepler.clkBias, ringOf]

/-- The clock is wrong by a second for a drift of `1e-3` and a time of clock a thousand seconds before the time of
ephemeris: line 96 multiplies the drift by the time since the ephemeris, the reference by the time since the clock. -/
theorem C129_clock_violated : ¬ C129_statement := by
  intro h
  have hm : (ringOf 5153 1e-3 1000).mk' 0 = 1 := by simp [Kepler.mk', ringOf]
  obtain ⟨v, d, hs⟩ := ringOf_sat 5153 1e-3 1000 0 (by norm_num) (by rw [hm]; norm_num) (by rw [hm]; norm_num)
  have ht : timediff (toTime ⟨1000, 0⟩) (toTime ⟨1000, 0⟩) = 0 := by simp [timediff]
  have htc : (ringOf 5153 1e-3 1000).toeToc = timediff (toTime ⟨1000, 0⟩) (toTime ⟨0, 0⟩) := by
    simp [timediff, toTime, ringOf]
  obtain ⟨var, hv⟩ := h 1 0 0 ⟨1000, 0⟩ ⟨0, 0⟩ ⟨1000, 0⟩ (ringOf 5153 1e-3 1000) (by norm_num [ringOf])
    (by norm_num [ringOf]) (by norm_num [ringOf]) htc _ _ _ _ (by rw [ht]; exact hs)
  have hp := C129_gps_partial 1 0 0 ⟨1000, 0⟩ ⟨0, 0⟩ ⟨1000, 0⟩ (ringOf 5153 1e-3 1000) (by norm_num [ringOf])
    (by norm_num [ringOf]) (by norm_num [ringOf]) htc (by rw [ht, hm]; left; norm_num) (by rw [ht, hm]; norm_num)
    _ _ _ _ (by rw [ht]; exact hs)
  rw [hp] at hv
  simp only [Outcome.at.injEq] at hv
  have := hv.2.1
  norm_num [ringOf] at this

theorem C129_statement_false : ¬ C129_statement := C129_clock_violated

/-- For Galileo the reference has another gravitational constant: with the number of the system it would give another
position, a second after the time of ephemeris of a circular orbit. (With the satellite numbers of the adapter it never
finds out: `C129_numbers`.) -/
theorem C129_galileo_violated :
    ∃ (k : Kepler) (toe t : Utc.Time) (p v : V3) (b d : ℝ) (q : Fin 3 → ℝ) (c : ℝ) (var : Option ℝ),
      k.eph2Sat (timediff (toTime t) (toTime toe)) = some (p, v, b, d) ∧
      eph2posOf .gal 1 (toTime t) (toEph 1 0 0 toe toe k) = .at q c var ∧ p ≠ q := by
  have ht : timediff (toTime ⟨1, 0⟩) (toTime ⟨0, 0⟩) = 1 := by simp [timediff, toTime]
  set k := ringOf 5440 0 0 with hk
  have hn1 : Real.sqrt (gm / (k.A * k.A * k.A)) < 1 := by
    rw [Real.sqrt_lt' one_pos]
    norm_num [hk, Kepler.A, ringOf, gm]
  have hn2 : Real.sqrt (MU_GAL / (k.A * k.A * k.A)) < Real.sqrt (gm / (k.A * k.A * k.A)) := by
    apply Real.sqrt_lt_sqrt
    · norm_num [hk, Kepler.A, ringOf, MU_GAL]
    · norm_num [hk, Kepler.A, ringOf, MU_GAL, gm]
  have hm : k.mk' 1 = 1 + Real.sqrt (gm / (k.A * k.A * k.A)) := by
    simp [Kepler.mk', Kepler.mkdot, hk, ringOf]
  have hn3 := Real.sqrt_nonneg (MU_GAL / (k.A * k.A * k.A))
  obtain ⟨v, d, hs⟩ := ringOf_sat 5440 0 0 1 (by norm_num) (by rw [← hk, hm]; linarith) (by rw [← hk, hm]; linarith)
  rw [← hk, hm] at hs
  set M2 := 1 + Real.sqrt (MU_GAL / (k.A * k.A * k.A)) with hM2
  have hpi := Real.pi_gt_three
  have hlt : M2 < 3 := by linarith
  have hpos : 0 < M2 := by linarith
  have hloop : keplerLoop 0 M2 30 M2 0 = some M2 := by
    have hn : newton 0 M2 M2 = M2 := by simp [newton]
    rw [show (30 : ℕ) = 29 + 1 from rfl, kloop_succ, hn, if_pos (by
      rw [sub_zero, abs_of_pos hpos]; have : (1e-13 : ℝ) < 1 := by norm_num
      linarith), show (29 : ℕ) = 28 + 1 from rfl, kloop_stop]
    norm_num
  have hat := Quat.atan2_polar (r := 1) (θ := M2) one_pos (by linarith) (by linarith)
  simp only [one_mul] at hat
  have hgal : ∃ q c var, eph2posOf .gal 1 (toTime ⟨1, 0⟩) (toEph 1 0 0 ⟨0, 0⟩ ⟨0, 0⟩ k) = .at q c var ∧
      q 0 = 5440 * 5440 * Real.cos M2 := by
    unfold eph2posOf
    rw [if_neg (by norm_num [toEph, hk, ringOf])]
    simp only [toEph, constants, ht]
    have hMM : k.m0 + (Real.sqrt (MU_GAL / (k.sqrta * k.sqrta * (k.sqrta * k.sqrta) * (k.sqrta * k.sqrta))) + k.deltaN)
        * 1 = M2 := by
      rw [hM2]; simp [hk, Kepler.A, ringOf]
    rw [hMM]
    have he : k.ecc = 0 := rfl
    rw [he, hloop]
    simp only
    refine ⟨_, _, _, rfl, ?_⟩
    rw [if_neg (by simp)]
    have ho : OMGE_GAL = omegaEarth := rfl
    simp only [Matrix.cons_val_zero, ho]
    simp [hk, ringOf, hat]
  obtain ⟨q, c, var, h1, h2⟩ := hgal
  refine ⟨k, ⟨0, 0⟩, ⟨1, 0⟩, _, v, _, d, q, c, var, by rw [ht]; exact hs, h1, ?_⟩
  intro heq
  have h3 := congrFun heq 0
  rw [h2] at h3
  simp only [Matrix.cons_val_zero] at h3
  have h4 : Real.cos (1 + Real.sqrt (gm / (k.A * k.A * k.A))) = Real.cos M2 := by
    have : (5440 * 5440 : ℝ) ≠ 0 := by norm_num
    exact mul_left_cancel₀ this h3
  have h5 := Real.injOn_cos (by constructor <;> linarith) (by constructor <;> linarith) h4
  linarith

/-- The variance is always read inside its table. -/
theorem C129_variance (sys : Sys) (ura : ℤ) : ∃ v, varUraeph sys ura = some v ∧ 0 ≤ v := by
  unfold varUraeph
  split_ifs with h1 h2
  · exact ⟨_, rfl, mul_self_nonneg _⟩
  · exact ⟨_, rfl, by norm_num⟩
  · push Not at h2
    have : ura.toNat < uraValue.length := by simp [uraValue]; omega
    rw [List.getElem?_eq_getElem this]
    exact ⟨_, rfl, mul_self_nonneg _⟩

/-! ### GLONASS -/

/-- Position and velocity in one array. -/
def pack (x : V3 × V3) : Fin 6 → ℝ := ![x.1 0, x.1 1, x.1 2, x.2 0, x.2 1, x.2 2]

/-- The acceleration in an array. -/
def arr (a : V3) : Fin 3 → ℝ := ![a 0, a 1, a 2]

theorem dot_pos {p : V3} (h : p ≠ 0) : 0 < dot p p := by
  unfold dot
  by_contra hc
  push Not at hc
  have h0 : p 0 = 0 := by nlinarith [mul_self_nonneg (p 0), mul_self_nonneg (p 1), mul_self_nonneg (p 2)]
  have h1 : p 1 = 0 := by nlinarith [mul_self_nonneg (p 0), mul_self_nonneg (p 1), mul_self_nonneg (p 2)]
  have h2 : p 2 = 0 := by nlinarith [mul_self_nonneg (p 0), mul_self_nonneg (p 1), mul_self_nonneg (p 2)]
  exact h (by funext i; fin_cases i <;> assumption)

/-- Outside the centre of the earth the equations of motion are the same. -/
theorem C129_equations (x : V3 × V3) (acc : V3) (h : x.1 ≠ 0) : deq (pack x) (arr acc) = pack (glonassOrbit acc x) := by
  have hd : dotn (seq (pack x)) (seq (pack x)) 3 0 = dot x.1 x.1 := by
    simp [dotn, seq, pack, dot]; ring
  have hp := dot_pos h
  unfold deq
  rw [hd]
  simp only
  rw [if_neg (not_le.mpr hp)]
  have c1 : OMGE_GLO = omgGlo := rfl
  have c2 : MU_GLO = muGlo := rfl
  have c3 : J2_GLO = j2Glo := rfl
  have c4 : RE_GLO = reGlo := rfl
  rw [c1, c2, c3, c4]
  unfold glonassOrbit
  simp only
  rw [div_div]
  funext i
  fin_cases i <;> simp [pack, arr]

/-- The four states at which a step evaluates the equations. -/
noncomputable def stages (acc : V3) (t : ℝ) (x : V3 × V3) : List (V3 × V3) :=
  let f := glonassOrbit acc
  let w1 := x + (t / 2) • f x
  let w2 := x + (t / 2) • f w1
  [x, w1, w2, x + t • f w2]

theorem pack_add (x y : V3 × V3) (a : ℝ) : pack (x + a • y) = fun i => pack x i + a * pack y i := by
  funext i
  fin_cases i <;> simp [pack]

/-- A step of the integration. -/
theorem C129_step (t : ℝ) (x : V3 × V3) (acc : V3) (h : ∀ s ∈ stages acc t x, s.1 ≠ 0) :
    glorbit t (pack x) (arr acc) = pack (rk4 (glonassOrbit acc) t x) := by
  have h1 := C129_equations _ acc (h x (by simp [stages]))
  have h2 := C129_equations _ acc (h (x + (t / 2) • glonassOrbit acc x) (by simp [stages]))
  have h3 := C129_equations _ acc (h (x + (t / 2) • glonassOrbit acc (x + (t / 2) • glonassOrbit acc x))
    (by simp [stages]))
  have h4 := C129_equations _ acc (h (x + t • glonassOrbit acc (x + (t / 2) • glonassOrbit acc
    (x + (t / 2) • glonassOrbit acc x))) (by simp [stages]))
  unfold glorbit rk4
  simp only
  have e1 : (fun i => pack x i + deq (pack x) (arr acc) i * t / 2) = pack (x + (t / 2) • glonassOrbit acc x) := by
    rw [h1, pack_add]; funext i; ring
  rw [e1]
  generalize x + (t / 2) • glonassOrbit acc x = w1 at *
  have e2 : (fun i => pack x i + deq (pack w1) (arr acc) i * t / 2) = pack (x + (t / 2) • glonassOrbit acc w1) := by
    rw [h2, pack_add]; funext i; ring
  rw [e2]
  generalize x + (t / 2) • glonassOrbit acc w1 = w2 at *
  have e3 : (fun i => pack x i + deq (pack w2) (arr acc) i * t) = pack (x + t • glonassOrbit acc w2) := by
    rw [h3, pack_add]; funext i; ring
  rw [e3]
  generalize x + t • glonassOrbit acc w2 = w3 at *
  rw [h1, h2, h3, h4, pack_add]
  generalize glonassOrbit acc x = k1
  generalize glonassOrbit acc w1 = k2
  generalize glonassOrbit acc w2 = k3
  generalize glonassOrbit acc w3 = k4
  funext i
  fin_cases i <;> simp [pack] <;> ring

/-- All the states at which a propagation evaluates the equations. -/
noncomputable def visited (acc : V3) : ℕ → ℝ → ℝ → V3 × V3 → List (V3 × V3)
  | 0, _, _, _ => []
  | n + 1, step, dt, x =>
    if |dt| > 1e-9 then
      let step := if |dt| < 60 then dt else step
      stages acc step x ++ visited acc n step (dt - step) (rk4 (glonassOrbit acc) step x)
    else []

theorem glo_loop (acc : V3) : ∀ n step dt x, (∀ s ∈ visited acc n step dt x, s.1 ≠ 0) →
    gephLoop (arr acc) n step dt (pack x) = (gloLoop acc n step dt x).map pack := by
  intro n
  induction n with
  | zero => intro _ _ _ _; rfl
  | succ n ih =>
    intro step dt x h
    unfold gephLoop gloLoop
    unfold visited at h
    by_cases hc : |dt| > 1e-9
    · rw [if_pos hc, if_pos hc]
      rw [if_pos hc] at h
      simp only at h ⊢
      rw [C129_step _ x acc (fun s hs => h s (List.mem_append_left _ hs))]
      exact ih _ _ _ (fun s hs => h s (List.mem_append_right _ hs))
    · rw [if_neg hc, if_neg hc]; rfl

/-- A GLONASS satellite: propagated from its ephemeris, for any number of steps and whatever the state contained
otherwise, position and clock are those of the reference, unless a step evaluates the equations at the centre of the
earth. -/
theorem C129_glonass_partial (n : ℕ) (e : Glo) (toe t : Utc.Time) (s : Sat) (hs : s.t = none)
    (hv : ∀ x ∈ visited e.acc n (if timediff (toTime t) (toTime toe) < 0 then -60 else 60)
      (timediff (toTime t) (toTime toe)) (e.pos, e.vel), x.1 ≠ 0) :
    geph2pos n (toTime t) (toGeph toe e)
      = (gloSat n e (timediff (toTime t) (toTime toe)) s).map fun r => (r.pos, r.clk 0, 25) := by
  have hte : (toGeph toe e).toe = toTime toe := rfl
  unfold geph2pos gloSat
  rw [hte]
  generalize timediff (toTime t) (toTime toe) = dt at *
  simp only [toGeph, hs]
  have h := glo_loop e.acc n _ _ (e.pos, e.vel) hv
  have hp : (![(![e.pos 0, e.pos 1, e.pos 2] : Fin 3 → ℝ) 0, (![e.pos 0, e.pos 1, e.pos 2] : Fin 3 → ℝ) 1,
      (![e.pos 0, e.pos 1, e.pos 2] : Fin 3 → ℝ) 2, (![e.vel 0, e.vel 1, e.vel 2] : Fin 3 → ℝ) 0,
      (![e.vel 0, e.vel 1, e.vel 2] : Fin 3 → ℝ) 1, (![e.vel 0, e.vel 1, e.vel 2] : Fin 3 → ℝ) 2] : Fin 6 → ℝ)
      = pack (e.pos, e.vel) := rfl
  rw [hp]
  have ha : (![e.acc 0, e.acc 1, e.acc 2] : Fin 3 → ℝ) = arr e.acc := rfl
  rw [ha, h, Option.map_map, Option.map_map]
  congr 1
  funext x
  simp only [Function.comp]
  refine Prod.ext ?_ (Prod.ext rfl (by norm_num))
  funext i
  fin_cases i <;> rfl

/-- At the time of ephemeris no step is made and the hypothesis holds. -/
example (acc p v : V3) (n : ℕ) : visited acc (n + 1) 60 0 (p, v) = [] := by
  unfold visited; rw [if_neg (by norm_num)]

/-- A state that was filled in for the requested time keeps its position, whatever the ephemeris: here the reference is
at the position of the ephemeris and the code is not. -/
theorem C129_seeded_violated (n : ℕ) (e : Glo) (t : Utc.Time) (p v : V3) (c : V2) (hne : p ≠ e.pos) :
    (geph2pos (n + 1) (toTime t) (toGeph t e)).map Prod.fst = some e.pos ∧
    (gloSat (n + 1) e (timediff (toTime t) (toTime t)) ⟨some 0, p, v, c⟩).map Sat.pos ≠ some e.pos := by
  have ht : timediff (toTime t) (toTime t) = 0 := by unfold timediff; simp
  have hl : ∀ m acc x, gloLoop acc (m + 1) 60 0 x = some x := by
    intro m acc x
    unfold gloLoop
    rw [if_neg (by norm_num)]
  constructor
  · rw [C129_glonass_partial (n + 1) e t t ⟨none, 0, 0, 0⟩ rfl (by
      rw [ht, if_neg (lt_irrefl 0)]
      unfold visited
      rw [if_neg (by norm_num)]
      simp)]
    unfold gloSat
    simp only [ht, if_neg (lt_irrefl (0 : ℝ)), hl]
    rfl
  · unfold gloSat
    simp only [ht, sub_self, if_neg (lt_irrefl (0 : ℝ)), hl]
    simpa using hne

/-! ### The atmosphere -/

open Verif.Model.Wgs84 in
/-- The delay of the troposphere is that of the reference with a humidity of 0.7, for every position, height and
elevation. -/
theorem C129_troposphere (lat lon height el : ℝ) : tropmodel ![lat, lon, height] el 0.7 = tropo lat height el := by
  unfold tropmodel tropo
  have h0 : (![lat, lon, height] : Fin 3 → ℝ) 0 = lat := rfl
  have h2 : (![lat, lon, height] : Fin 3 → ℝ) 2 = height := rfl
  rw [h0, h2]
  by_cases h : height < -100 ∨ 1E4 < height ∨ el ≤ 0
  · simp only [if_pos h]
  · simp only [if_neg h]
    have hm : (if height < 0 then 0 else height) = max height 0 := by
      by_cases h0 : height < 0
      · rw [if_pos h0, max_eq_right h0.le]
      · rw [if_neg h0, max_eq_left (not_lt.mp h0)]
    rw [hm]

/-- The time of the week of the reference is that of the code after the correction by 18 s, up to whole weeks. -/
theorem C129_week (t : Utc.Time) (ns : ℤ) (h : Utc.gpsTowNs t = some ns) :
    ∃ j : ℤ, time2gpst (toTime t) = ((ns : ℝ) * 1e-9 + 18) + 604800 * (j : ℝ) := by
  have hg : gpst0.time = 315964800 := by
    unfold gpst0 epoch2time
    rw [if_neg (by norm_num)]
    simp [doy]
  unfold Utc.gpsTowNs at h
  simp only [Option.bind_eq_bind, Option.bind_eq_some_iff] at h
  obtain ⟨w, -, z, hz, d, hd, hr⟩ := h
  have hzv : z = ⟨w * 604800 + 315964818, 0⟩ := by
    unfold Utc.fromGPS at hz
    simp only [Option.bind_eq_bind, Option.bind_eq_some_iff] at hz
    obtain ⟨a, ha, b, hb, c, hc, hw⟩ := hz
    have e1 : a = w * 604800 := by unfold Utc.i32 at ha; split_ifs at ha; exact (Option.some.inj ha).symm
    have e2 : b = a + (0 : ℤ).tdiv 1000 := by unfold Utc.i32 at hb; split_ifs at hb; exact (Option.some.inj hb).symm
    have e3 : c = b + Utc.GPS_UTC_OFFSET := by unfold Utc.i64 at hc; split_ifs at hc; exact (Option.some.inj hc).symm
    unfold Utc.wrapNsec at hw
    rw [if_neg (by norm_num), if_neg (by norm_num [Utc.E9])] at hw
    have e4 := (Option.some.inj hw).symm
    rw [e4, e3, e2, e1]
    norm_num [Utc.GPS_UTC_OFFSET, add_assoc]
  have hdi : TimeSpec.instant d = (t.sec - z.sec) * 10 ^ 9 + (t.nsec - z.nsec) := by
    unfold Utc.sub at hd
    simp only [Option.bind_eq_bind, Option.bind_eq_some_iff] at hd
    obtain ⟨a, ha, b, hb, hw⟩ := hd
    have hx : ∀ x y : ℤ, Utc.i64 x = some y → y = x := by
      intro x y hxy
      unfold Utc.i64 at hxy
      split_ifs at hxy
      simpa using hxy.symm
    rw [Utc.wrap_instant hw, hx _ _ ha, hx _ _ hb]
    rfl
  have hns : ns = (t.sec - (w * 604800 + 315964818)) * 10 ^ 9 + t.nsec := by
    have : ns = TimeSpec.instant d := by
      have h1 := Option.some.inj hr
      rw [← h1]
      unfold Utc.toSecNs TimeSpec.instant
      norm_num
    rw [this, hdi, hzv]
    ring
  refine ⟨w - (t.sec - 315964800).tdiv 604800, ?_⟩
  unfold time2gpst toTime
  simp only [hg]
  rw [hns, show ((86400 * 7 : ℤ)) = 604800 by norm_num]
  push_cast
  ring

/-- The remainder of a division by a day does not see whole weeks. -/
theorem day_of (a : ℝ) (j : ℤ) : (a + 604800 * j) - ⌊(a + 604800 * j) / 86400⌋ * 86400 = a - ⌊a / 86400⌋ * 86400 := by
  rw [show (a + 604800 * j) / 86400 = a / 86400 + ((7 * j : ℤ) : ℝ) by push_cast; ring, Int.floor_add_intCast]
  push_cast
  ring

/-- The phase of the delay within the day. -/
noncomputable def phase (tow lat lon az el : ℝ) : ℝ :=
  open Model.Wgs84 in
  2 * Real.pi * (localTime tow (pierceLon lat lon az el) - 50400) / period (pierceMag lat lon az el)

/-- What the reference computes, in the terms of the code. -/
theorem ion_ref (t : Utc.Time) (ns : ℤ) (ht : Utc.gpsTowNs t = some ns) (lat lon height az el : ℝ)
    (hh : -1000 ≤ height) (he : 0 < el) :
    let x := phase (ns * 1e-9) lat lon az el
    ionmodel (toTime t) ionDefault ![lat, lon, height] az el =
      CLIGHT * Model.Wgs84.slant el * (if |x| < 1.57 then
        5E-9 + Model.Wgs84.amp (Model.Wgs84.pierceMag lat lon az el) * (1 + x * x * (-0.5 + x * x / 24)) else 5E-9) := by
  intro x
  obtain ⟨j, hj⟩ := C129_week t ns ht
  have hn : ¬ norm8 ionDefault ≤ 0 := by
    rw [not_le]
    unfold norm8
    apply Real.sqrt_pos.mpr
    have h7 : ionDefault 7 = 0.1049E+07 := rfl
    rw [h7]
    nlinarith [mul_self_nonneg (ionDefault 0), mul_self_nonneg (ionDefault 1), mul_self_nonneg (ionDefault 2),
      mul_self_nonneg (ionDefault 3), mul_self_nonneg (ionDefault 4), mul_self_nonneg (ionDefault 5),
      mul_self_nonneg (ionDefault 6)]
  unfold ionmodel
  have h0 : (![lat, lon, height] : Fin 3 → ℝ) 0 = lat := rfl
  have h1 : (![lat, lon, height] : Fin 3 → ℝ) 1 = lon := rfl
  have h2 : (![lat, lon, height] : Fin 3 → ℝ) 2 = height := rfl
  rw [h0, h1, h2, if_neg (by push Not; exact ⟨by linarith, he⟩)]
  simp only [if_neg hn]
  have hphi : (if lat / Real.pi + (0.0137 / (el / Real.pi + 0.11) - 0.022) * Real.cos az > 0.416 then 0.416
      else if lat / Real.pi + (0.0137 / (el / Real.pi + 0.11) - 0.022) * Real.cos az < -0.416 then -0.416
      else lat / Real.pi + (0.0137 / (el / Real.pi + 0.11) - 0.022) * Real.cos az) = Model.Wgs84.pierceLat lat az el := rfl
  rw [hphi]
  have hlam : lon / Real.pi + (0.0137 / (el / Real.pi + 0.11) - 0.022) * Real.sin az /
      Real.cos (Model.Wgs84.pierceLat lat az el * Real.pi) = Model.Wgs84.pierceLon lat lon az el := rfl
  rw [hlam]
  have hmag : Model.Wgs84.pierceLat lat az el + 0.064 * Real.cos ((Model.Wgs84.pierceLon lat lon az el - 1.617) * Real.pi)
      = Model.Wgs84.pierceMag lat lon az el := rfl
  rw [hmag]
  generalize hm : Model.Wgs84.pierceMag lat lon az el = m
  generalize hl : Model.Wgs84.pierceLon lat lon az el = l
  have hloc : 43200 * l + time2gpst (toTime t) - ⌊(43200 * l + time2gpst (toTime t)) / 86400⌋ * 86400
      = Model.Wgs84.localTime (ns * 1e-9) l := by
    rw [hj, show 43200 * l + ((ns : ℝ) * 1e-9 + 18 + 604800 * (j : ℝ)) = (43200 * l + ns * 1e-9 + 18) + 604800 * j by ring,
      day_of]
    rfl
  rw [hloc]
  have hif : ∀ a b : ℝ, (if a < b then b else a) = max a b := by
    intro a b
    by_cases hab : a < b
    · rw [if_pos hab, max_eq_right hab.le]
    · rw [if_neg hab, max_eq_left (not_lt.mp hab)]
  rw [hif, hif]
  have hamp : max (ionDefault 0 + m * (ionDefault 1 + m * (ionDefault 2 + m * ionDefault 3))) 0 = Model.Wgs84.amp m := rfl
  have hper : max (ionDefault 4 + m * (ionDefault 5 + m * (ionDefault 6 + m * ionDefault 7))) 72000 = Model.Wgs84.period m := rfl
  rw [hamp, hper]
  have hx : x = 2 * Real.pi * (Model.Wgs84.localTime (ns * 1e-9) l - 50400) / Model.Wgs84.period m := by
    rw [← hm, ← hl]; rfl
  rw [hx]
  rfl

/-- The delay of the ionosphere for a satellite above the horizon is that of the reference with its default parameters,
for every time of which the code can compute the time of the week; where the phase is exactly 1.57, the reference is on
the night side and the code on the day side. -/
theorem C129_ionosphere_partial (t : Utc.Time) (ns : ℤ) (ht : Utc.gpsTowNs t = some ns) (lat lon height az el : ℝ)
    (hh : -1000 ≤ height) (he : 0 < el) :
    ionmodel (toTime t) ionDefault ![lat, lon, height] az el =
      Model.Wgs84.iono (ns * 1e-9) lat lon az el -
        (if |phase (ns * 1e-9) lat lon az el| = 1.57 then
          CLIGHT * Model.Wgs84.slant el * Model.Wgs84.amp (Model.Wgs84.pierceMag lat lon az el) * (1 - 1.57 ^ 2 / 2 + 1.57 ^ 4 / 24) else 0) := by
  rw [ion_ref t ns ht lat lon height az el hh he]
  have hi : Model.Wgs84.iono (ns * 1e-9) lat lon az el =
      if |phase (ns * 1e-9) lat lon az el| ≤ 1.57 then
        Model.Wgs84.cLight * Model.Wgs84.slant el * (5e-9 + Model.Wgs84.amp (Model.Wgs84.pierceMag lat lon az el) *
          (1 - phase (ns * 1e-9) lat lon az el * phase (ns * 1e-9) lat lon az el / 2 +
            (phase (ns * 1e-9) lat lon az el * phase (ns * 1e-9) lat lon az el) *
            (phase (ns * 1e-9) lat lon az el * phase (ns * 1e-9) lat lon az el) / 24))
      else Model.Wgs84.cLight * Model.Wgs84.slant el * 5e-9 := rfl
  rw [hi]
  have hc : Model.Wgs84.cLight = CLIGHT := by norm_num [Model.Wgs84.cLight, CLIGHT]
  rw [hc]
  generalize phase (ns * 1e-9) lat lon az el = x
  rcases lt_trichotomy |x| 1.57 with h | h | h
  · rw [if_pos h, if_pos h.le, if_neg h.ne]; ring
  · rw [if_neg (by rw [h]; exact lt_irrefl _), if_pos h.le, if_pos h]
    have h2 : x * x = 1.57 ^ 2 := by rw [← h, sq_abs]; ring
    rw [h2]; ring
  · rw [if_neg (not_lt.mpr h.le), if_neg (not_le.mpr h), if_neg h.ne']; ring

/-- Parameters that are all zero stand for the default ones. -/
theorem C129_default (t : GTime) (pos : Fin 3 → ℝ) (az el : ℝ) :
    ionmodel t (fun _ => 0) pos az el = ionmodel t ionDefault pos az el := by
  have hn : ¬ norm8 ionDefault ≤ 0 := by
    rw [not_le]
    unfold norm8
    apply Real.sqrt_pos.mpr
    have h7 : ionDefault 7 = 0.1049E+07 := rfl
    rw [h7]
    nlinarith [mul_self_nonneg (ionDefault 0), mul_self_nonneg (ionDefault 1), mul_self_nonneg (ionDefault 2),
      mul_self_nonneg (ionDefault 3), mul_self_nonneg (ionDefault 4), mul_self_nonneg (ionDefault 5),
      mul_self_nonneg (ionDefault 6)]
  have hz : norm8 (fun _ => 0) ≤ 0 := by unfold norm8; simp
  unfold ionmodel
  simp only [if_pos hz, if_neg hn]

/-- Below the horizon the reference has no delay; the code has one of more than 27 m at the nadir. -/
theorem C129_ionosphere_violated (t : Utc.Time) (tow lat lon height az : ℝ) :
    ionmodel (toTime t) ionDefault ![lat, lon, height] az (-(Real.pi / 2)) = 0 ∧
    27 < Model.Wgs84.iono tow lat lon az (-(Real.pi / 2)) := by
  refine ⟨?_, Atm.C106_below_violated tow lat lon az⟩
  unfold ionmodel
  rw [if_pos (Or.inr (by have := Real.pi_pos; linarith))]

/-- A time whose time of the week the code computes. -/
example : Utc.gpsTowNs ⟨1561988124, 550000000⟩ = some 135306550000000 := by decide

end Verif.Props.Rtklib
