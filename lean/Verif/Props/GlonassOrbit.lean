import Verif.Props.OrbitVel
import Verif.Props.Rk4
import Mathlib.Analysis.Calculus.Deriv.Inv
import Mathlib.Analysis.SpecialFunctions.Sqrt
import Mathlib.Analysis.SpecialFunctions.Pow.Deriv

/-!
C93, C94: the GLONASS orbit (`common/satellite/satellite_state.cxx` 108-186).
-/

namespace Verif.Props.GlonassOrbit

open Verif.Model.Lie Verif.Model.Ekf Verif.Model.Orbit Verif.Props.OrbitVel

/-! ### The equation of motion -/

/-- The potential of an oblate earth, to the second zonal harmonic. -/
noncomputable def potential (p : V3) : ℝ :=
  let r := Real.sqrt (dot p p)
  j2Glo * muGlo * reGlo ^ 2 / (2 * r ^ 3) * (3 * p 2 ^ 2 / r ^ 2 - 1) - muGlo / r

/-- The Jacobi integral: the energy in a frame that turns with the earth. -/
noncomputable def jacobi (p v : V3) : ℝ :=
  dot v v / 2 + potential p - omgGlo ^ 2 * (p 0 ^ 2 + p 1 ^ 2) / 2

/-- A solution of the equation of motion. -/
structure Motion (acc : V3) (P V : ℝ → V3) (t : ℝ) : Prop where
  pos : VDeriv P (glonassOrbit acc (P t, V t)).1 t
  vel : VDeriv V (glonassOrbit acc (P t, V t)).2 t

/-- The rate of the Jacobi integral is the power of the extra acceleration of the sun and the moon: the right hand
side of the code is gravity of an oblate earth in a turning frame, with its Coriolis and centrifugal parts. -/
theorem C93_jacobi (acc : V3) (P V : ℝ → V3) (t : ℝ) (h : Motion acc P V t) (hp : 0 < dot (P t) (P t)) :
    HasDerivAt (fun s => jacobi (P s) (V s)) (dot (V t) acc) t := by
  have p0 := h.pos 0
  have p1 := h.pos 1
  have p2 := h.pos 2
  have v0 := h.vel 0
  have v1 := h.vel 1
  have v2 := h.vel 2
  have hdot : HasDerivAt (fun s => dot (P s) (P s)) (2 * dot (P t) (V t)) t := by
    refine (((p0.mul p0).add (p1.mul p1)).add (p2.mul p2)).congr_deriv ?_
    simp only [dot, glonassOrbit]; ring
  have hr := hdot.sqrt hp.ne'
  have hR : 0 < Real.sqrt (dot (P t) (P t)) := Real.sqrt_pos.mpr hp
  have hsq : Real.sqrt (dot (P t) (P t)) * Real.sqrt (dot (P t) (P t)) = dot (P t) (P t) := Real.mul_self_sqrt hp.le
  set r := Real.sqrt (dot (P t) (P t)) with hrd
  have hvv : HasDerivAt (fun s => dot (V s) (V s) / 2) (dot (V t) (glonassOrbit acc (P t, V t)).2) t := by
    refine ((((v0.mul v0).add (v1.mul v1)).add (v2.mul v2)).div_const 2).congr_deriv ?_
    simp only [dot]; ring
  have hcent : HasDerivAt (fun s => omgGlo ^ 2 * (P s 0 ^ 2 + P s 1 ^ 2) / 2)
      (omgGlo ^ 2 * (P t 0 * V t 0 + P t 1 * V t 1)) t := by
    refine ((((p0.pow 2).add (p1.pow 2)).const_mul (omgGlo ^ 2)).div_const 2).congr_deriv ?_
    simp only [glonassOrbit]; push_cast; ring
  have hpot := (((hasDerivAt_const t (j2Glo * muGlo * reGlo ^ 2)).div ((hr.pow 3).const_mul 2)
      (mul_ne_zero two_ne_zero (pow_ne_zero 3 hR.ne'))).mul
      ((((p2.pow 2).const_mul 3).div (hr.pow 2) (pow_ne_zero 2 hR.ne')).sub_const 1)).sub
      ((hasDerivAt_const t muGlo).div hr hR.ne')
  have hall := (hvv.add hpot).sub hcent
  refine hall.congr_deriv ?_
  simp only [Pi.pow_apply, Pi.div_apply, glonassOrbit, ← hrd, ← hsq, Matrix.cons_val_zero, Matrix.cons_val_one, Matrix.cons_val]
  have hd0 : Real.sqrt (r * r) = r := Real.sqrt_mul_self hR.le
  rw [hd0]
  have hdd : dot (P t) (P t) = P t 0 * P t 0 + P t 1 * P t 1 + P t 2 * P t 2 := rfl
  rw [hdd] at hsq
  simp only [dot, Matrix.cons_val_zero, Matrix.cons_val_one, Matrix.cons_val]
  have hrn := hR.ne'
  generalize P t 0 = x at *
  generalize P t 1 = y at *
  generalize P t 2 = z at *
  generalize V t 0 = a at *
  generalize V t 1 = b at *
  generalize V t 2 = c at *
  generalize muGlo = μ
  generalize j2Glo = J
  generalize reGlo = R
  generalize omgGlo = w
  generalize r = q at *
  push_cast
  field_simp
  ring

/-- Without the sun and the moon the Jacobi integral is conserved. -/
theorem C93_conserved (P V : ℝ → V3) (h : ∀ t, Motion 0 P V t) (hp : ∀ t, 0 < dot (P t) (P t)) (s t : ℝ) :
    jacobi (P s) (V s) = jacobi (P t) (V t) := by
  have hd : ∀ t, HasDerivAt (fun s => jacobi (P s) (V s)) 0 t := by
    intro t
    have := C93_jacobi 0 P V t (h t) (hp t)
    have hz : dot (V t) 0 = 0 := by simp [dot]
    rwa [hz] at this
  exact is_const_of_deriv_eq_zero (fun t => (hd t).differentiableAt) (fun t => (hd t).deriv) s t

/-- A turn about the axis of the earth. -/
noncomputable def turn (θ : ℝ) : V3 →ₗ[ℝ] V3 where
  toFun v := ![Real.cos θ * v 0 - Real.sin θ * v 1, Real.sin θ * v 0 + Real.cos θ * v 1, v 2]
  map_add' a b := by
    funext i; fin_cases i <;> simp <;> ring
  map_smul' c a := by
    funext i; fin_cases i <;> simp <;> ring

/-- The reflection at the plane of the equator. -/
noncomputable def mirror : V3 →ₗ[ℝ] V3 where
  toFun v := ![v 0, v 1, -v 2]
  map_add' a b := by
    funext i; fin_cases i <;> simp <;> ring
  map_smul' c a := by
    funext i; fin_cases i <;> simp

theorem turn_dot (θ : ℝ) (p : V3) : dot (turn θ p) (turn θ p) = dot p p := by
  simp only [dot, turn, LinearMap.coe_mk, AddHom.coe_mk, Matrix.cons_val_zero, Matrix.cons_val_one, Matrix.cons_val]
  linear_combination (p 0 ^ 2 + p 1 ^ 2) * Real.sin_sq_add_cos_sq θ

theorem mirror_dot (p : V3) : dot (mirror p) (mirror p) = dot p p := by
  simp [dot, mirror]

/-- The equation of motion knows no direction in the plane of the equator. -/
theorem C93_turn (θ : ℝ) (acc p v : V3) :
    glonassOrbit (turn θ acc) (turn θ p, turn θ v)
      = (turn θ (glonassOrbit acc (p, v)).1, turn θ (glonassOrbit acc (p, v)).2) := by
  simp only [glonassOrbit, turn_dot]
  refine Prod.ext rfl ?_
  funext i
  fin_cases i <;>
    simp [turn] <;> ring

/-- North and south are alike. -/
theorem C93_mirror (acc p v : V3) :
    glonassOrbit (mirror acc) (mirror p, mirror v)
      = (mirror (glonassOrbit acc (p, v)).1, mirror (glonassOrbit acc (p, v)).2) := by
  simp only [glonassOrbit, mirror_dot]
  refine Prod.ext rfl ?_
  funext i
  fin_cases i <;>
    simp [mirror]
  ring

/-- So the integration step, too, commutes with turns. -/
theorem C93_step_turn (θ dt : ℝ) (acc p v : V3) :
    rk4 (glonassOrbit (turn θ acc)) dt (turn θ p, turn θ v)
      = ((turn θ) (rk4 (glonassOrbit acc) dt (p, v)).1, (turn θ) (rk4 (glonassOrbit acc) dt (p, v)).2) := by
  have := Rk4.C58_equivariant ((turn θ).prodMap (turn θ)) (glonassOrbit acc) (glonassOrbit (turn θ acc))
    (fun x => (C93_turn θ acc x.1 x.2).symm) dt (p, v)
  exact this.symm

/-! ### The integration loop -/

theorem loop_succ (acc : V3) (n : ℕ) (step dt : ℝ) (x : V3 × V3) : gloLoop acc (n + 1) step dt x =
    if |dt| > 1e-9 then
      gloLoop acc n (if |dt| < 60 then dt else step) (dt - if |dt| < 60 then dt else step)
        (rk4 (glonassOrbit acc) (if |dt| < 60 then dt else step) x)
    else some x := rfl

/-- The steps of one call: of at most a minute, all in the direction of `dt`, and together `dt` up to a nanosecond. -/
structure Steps (dt : ℝ) (l : List ℝ) : Prop where
  small : ∀ h ∈ l, |h| ≤ 60
  same : ∀ h ∈ l, 0 < h * dt
  total : |l.sum - dt| ≤ 1e-9

/-- The loop ends, after at most one iteration for each minute and one more. -/
theorem loop_steps (acc : V3) (N : ℕ) : ∀ (n : ℕ) (step dt : ℝ) (x : V3 × V3), N + 1 ≤ n → |dt| ≤ 60 * N →
    ((step = 60 ∧ 0 ≤ dt) ∨ (step = -60 ∧ dt ≤ 0)) →
    ∃ l, Steps dt l ∧ gloLoop acc n step dt x = some (l.foldl (fun x h => rk4 (glonassOrbit acc) h x) x) := by
  induction N with
  | zero =>
    intro n step dt x hn hd _
    obtain ⟨m, rfl⟩ : ∃ m, n = m + 1 := ⟨n - 1, by omega⟩
    have h0 : |dt| = 0 := le_antisymm (by simpa using hd) (abs_nonneg _)
    refine ⟨[], ⟨by simp, by simp, ?_⟩, ?_⟩
    · simp only [List.sum_nil, zero_sub, abs_neg, h0]; norm_num
    · rw [loop_succ, if_neg (by rw [h0]; norm_num)]; rfl
  | succ N ih =>
    intro n step dt x hn hd hs
    obtain ⟨m, rfl⟩ : ∃ m, n = m + 1 := ⟨n - 1, by omega⟩
    rw [loop_succ]
    by_cases h1 : |dt| > 1e-9
    · rw [if_pos h1]
      have hne : dt ≠ 0 := by
        rintro rfl; norm_num at h1
      by_cases h2 : |dt| < 60
      · simp only [if_pos h2, sub_self]
        obtain ⟨k, rfl⟩ : ∃ k, m = k + 1 := ⟨m - 1, by omega⟩
        refine ⟨[dt], ⟨?_, ?_, ?_⟩, ?_⟩
        · intro h hh; rw [List.mem_singleton.mp hh]; exact h2.le
        · intro h hh; rw [List.mem_singleton.mp hh]; exact mul_self_pos.mpr hne
        · simp only [List.sum_singleton, sub_self, abs_zero]; norm_num
        · rw [loop_succ, if_neg (by norm_num)]; rfl
      · simp only [if_neg h2]
        push Not at h2
        have hd' : |dt - step| ≤ 60 * N ∧ ((step = 60 ∧ 0 ≤ dt - step) ∨ (step = -60 ∧ dt - step ≤ 0)) := by
          push_cast at hd
          rcases hs with ⟨hs, hp⟩ | ⟨hs, hp⟩
          · rw [abs_of_nonneg hp] at h2 hd
            rw [hs, abs_of_nonneg (by linarith)]
            exact ⟨by linarith, Or.inl ⟨rfl, by linarith⟩⟩
          · rw [abs_of_nonpos hp] at h2 hd
            rw [hs, abs_of_nonpos (by linarith)]
            exact ⟨by linarith, Or.inr ⟨rfl, by linarith⟩⟩
        obtain ⟨l, hl, hg⟩ := ih m step (dt - step) (rk4 (glonassOrbit acc) step x) (by omega) hd'.1 hd'.2
        refine ⟨step :: l, ⟨?_, ?_, ?_⟩, hg⟩
        · intro h hh
          rcases List.mem_cons.mp hh with rfl | hh
          · rcases hs with ⟨hs, _⟩ | ⟨hs, _⟩ <;> rw [hs] <;> norm_num
          · exact hl.small h hh
        · intro h hh
          rcases List.mem_cons.mp hh with rfl | hh
          · rcases hs with ⟨hs, hp⟩ | ⟨hs, hp⟩
            · rw [hs]; have := lt_of_le_of_ne hp (Ne.symm hne); linarith
            · rw [hs]; have := lt_of_le_of_ne hp hne; linarith
          · have h3 := hl.same h hh
            rcases hs with ⟨hs, hp⟩ | ⟨hs, hp⟩
            · rcases hd'.2 with ⟨_, hq⟩ | ⟨hq, _⟩
              · have hh0 : 0 < h := by
                  by_contra hc; push Not at hc; nlinarith
                exact mul_pos hh0 (lt_of_le_of_ne hp (Ne.symm hne))
              · rw [hs] at hq; norm_num at hq
            · rcases hd'.2 with ⟨hq, _⟩ | ⟨_, hq⟩
              · rw [hs] at hq; norm_num at hq
              · have hh0 : h < 0 := by
                  by_contra hc; push Not at hc; nlinarith
                exact mul_pos_of_neg_of_neg hh0 (lt_of_le_of_ne hp hne)
        · have := hl.total
          rw [List.sum_cons, show step + l.sum - dt = l.sum - (dt - step) by ring]
          exact this
    · rw [if_neg h1]
      push Not at h1
      refine ⟨[], ⟨by simp, by simp, ?_⟩, rfl⟩
      simpa using h1

/-- The clock: bias and drift, the drift being the rate of the bias. -/
theorem C94_clock (n : ℕ) (e : Glo) (t : ℝ) (s r : Sat) (h : gloSat n e t s = some r) :
    r.clk 0 = -e.taun + e.gamn * t ∧ HasDerivAt (fun u => -e.taun + e.gamn * u) (r.clk 1) t := by
  unfold gloSat at h
  obtain ⟨x, _, rfl⟩ := Option.map_eq_some_iff.mp h
  refine ⟨rfl, ?_⟩
  have := ((hasDerivAt_id t).const_mul e.gamn).const_add (-e.taun)
  simpa using this

/-- A state that was never filled in: the ephemeris is propagated to the requested time by steps of at most a minute.
There is no limit on the age of the ephemeris. -/
theorem C94_fresh_partial (e : Glo) (t : ℝ) (s : Sat) (hs : s.t = none) (n : ℕ) (hn : |t| / 60 + 2 ≤ n) :
    ∃ l r, Steps t l ∧ gloSat n e t s = some r ∧ r.t = some t ∧
      (r.pos, r.vel) = l.foldl (fun x h => rk4 (glonassOrbit e.acc) h x) (e.pos, e.vel) := by
  have hN : |t| ≤ 60 * (⌈|t| / 60⌉₊ : ℕ) := by
    have := Nat.le_ceil (|t| / 60)
    rw [div_le_iff₀ (by norm_num)] at this
    linarith
  have hn' : ⌈|t| / 60⌉₊ + 1 ≤ n := by
    have h1 : ⌈|t| / 60⌉₊ < n := by
      have h2 := Nat.ceil_lt_add_one (show 0 ≤ |t| / 60 by positivity)
      have h3 : ((⌈|t| / 60⌉₊ : ℕ) : ℝ) < n := by linarith
      exact_mod_cast h3
    omega
  obtain ⟨l, hl, hg⟩ := loop_steps e.acc _ n (if t < 0 then -60 else 60) t (e.pos, e.vel) hn' hN (by
    split_ifs with h
    · exact Or.inr ⟨rfl, h.le⟩
    · exact Or.inl ⟨rfl, not_lt.mp h⟩)
  refine ⟨l, ⟨some t, (l.foldl (fun x h => rk4 (glonassOrbit e.acc) h x) (e.pos, e.vel)).1,
    (l.foldl (fun x h => rk4 (glonassOrbit e.acc) h x) (e.pos, e.vel)).2, ![-e.taun + e.gamn * t, e.gamn]⟩, hl, ?_, rfl,
    rfl⟩
  unfold gloSat
  simp only [hs, hg]
  rfl

/-- A state that was filled in before: its content is propagated, whatever it was. -/
theorem C94_seeded (e : Glo) (t t' : ℝ) (s : Sat) (hs : s.t = some t') (n : ℕ) (hn : |t - t'| / 60 + 2 ≤ n) :
    ∃ l r, Steps (t - t') l ∧ gloSat n e t s = some r ∧ r.t = some t ∧
      (r.pos, r.vel) = l.foldl (fun x h => rk4 (glonassOrbit e.acc) h x) (s.pos, s.vel) := by
  have hN : |t - t'| ≤ 60 * (⌈|t - t'| / 60⌉₊ : ℕ) := by
    have := Nat.le_ceil (|t - t'| / 60)
    rw [div_le_iff₀ (by norm_num)] at this
    linarith
  have hn' : ⌈|t - t'| / 60⌉₊ + 1 ≤ n := by
    have h1 : ⌈|t - t'| / 60⌉₊ < n := by
      have h2 := Nat.ceil_lt_add_one (show 0 ≤ |t - t'| / 60 by positivity)
      have h3 : ((⌈|t - t'| / 60⌉₊ : ℕ) : ℝ) < n := by linarith
      exact_mod_cast h3
    omega
  obtain ⟨l, hl, hg⟩ := loop_steps e.acc _ n (if t - t' < 0 then -60 else 60) (t - t') (s.pos, s.vel) hn' hN (by
    split_ifs with h
    · exact Or.inr ⟨rfl, h.le⟩
    · exact Or.inl ⟨rfl, not_lt.mp h⟩)
  refine ⟨l, ⟨some t, (l.foldl (fun x h => rk4 (glonassOrbit e.acc) h x) (s.pos, s.vel)).1,
    (l.foldl (fun x h => rk4 (glonassOrbit e.acc) h x) (s.pos, s.vel)).2, ![-e.taun + e.gamn * t, e.gamn]⟩, hl, ?_, rfl,
    rfl⟩
  unfold gloSat
  simp only [hs, hg]
  rfl

/-- The claim: the state of the satellite is determined by the ephemeris and the time. -/
def C94_statement : Prop := ∀ (n : ℕ) (e : Glo) (t : ℝ) (s s' : Sat), gloSat n e t s = gloSat n e t s'

/-- A state already filled in for the requested time keeps its position and velocity whatever the ephemeris says: a
newer message of the same satellite, or one of another satellite, changes nothing. -/
theorem C94_violated (n : ℕ) (e : Glo) (t : ℝ) (p v : V3) (c : V2) :
    (gloSat (n + 1) e t ⟨some t, p, v, c⟩).map (fun r => (r.pos, r.vel)) = some (p, v) := by
  unfold gloSat
  simp only [sub_self, loop_succ, abs_zero]
  rw [if_neg (by norm_num)]
  rfl

theorem C94_statement_false : ¬ C94_statement := by
  intro h
  have h1 := C94_violated 0 ⟨0, 0, 0, 0, 0⟩ 0 0 0 0
  have h2 := C94_violated 0 ⟨0, 0, 0, 0, 0⟩ 0 ![1, 0, 0] 0 0
  rw [h 1 _ 0 ⟨some 0, 0, 0, 0⟩ ⟨some 0, ![1, 0, 0], 0, 0⟩, h2] at h1
  have := congrFun (congrArg Prod.fst (Option.some.inj h1)) 0
  norm_num at this

/-- The hypotheses of `C94_fresh_partial` are met by a quarter of an hour and eighteen iterations. -/
example : |(900 : ℝ)| / 60 + 2 ≤ (18 : ℕ) := by norm_num

/-- A motion: hovering over a point, held there by an acceleration. -/
example (p : V3) (t : ℝ) : Motion (-(glonassOrbit 0 (p, 0)).2) (fun _ => p) (fun _ => 0) t := by
  constructor
  · intro i; exact hasDerivAt_const t (p i)
  · intro i
    refine (hasDerivAt_const t (0 : ℝ)).congr_deriv ?_
    fin_cases i <;> simp [glonassOrbit]

end Verif.Props.GlonassOrbit
