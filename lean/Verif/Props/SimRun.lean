import Verif.Spec.SimRun
import Verif.Props.Time
import Mathlib.Tactic.Linarith
import Mathlib.Tactic.Ring
import Mathlib.Tactic.FieldSimp
import Mathlib.Tactic.Positivity
import Mathlib.Algebra.BigOperators.Ring.Finset
import Mathlib.Data.Real.Archimedean
import Mathlib.Algebra.Module.LinearMap.Defs
import Mathlib.Algebra.Module.Pi
import Mathlib.LinearAlgebra.Basis.VectorSpace
import Mathlib.LinearAlgebra.Finsupp.LinearCombination
import Mathlib.LinearAlgebra.Finsupp.Pi
/-!
# C121, C122: a run of the simulation (sim/simulate.cxx, sim/sim.cxx, sim/sensors/*, common/random.h)
-/
namespace Verif.Props.SimRun
open Verif.SimRun Verif.SimRunSpec Verif.Utc Verif.TimeSpec

/-! ### Times -/

theorem instant_timeAt (x : Int) : instant (timeAt x) = x := by
  unfold instant timeAt
  simp only
  omega

theorem norm_timeAt (x : Int) : Norm (timeAt x) := by
  unfold Norm timeAt
  simp only
  omega

theorem eq_timeAt (t : Time) (h : Norm t) : t = timeAt (instant t) := by
  obtain ⟨s, n⟩ := t
  unfold Norm at h
  unfold timeAt instant
  simp only at h ⊢
  congr 1 <;> omega

/-- Times within 36 billion years of 1970. -/
def Near (x : Int) : Prop := -2 ^ 60 * 10 ^ 9 ≤ x ∧ x ≤ 2 ^ 60 * 10 ^ 9

theorem addSec_timeAt (x : Int) (s : ℚ) (hs : |trunc (s * 10 ^ 9)| < 2 ^ 63) (hx : Near x) :
    addSec (timeAt x) s = some (timeAt (x + trunc (s * 10 ^ 9))) := by
  unfold Near at hx
  obtain ⟨⟨d, h1, h2, h3⟩, -⟩ := Time.C07_add_seconds (timeAt x) s (norm_timeAt x) hs
    (by unfold timeAt; simp only; omega)
  rw [h1, eq_timeAt d h2, h3, instant_timeAt]

theorem sub_timeAt (x y : Int) (hx : Near x) (hy : Near y) :
    sub (timeAt x) (timeAt y) = some (timeAt (x - y)) := by
  unfold Near at hx hy
  obtain ⟨⟨d, h1, h2, h3⟩, -⟩ := Time.C06_add_sub_exact (timeAt x) (timeAt y) (norm_timeAt x) (norm_timeAt y)
    (by unfold timeAt; simp only; omega) (by unfold timeAt; simp only; omega)
  rw [h1, eq_timeAt d h2, h3, instant_timeAt, instant_timeAt]

theorem secs_timeAt (x : Int) : secs (timeAt x) = (x : ℝ) / 10 ^ 9 := by
  have : toSecNs (timeAt x) = x := by
    have := instant_timeAt x
    unfold instant at this
    unfold toSecNs
    omega
  unfold secs
  rw [this]

theorem lt_timeAt (x y : Int) : lt (timeAt x) (timeAt y) = decide (x < y) := by
  have := (Time.C05_compare_partial (timeAt x) (timeAt y) (norm_timeAt x) (norm_timeAt y)).1
  rw [instant_timeAt, instant_timeAt] at this
  by_cases h : x < y
  · rw [decide_eq_true h, this]; exact h
  · rw [decide_eq_false h]
    cases hl : lt (timeAt x) (timeAt y)
    · rfl
    · exact absurd (this.1 hl) h

/-! ### One step -/

variable (o : Opt) (nSat : Nat) (z : Nat → ℝ) (ra rg : Fin 3 → ℝ)

/-- The state after `j` steps. -/
noncomputable def stAt (a k : Int) (p q j : Nat) : St where
  t := timeAt (a + j * k)
  prevG := timeAt (a + (j / p * p : Nat) * k)
  prevI := timeAt (a + (j / q * q : Nat) * k)
  dyn := 2 * j
  v1 := j / p
  v3 := 12 * (j / q)
  gn := 3 * (nSat * (j / p))
  bias := clockBias o nSat z ((p * k : ℝ) / 10 ^ 9) (j / p)
  rate := clockRate o nSat z ((p * k : ℝ) / 10 ^ 9) (j / p)
  ba := accelBias o nSat z ra ((q * k : ℝ) / 10 ^ 9) (j / q)
  bg := gyroBias o nSat z rg ((q * k : ℝ) / 10 ^ 9) (j / q)

theorem div_step (p j : Nat) (hp : 0 < p) :
    (p ∣ j + 1 → (j + 1) / p = j / p + 1 ∧ j / p * p + p = j + 1) ∧
    (¬ p ∣ j + 1 → (j + 1) / p = j / p ∧ j + 1 - j / p * p < p) ∧ 0 < j + 1 - j / p * p := by
  have h1 := Nat.div_add_mod j p
  have h2 := Nat.mod_lt j hp
  have h3 := Nat.succ_div (a := j) (b := p)
  have hc : p * (j / p) = j / p * p := Nat.mul_comm _ _
  refine ⟨?_, ?_, by omega⟩
  · intro hd
    rw [if_pos hd] at h3
    refine ⟨h3, ?_⟩
    obtain ⟨c, hcc⟩ := hd
    have : (j + 1) / p = c := by rw [hcc]; exact Nat.mul_div_cancel_left _ hp
    have e : j / p + 1 = c := by omega
    have := congrArg (p * ·) e
    simp only [Nat.mul_add, Nat.mul_one] at this
    omega
  · intro hd
    rw [if_neg hd] at h3
    refine ⟨by omega, ?_⟩
    rcases Nat.lt_or_ge (j + 1 - j / p * p) p with h | h
    · exact h
    · exfalso
      apply hd
      refine ⟨j / p + 1, ?_⟩
      rw [Nat.mul_add, Nat.mul_one]; omega

/-- A sensor is due at step `j + 1` exactly if that is a multiple of its number of steps. -/
theorem due_iff (rate : ℝ) (hr : 0 < rate) (a k : Int) (p j : Nat) (hp : Every rate k p) :
    Due rate (timeAt (a + (j + 1 : Nat) * k - (a + (j / p * p : Nat) * k))) ↔ p ∣ j + 1 := by
  obtain ⟨hp0, hp1, hp2⟩ := hp
  obtain ⟨h1, h2, h3⟩ := div_step p j hp0
  have e : a + (j + 1 : Nat) * k - (a + (j / p * p : Nat) * k) = ((j + 1 - j / p * p : Nat) : Int) * k := by
    rw [Nat.cast_sub (by omega)]; ring
  unfold Due
  rw [e, secs_timeAt]
  rw [Int.cast_mul, Int.cast_natCast]
  constructor
  · rintro ⟨-, h⟩
    by_contra hd
    have := hp2 _ h3 (h2 hd).2
    linarith
  · intro hd
    refine ⟨hr.ne', ?_⟩
    rw [show j + 1 - j / p * p = p from by have := (h1 hd).2; omega]
    exact hp1

theorem secs_due (a k : Int) (p j : Nat) (hp : 0 < p) (hd : p ∣ j + 1) :
    secs (timeAt (a + (j + 1 : Nat) * k - (a + (j / p * p : Nat) * k))) = (p * k : ℝ) / 10 ^ 9 := by
  rw [secs_timeAt]
  have : ((j + 1 : Nat) : Int) = (j / p * p : Nat) + p := by
    exact_mod_cast ((div_step p j hp).1 hd).2.symm
  rw [this]
  push_cast
  ring

/-- The GNSS records of step `j + 1`. -/
noncomputable def gnssRecs (a k : Int) (p j : Nat) : List Rec :=
  if p ∣ j + 1 then [.gnss (timeAt (a + (j + 1 : Nat) * k)) ((List.range nSat).map fun s =>
    (z (draw nSat (.phase ((j + 1) / p - 1) s)) * o.phaseStd,
      z (draw nSat (.range ((j + 1) / p - 1) s)) * o.rangeStd,
      z (draw nSat (.doppler ((j + 1) / p - 1) s)) * o.dopplerStd))] else []

/-- The IMU records of step `j + 1`. -/
noncomputable def imuRecs (a k : Int) (q j : Nat) : List Rec :=
  if q ∣ j + 1 then [.imu (timeAt (a + (j + 1 : Nat) * k))
    (accelBias o nSat z ra ((q * k : ℝ) / 10 ^ 9) ((j + 1) / q))
    (gyroBias o nSat z rg ((q * k : ℝ) / 10 ^ 9) ((j + 1) / q))
    (fun i => z (draw nSat (.accel ((j + 1) / q - 1) i)) * o.accelNoise)
    (fun i => z (draw nSat (.gyro ((j + 1) / q - 1) i)) * o.gyroNoise)] else []

theorem gnss_at (a k : Int) (p j : Nat) (hG : 0 < o.gnssRate) (hp : Every o.gnssRate k p)
    (h1 : Near (a + (j + 1 : Nat) * k)) (hg : Near (a + (j / p * p : Nat) * k)) (s : St)
    (st : s.t = timeAt (a + (j + 1 : Nat) * k)) (sp : s.prevG = timeAt (a + (j / p * p : Nat) * k))
    (s1 : s.v1 = j / p) (s2 : s.gn = 3 * (nSat * (j / p)))
    (s3 : s.bias = clockBias o nSat z ((p * k : ℝ) / 10 ^ 9) (j / p))
    (s4 : s.rate = clockRate o nSat z ((p * k : ℝ) / 10 ^ 9) (j / p)) :
    gnssSample o nSat z s = some ({ s with
        prevG := timeAt (a + ((j + 1) / p * p : Nat) * k), v1 := (j + 1) / p
        gn := 3 * (nSat * ((j + 1) / p))
        bias := clockBias o nSat z ((p * k : ℝ) / 10 ^ 9) ((j + 1) / p)
        rate := clockRate o nSat z ((p * k : ℝ) / 10 ^ 9) ((j + 1) / p) }, gnssRecs o nSat z a k p j) := by
  obtain ⟨p1, p2, -⟩ := div_step p j hp.1
  have dG := due_iff o.gnssRate hG a k p j hp
  unfold gnssSample gnssRecs
  rw [st, sp, sub_timeAt _ _ h1 hg]
  simp only [Option.bind_eq_bind, Option.bind_some]
  by_cases hd : p ∣ j + 1
  · rw [if_pos (dG.2 hd), if_pos hd]
    obtain ⟨e1, e2⟩ := p1 hd
    have er : clockRate o nSat z ((p * k : ℝ) / 10 ^ 9) (j / p + 1) =
        clockRate o nSat z ((p * k : ℝ) / 10 ^ 9) (j / p) +
          o.clockWalk * z (j / p) * ((p * k : ℝ) / 10 ^ 9) := by
      unfold clockRate
      rw [Finset.sum_range_succ, ← add_assoc]
      rfl
    have eb : clockBias o nSat z ((p * k : ℝ) / 10 ^ 9) (j / p + 1) =
        clockBias o nSat z ((p * k : ℝ) / 10 ^ 9) (j / p) +
          (clockRate o nSat z ((p * k : ℝ) / 10 ^ 9) (j / p) +
            clockRate o nSat z ((p * k : ℝ) / 10 ^ 9) (j / p + 1)) / 2 * ((p * k : ℝ) / 10 ^ 9) := by
      unfold clockBias
      rw [Finset.sum_range_succ, ← add_assoc]
    have e3 : (j + 1) / p * p = j + 1 := by rw [e1, Nat.add_mul, Nat.one_mul]; exact e2
    rw [secs_due a k p j hp.1 hd, s1, s2, s3, s4, e3, e1, eb, er]
    refine congrArg some (Prod.ext ?_ ?_)
    · simp only [St.mk.injEq, true_and, and_true]
      ring
    · simp only [draw, Nat.add_sub_cancel, Nat.mul_add]
  · rw [if_neg (fun h => hd (dG.1 h)), if_neg hd, (p2 hd).1, ← sp, ← st, ← s3, ← s4, ← s2, ← s1]

theorem imu_at (a k : Int) (q j : Nat) (hI : 0 < o.imuRate) (hq : Every o.imuRate k q)
    (h1 : Near (a + (j + 1 : Nat) * k)) (hi : Near (a + (j / q * q : Nat) * k)) (s : St)
    (st : s.t = timeAt (a + (j + 1 : Nat) * k)) (sp : s.prevI = timeAt (a + (j / q * q : Nat) * k))
    (s1 : s.v3 = 12 * (j / q))
    (s3 : s.ba = accelBias o nSat z ra ((q * k : ℝ) / 10 ^ 9) (j / q))
    (s4 : s.bg = gyroBias o nSat z rg ((q * k : ℝ) / 10 ^ 9) (j / q)) :
    imuSample o z s = some ({ s with
        prevI := timeAt (a + ((j + 1) / q * q : Nat) * k), v3 := 12 * ((j + 1) / q)
        ba := accelBias o nSat z ra ((q * k : ℝ) / 10 ^ 9) ((j + 1) / q)
        bg := gyroBias o nSat z rg ((q * k : ℝ) / 10 ^ 9) ((j + 1) / q) },
        imuRecs o nSat z ra rg a k q j) := by
  obtain ⟨p1, p2, -⟩ := div_step q j hq.1
  have dI := due_iff o.imuRate hI a k q j hq
  unfold imuSample imuRecs
  rw [st, sp, sub_timeAt _ _ h1 hi]
  simp only [Option.bind_eq_bind, Option.bind_some]
  by_cases hd : q ∣ j + 1
  · rw [if_pos (dI.2 hd), if_pos hd]
    obtain ⟨e1, e2⟩ := p1 hd
    have ea : accelBias o nSat z ra ((q * k : ℝ) / 10 ^ 9) (j / q + 1) = fun i =>
        accelBias o nSat z ra ((q * k : ℝ) / 10 ^ 9) (j / q) i +
          vec3 z (12 * (j / q)) i * o.accelNoise * ((q * k : ℝ) / 10 ^ 9) := by
      funext i
      unfold accelBias
      rw [Finset.sum_range_succ, ← add_assoc]
      rfl
    have eg : gyroBias o nSat z rg ((q * k : ℝ) / 10 ^ 9) (j / q + 1) = fun i =>
        gyroBias o nSat z rg ((q * k : ℝ) / 10 ^ 9) (j / q) i +
          vec3 z (12 * (j / q) + 3) i * o.gyroNoise * ((q * k : ℝ) / 10 ^ 9) := by
      funext i
      unfold gyroBias
      rw [Finset.sum_range_succ, ← add_assoc]
      rfl
    have e3 : (j + 1) / q * q = j + 1 := by rw [e1, Nat.add_mul, Nat.one_mul]; exact e2
    rw [secs_due a k q j hq.1 hd, s1, s3, s4, e3, e1, ea, eg]
    refine congrArg some (Prod.ext ?_ ?_)
    · simp only [St.mk.injEq, true_and, and_true]
      ring
    · simp only [draw, vec3, Nat.add_sub_cancel]
  · rw [if_neg (fun h => hd (dI.1 h)), if_neg hd, (p2 hd).1, ← sp, ← st, ← s1, ← s3, ← s4]

theorem step_at (a k : Int) (p q j : Nat) (hk : k = trunc (o.dt * 10 ^ 9)) (hk' : |k| < 2 ^ 63)
    (hG : 0 < o.gnssRate) (hI : 0 < o.imuRate) (hp : Every o.gnssRate k p) (hq : Every o.imuRate k q)
    (h0 : Near (a + j * k)) (h1 : Near (a + (j + 1 : Nat) * k))
    (hg : Near (a + (j / p * p : Nat) * k)) (hi : Near (a + (j / q * q : Nat) * k)) :
    step o nSat z (stAt o nSat z ra rg a k p q j) =
      some (stAt o nSat z ra rg a k p q (j + 1), records o nSat z ra rg a k p q j) := by
  have hadd : addSec (timeAt (a + j * k)) o.dt = some (timeAt (a + (j + 1 : Nat) * k)) := by
    rw [addSec_timeAt _ _ (by rw [← hk]; exact hk') h0, ← hk]
    congr 2
    push_cast
    ring
  unfold step
  have ht : (stAt o nSat z ra rg a k p q j).t = timeAt (a + j * k) := rfl
  rw [ht, hadd]
  simp only [Option.bind_eq_bind, Option.bind_some]
  rw [gnss_at o nSat z a k p j hG hp h1 hg _ rfl rfl rfl rfl rfl rfl]
  simp only [Option.bind_some]
  rw [imu_at o nSat z ra rg a k q j hI hq h1 hi _ rfl rfl rfl rfl rfl]
  rfl

/-! ### The run -/

/-- The records of steps `j + 1` to `j + n`. -/
noncomputable def recordsFrom (a k : Int) (p q : Nat) (j n : Nat) : List Rec :=
  ((List.range' j n).map (records o nSat z ra rg a k p q)).flatten

theorem near_between (a k : Int) (hk : 0 < k) (n i : Nat) (hi : i ≤ n) (ha : Near a)
    (hn : Near (a + n * k)) : Near (a + i * k) := by
  unfold Near at *
  have h1 : (i : Int) * k ≤ n * k := Int.mul_le_mul_of_nonneg_right (by omega) (by omega)
  have h2 : 0 ≤ (i : Int) * k := Int.mul_nonneg (by omega) (by omega)
  omega

theorem loop_at (a k M : Int) (p q n : Nat) (hk : k = trunc (o.dt * 10 ^ 9)) (hk0 : 0 < k) (hk' : k < 2 ^ 63)
    (hG : 0 < o.gnssRate) (hI : 0 < o.imuRate) (hp : Every o.gnssRate k p) (hq : Every o.imuRate k q)
    (ha : Near a) (hn : Near (a + n * k)) (h1 : M ≤ n * k) (h2 : ∀ j : Nat, j < n → j * k < M) :
    ∀ (d j fuel : Nat), j + d = n → d < fuel →
      loop o nSat z (timeAt (a + M)) fuel (stAt o nSat z ra rg a k p q j) =
        .done (stAt o nSat z ra rg a k p q n) (recordsFrom o nSat z ra rg a k p q j d) := by
  have ht : ∀ j, (stAt o nSat z ra rg a k p q j).t = timeAt (a + j * k) := fun _ => rfl
  intro d
  induction d with
  | zero =>
    intro j fuel hj hf
    obtain ⟨f, rfl⟩ : ∃ f, fuel = f + 1 := ⟨fuel - 1, by omega⟩
    obtain rfl : j = n := by omega
    rw [loop, ht, lt_timeAt, if_neg (by simp; omega)]
    rfl
  | succ d ih =>
    intro j fuel hj hf
    obtain ⟨f, rfl⟩ : ∃ f, fuel = f + 1 := ⟨fuel - 1, by omega⟩
    have hlt := h2 j (by omega)
    rw [loop, ht, lt_timeAt, if_pos (by simpa using hlt)]
    have hjp : j / p * p ≤ j := Nat.div_mul_le_self j p
    have hjq : j / q * q ≤ j := Nat.div_mul_le_self j q
    rw [step_at o nSat z ra rg a k p q j hk (by rw [abs_of_pos hk0]; exact hk') hG hI hp hq
      (near_between a k hk0 n _ (by omega) ha hn) (near_between a k hk0 n _ (by omega) ha hn)
      (near_between a k hk0 n _ (by omega) ha hn) (near_between a k hk0 n _ (by omega) ha hn)]
    simp only
    rw [ih (j + 1) f (by omega) (by omega)]
    simp only [recordsFrom, List.range'_succ, List.map_cons, List.flatten_cons]

theorem init_at (a k : Int) (p q : Nat) :
    SimRun.init o z ra rg (timeAt a) = stAt o nSat z ra rg a k p q 0 := by
  unfold SimRun.init stAt
  have e1 : clockBias o nSat z ((p * k : ℝ) / 10 ^ 9) (0 / p) = o.clockInit * z 0 := by
    rw [Nat.zero_div]; unfold clockBias; simp
  have e2 : clockRate o nSat z ((p * k : ℝ) / 10 ^ 9) (0 / p) = o.clockWalk * z 1 := by
    rw [Nat.zero_div]; unfold clockRate; simp
  have e3 : accelBias o nSat z ra ((q * k : ℝ) / 10 ^ 9) (0 / q) = fun i => o.accelWalk * ra i := by
    rw [Nat.zero_div]; funext i; unfold accelBias; simp
  have e4 : gyroBias o nSat z rg ((q * k : ℝ) / 10 ^ 9) (0 / q) = fun i => o.gyroWalk * rg i := by
    rw [Nat.zero_div]; funext i; unfold gyroBias; simp
  rw [e1, e2, e3, e4]
  simp

/-- A simulation with steps of at least a nanosecond ends after the least number of steps that
reaches the configured time, and its records are exactly those of `records`: one of the truth per step,
GNSS and IMU every fixed number of steps, with the noises at the given places. -/
theorem C121_run (t0 : Time) (ht : Norm t0) (k M : Int) (p q n : Nat) (hk : k = trunc (o.dt * 10 ^ 9))
    (hM : M = trunc (o.tmax * 10 ^ 9)) (hM' : |M| < 2 ^ 63) (hk0 : 0 < k) (hk' : k < 2 ^ 63)
    (hG : 0 < o.gnssRate) (hI : 0 < o.imuRate) (hp : Every o.gnssRate k p) (hq : Every o.imuRate k q)
    (ha : Near (instant t0)) (hn : Near (instant t0 + n * k)) (h1 : M ≤ n * k)
    (h2 : ∀ j : Nat, j < n → j * k < M) (fuel : Nat) (hf : n < fuel) :
    ∃ s, simMain o nSat z ra rg t0 fuel = .done s
        ((List.range n).map (records o nSat z ra rg (instant t0) k p q)).flatten ∧
      s.t = timeAt (instant t0 + n * k) := by
  refine ⟨stAt o nSat z ra rg (instant t0) k p q n, ?_, rfl⟩
  unfold simMain
  have e := eq_timeAt t0 ht
  generalize instant t0 = a at *
  subst e
  rw [addSec_timeAt _ _ (by rw [← hM]; exact hM') ha, ← hM]
  simp only
  rw [init_at o nSat z ra rg a k p q,
    loop_at o nSat z ra rg a k M p q n hk hk0 hk' hG hI hp hq ha hn h1 h2 n 0 fuel (by omega) hf,
    recordsFrom, List.range_eq_range']

/-- There are such numbers of steps, for every rate and every step. -/
theorem every_exists (rate : ℝ) (hr : 0 < rate) (k : Int) (hk : 0 < k) : ∃ p, Every rate k p := by
  classical
  have hk' : (0 : ℝ) < k := by exact_mod_cast hk
  have hex : ∃ p : Nat, 0 < p ∧ 1 / rate ≤ (p * k : ℝ) / 10 ^ 9 := by
    obtain ⟨p, hp⟩ := exists_nat_ge (1 / rate * 10 ^ 9 / k)
    refine ⟨p + 1, Nat.succ_pos _, ?_⟩
    rw [le_div_iff₀ (by positivity)]
    rw [div_le_iff₀ hk'] at hp
    push_cast
    nlinarith
  refine ⟨Nat.find hex, (Nat.find_spec hex).1, (Nat.find_spec hex).2, ?_⟩
  intro q hq0 hq
  have := Nat.find_min hex hq
  push Not at this
  exact this hq0

theorem steps_exist (k M : Int) (hk : 0 < k) :
    ∃ n : Nat, M ≤ n * k ∧ (∀ j : Nat, j < n → j * k < M) ∧ (n = 0 ∨ n * k < M + k) := by
  rcases (show M ≤ 0 ∨ 0 < M by omega) with h | h
  · exact ⟨0, by simpa using h, fun j hj => absurd hj (by omega), Or.inl rfl⟩
  · have h1 := Int.mul_ediv_add_emod (M + (k - 1)) k
    have h2 := Int.emod_nonneg (M + (k - 1)) (show k ≠ 0 by omega)
    have h3 := Int.emod_lt_of_pos (M + (k - 1)) hk
    have h4 : 0 ≤ (M + (k - 1)) / k := Int.ediv_nonneg (by omega) (by omega)
    generalize (M + (k - 1)) / k = d at *
    generalize (M + (k - 1)) % k = r at *
    refine ⟨d.toNat, ?_, ?_, Or.inr ?_⟩
    · rw [Int.toNat_of_nonneg h4, Int.mul_comm]; omega
    · intro j hj
      have : (j : Int) ≤ d - 1 := by omega
      have := Int.mul_le_mul_of_nonneg_right this (show 0 ≤ k by omega)
      rw [Int.sub_mul, Int.one_mul, Int.mul_comm d] at this
      omega
    · rw [Int.toNat_of_nonneg h4, Int.mul_comm]; omega

/-- Every simulation whose step is at least a nanosecond ends, at the configured time or less than
a step after it. -/
theorem C121_ends (t0 : Time) (ht : Norm t0) (k M : Int) (hk : k = trunc (o.dt * 10 ^ 9))
    (hM : M = trunc (o.tmax * 10 ^ 9)) (hM0 : 0 ≤ M) (hM' : M < 2 ^ 63) (hk0 : 0 < k) (hk' : k < 2 ^ 63)
    (hG : 0 < o.gnssRate) (hI : 0 < o.imuRate) (ha : Near (instant t0)) (hn : Near (instant t0 + M + k)) :
    ∃ n s rs, (∀ fuel, n < fuel → simMain o nSat z ra rg t0 fuel = .done s rs) ∧
      instant t0 + M ≤ instant s.t ∧ instant s.t < instant t0 + M + k := by
  obtain ⟨p, hp⟩ := every_exists o.gnssRate hG k hk0
  obtain ⟨q, hq⟩ := every_exists o.imuRate hI k hk0
  obtain ⟨n, h1, h2, h3⟩ := steps_exist k M hk0
  have hle : (n : Int) * k < M + k := by
    rcases h3 with rfl | h3
    · simp; omega
    · exact h3
  have hnn : (0 : Int) ≤ n * k := Int.mul_nonneg (by omega) (by omega)
  have hN : Near (instant t0 + n * k) := by unfold Near at *; omega
  refine ⟨n, stAt o nSat z ra rg (instant t0) k p q n,
    ((List.range n).map (records o nSat z ra rg (instant t0) k p q)).flatten, ?_, ?_⟩
  · intro fuel hf
    have e := eq_timeAt t0 ht
    unfold simMain
    generalize instant t0 = a at *
    subst e
    rw [addSec_timeAt _ _ (by rw [← hM, abs_of_nonneg hM0]; exact hM') ha, ← hM]
    simp only
    rw [init_at o nSat z ra rg a k p q,
      loop_at o nSat z ra rg a k M p q n hk hk0 hk' hG hI hp hq ha hN h1 h2 n 0 fuel (by omega) hf,
      recordsFrom, List.range_eq_range']
  · have : (stAt o nSat z ra rg (instant t0) k p q n).t = timeAt (instant t0 + n * k) := rfl
    rw [this, instant_timeAt]
    omega

/-- A step of less than a nanosecond, or back in time, is accepted and the simulation does not end. -/
theorem C121_endless_violated (t0 : Time) (ht : Norm t0) (k M : Int) (hk : k = trunc (o.dt * 10 ^ 9))
    (hM : M = trunc (o.tmax * 10 ^ 9)) (hM0 : 0 < M) (hM' : M < 2 ^ 63) (hk0 : k ≤ 0) (hk' : -2 ^ 63 < k)
    (hG : 0 < o.gnssRate) (hI : 0 < o.imuRate) (ha : Near (instant t0)) (fuel : Nat)
    (hn : Near (instant t0 + fuel * k)) : simMain o nSat z ra rg t0 fuel = .running := by
  have e := eq_timeAt t0 ht
  unfold simMain
  generalize instant t0 = a at *
  subst e
  rw [addSec_timeAt _ _ (by rw [← hM, abs_of_pos hM0]; exact hM') ha, ← hM]
  simp only
  have key : ∀ (fuel j : Nat) (s : St), Near (a + (j + fuel : Nat) * k) → s.t = timeAt (a + j * k) →
      s.prevG = timeAt a → s.prevI = timeAt a → loop o nSat z (timeAt (a + M)) fuel s = .running := by
    intro fuel
    induction fuel with
    | zero => intro j s _ _ _ _; rfl
    | succ f ih =>
      intro j s hnear st sg si
      have hmono : ∀ i : Nat, i ≤ j + (f + 1) → Near (a + i * k) := by
        intro i hi
        unfold Near at *
        have h1 : ((j + (f + 1) : Nat) : Int) * k ≤ i * k := by
          have := Int.mul_le_mul_of_nonneg_right (show (i : Int) ≤ (j + (f + 1) : Nat) by omega)
            (show 0 ≤ -k by omega)
          simp only [Int.mul_neg] at this
          omega
        have h2 : (i : Int) * k ≤ 0 := Int.mul_nonpos_of_nonneg_of_nonpos (by omega) hk0
        omega
      have hle : ∀ i : Nat, (i : Int) * k ≤ 0 := fun i =>
        Int.mul_nonpos_of_nonneg_of_nonpos (by omega) hk0
      have hlej := hle j
      have hadd : addSec s.t o.dt = some (timeAt (a + (j + 1 : Nat) * k)) := by
        rw [st, addSec_timeAt _ _ (by rw [← hk, abs_of_nonpos hk0]; omega) (hmono j (by omega)), ← hk]
        congr 2
        push_cast
        ring
      have hnd : ∀ rate : ℝ, 0 < rate → ¬ Due rate (timeAt (a + (j + 1 : Nat) * k - a)) := by
        rintro rate hr ⟨-, h⟩
        rw [secs_timeAt] at h
        have h5 : ((a + (j + 1 : Nat) * k - a : Int) : ℝ) ≤ 0 := by
          have := hle (j + 1)
          have : a + (j + 1 : Nat) * k - a ≤ 0 := by omega
          exact_mod_cast this
        have h6 : (0 : ℝ) < 1 / rate := by positivity
        have h7 : ((a + (j + 1 : Nat) * k - a : Int) : ℝ) / 10 ^ 9 ≤ 0 :=
          div_nonpos_of_nonpos_of_nonneg h5 (by positivity)
        linarith
      rw [loop, st, lt_timeAt, if_pos (by rw [decide_eq_true_eq]; omega)]
      have hs := sub_timeAt _ _ (hmono (j + 1) (by omega)) ha
      unfold step
      rw [hadd]
      simp only [Option.bind_eq_bind, Option.bind_some, gnssSample, imuSample, sg, si, hs,
        if_neg (hnd _ hG), if_neg (hnd _ hI)]
      rw [ih (j + 1) _ (by rw [show j + 1 + f = j + (f + 1) by omega]; exact hnear) rfl rfl rfl]
  exact key fuel 0 _ (by rw [Nat.zero_add]; exact hn) (by simp [SimRun.init]) rfl rfl

/-- A sensor is never faster than configured, and slower by less than a step. -/
theorem C121_interval (rate : ℝ) (hr : 0 < rate) (k : Int) (p : Nat) (h : Every rate k p) :
    1 / rate ≤ (p * k : ℝ) / 10 ^ 9 ∧ (p * k : ℝ) / 10 ^ 9 < 1 / rate + (k : ℝ) / 10 ^ 9 := by
  obtain ⟨h0, h1, h2⟩ := h
  refine ⟨h1, ?_⟩
  rcases Nat.lt_or_ge 1 p with hp | hp
  · have := h2 (p - 1) (by omega) (by omega)
    rw [Nat.cast_sub (by omega), Nat.cast_one, sub_mul, one_mul, sub_div] at this
    linarith
  · obtain rfl : p = 1 := by omega
    have : (0 : ℝ) < 1 / rate := by positivity
    simp only [Nat.cast_one, one_mul]
    linarith

/-- The default rate of the IMU is 250 per second, the default step 10 ms: 100 per second are
logged. -/
theorem C121_rate_violated : trunc ((1 / 100 : ℚ) * 10 ^ 9) = 10000000 ∧ Every 250 10000000 1 ∧
    ∀ p, Every 250 10000000 p → p = 1 := by
  have h1 : Every 250 10000000 1 := by
    refine ⟨by omega, by norm_num, fun q h1 h2 => by omega⟩
  refine ⟨by rw [show ((1 / 100 : ℚ) * 10 ^ 9) = ((10000000 : Int) : ℚ) by norm_num]; unfold trunc; norm_num, h1, ?_⟩
  intro p hp
  rcases Nat.lt_trichotomy p 1 with h | h | h
  · have := hp.1; omega
  · exact h
  · have := hp.2.2 1 (by omega) h
    have := h1.2.1
    linarith

/-- The options by default, for ten seconds, meet the conditions: the GNSS observes every twentieth
step. -/
example : ∃ o : Opt, o.dt = 1 / 100 ∧ o.tmax = 10 ∧ o.gnssRate = 5 ∧ o.imuRate = 250 ∧
    trunc (o.dt * 10 ^ 9) = 10000000 ∧ trunc (o.tmax * 10 ^ 9) = 10000000000 ∧ Every o.gnssRate 10000000 20 ∧
    Every o.imuRate 10000000 1 ∧ Near (instant ⟨1600000000, 0⟩ + (1000 : Nat) * 10000000) ∧
    (10000000000 : Int) ≤ (1000 : Nat) * 10000000 := by
  refine ⟨⟨1 / 100, 10, 1 / 100, 5, 3, 1 / 100, 1, 1 / 10 ^ 9, 1 / 10 ^ 10, 250, 1 / 20, 1 / 1000, 1 / 50,
    1 / 200⟩, rfl, rfl, rfl, rfl, C121_rate_violated.1, ?_, ?_, C121_rate_violated.2.1, ?_, ?_⟩
  · rw [show ((10 : ℚ) * 10 ^ 9) = ((10000000000 : Int) : ℚ) by norm_num]; unfold trunc; norm_num
  · refine ⟨by omega, by norm_num, fun q h1 h2 => ?_⟩
    have : (q : ℝ) ≤ 19 := by exact_mod_cast (by omega : q ≤ 19)
    push_cast
    rw [div_lt_div_iff₀ (by norm_num) (by norm_num)]
    linarith
  · unfold Near instant; simp
  · norm_num

/-! ### C122 the noises -/

/-- The generator that a source uses. -/
def engine : Source → Fin 5
  | .clockInit _ => 0
  | .input _ _ => 1
  | .clockWalk _ => 2
  | .phase _ _ | .range _ _ | .doppler _ _ => 3
  | .accelWalk _ _ | .gyroWalk _ _ | .accel _ _ | .gyro _ _ => 4

/-- The satellites there are. -/
def Valid (nSat : Nat) : Source → Prop
  | .phase _ s | .range _ s | .doppler _ s => s < nSat
  | _ => True

theorem pair_inj (n e s e' s' : Nat) (hs : s < n) (hs' : s' < n) (h : n * e + s = n * e' + s') :
    e = e' ∧ s = s' := by
  have h1 : (n * e + s) / n = e := by
    rw [Nat.mul_add_div (by omega), Nat.div_eq_of_lt hs, Nat.add_zero]
  have h2 : (n * e' + s') / n = e' := by
    rw [Nat.mul_add_div (by omega), Nat.div_eq_of_lt hs', Nat.add_zero]
  have : e = e' := by rw [← h1, ← h2, h]
  subst this
  exact ⟨rfl, by omega⟩

/-- Two sources with the same generator never use the same number. -/
theorem C122_own (x y : Source) (hx : Valid nSat x) (hy : Valid nSat y) (he : engine x = engine y)
    (hd : draw nSat x = draw nSat y) : x = y := by
  cases x <;> cases y <;> simp only [engine, draw, Valid] at he hd hx hy <;>
    first
      | (exfalso; revert he; decide)
      | (exfalso; omega)
      | (congr 1 <;> omega)
      | (have := pair_inj nSat _ _ _ _ hx hy (Nat.eq_of_mul_eq_mul_left (show 0 < 3 by omega) hd)
         rw [this.1, this.2])
      | (have := pair_inj nSat _ _ _ _ hx hy (Nat.eq_of_mul_eq_mul_left (show 0 < 3 by omega)
           (Nat.add_right_cancel hd))
         rw [this.1, this.2])

/-- Expectation of the products of numbers that are uncorrelated and of variance one. -/
structure White (Ω : Type) (E : (Ω → ℝ) →ₗ[ℝ] ℝ) (z : Nat → Ω → ℝ) : Prop where
  same : ∀ i, E (fun w => z i w * z i w) = 1
  diff : ∀ i j, i ≠ j → E (fun w => z i w * z j w) = 0

theorem cov {Ω : Type} {E : (Ω → ℝ) →ₗ[ℝ] ℝ} {z : Nat → Ω → ℝ} (h : White Ω E z) (a b : ℝ) (i j : Nat) :
    E (fun w => z i w * a * (z j w * b)) = if i = j then a * b else 0 := by
  have : (fun w => z i w * a * (z j w * b)) = (a * b) • fun w => z i w * z j w := by
    funext w; simp only [Pi.smul_apply, smul_eq_mul]; ring
  rw [this, map_smul]
  split
  · rename_i hij
    subst hij
    rw [h.same, smul_eq_mul, mul_one]
  · rename_i hij
    rw [h.diff i j hij, smul_zero]

/-- What independent noises would be: of two different sources, the covariance is zero. -/
def C122_statement : Prop :=
  ∀ (Ω : Type) (E : (Ω → ℝ) →ₗ[ℝ] ℝ) (z : Nat → Ω → ℝ), White Ω E z → ∀ (nSat : Nat) (x y : Source),
    Valid nSat x → Valid nSat y → x ≠ y → ∀ a b : ℝ,
    E (fun w => z (draw nSat x) w * a * (z (draw nSat y) w * b)) = 0

/-- It is so for two sources with the same generator. -/
theorem C122_uncorrelated_partial {Ω : Type} {E : (Ω → ℝ) →ₗ[ℝ] ℝ} {z : Nat → Ω → ℝ} (h : White Ω E z)
    (x y : Source) (hx : Valid nSat x) (hy : Valid nSat y) (he : engine x = engine y) (hxy : x ≠ y) (a b : ℝ) :
    E (fun w => z (draw nSat x) w * a * (z (draw nSat y) w * b)) = 0 := by
  rw [cov h, if_neg fun hd => hxy (C122_own nSat x y hx hy he hd)]

/-- Every noise of a GNSS observation, of the input and of the clock is also that of some component of some
IMU sample, and the two are fully correlated. -/
theorem C122_shared_violated {Ω : Type} {E : (Ω → ℝ) →ₗ[ℝ] ℝ} {z : Nat → Ω → ℝ} (h : White Ω E z)
    (x : Source) : ∃ y, engine y = 4 ∧ Valid nSat y ∧ ∀ a b : ℝ,
      E (fun w => z (draw nSat x) w * a * (z (draw nSat y) w * b)) = a * b := by
  have key : ∃ y, engine y = 4 ∧ Valid nSat y ∧ draw nSat y = draw nSat x := by
    generalize draw nSat x = d
    have h1 := Nat.div_add_mod d 12
    have h2 := Nat.mod_lt d (show 0 < 12 by omega)
    rcases Nat.lt_or_ge (d % 12) 3 with h3 | h3
    · exact ⟨.accelWalk (d / 12) ⟨d % 12, h3⟩, rfl, trivial, by simp only [draw]; omega⟩
    rcases Nat.lt_or_ge (d % 12) 6 with h4 | h4
    · exact ⟨.gyroWalk (d / 12) ⟨d % 12 - 3, by omega⟩, rfl, trivial, by simp only [draw]; omega⟩
    rcases Nat.lt_or_ge (d % 12) 9 with h5 | h5
    · exact ⟨.accel (d / 12) ⟨d % 12 - 6, by omega⟩, rfl, trivial, by simp only [draw]; omega⟩
    · exact ⟨.gyro (d / 12) ⟨d % 12 - 9, by omega⟩, rfl, trivial, by simp only [draw]; omega⟩
  obtain ⟨y, h1, h2, h3⟩ := key
  refine ⟨y, h1, h2, fun a b => ?_⟩
  rw [cov h, if_pos h3.symm]

/-- The first numbers: the initial bias of the clock, the first noise on the input, the first step of the
clock's walk, the first carrier phase and the first step of the accelerometer's bias are one number. -/
theorem C122_first_violated : draw nSat (.clockInit 0) = 0 ∧ draw nSat (.input 0 0) = 0 ∧
    draw nSat (.clockWalk 0) = 0 ∧ draw nSat (.phase 0 0) = 0 ∧ draw nSat (.accelWalk 0 0) = 0 := by
  simp [draw]

/-- Numbers as they are asked for exist. -/
theorem white_exists : ∃ (E : (Nat → ℝ) →ₗ[ℝ] ℝ), White Nat E fun i w => if w = i then 1 else 0 := by
  let emb : (Nat →₀ ℝ) →ₗ[ℝ] (Nat → ℝ) := Finsupp.lcoeFun
  obtain ⟨g, hg⟩ := LinearMap.exists_leftInverse_of_injective emb
    (LinearMap.ker_eq_bot.2 DFunLike.coe_injective)
  let tot : (Nat →₀ ℝ) →ₗ[ℝ] ℝ := Finsupp.linearCombination ℝ fun _ => (1 : ℝ)
  have hs : ∀ i, (fun w : Nat => (if w = i then (1 : ℝ) else 0) * if w = i then 1 else 0) =
      emb (Finsupp.single i 1) := by
    intro i
    funext w
    show _ = Finsupp.single i (1 : ℝ) w
    rw [Finsupp.single_apply]
    by_cases h : w = i
    · subst h; simp
    · rw [if_neg h, if_neg (fun e => h e.symm)]; simp
  refine ⟨tot ∘ₗ g, ?_, ?_⟩
  · intro i
    rw [hs i, LinearMap.comp_apply, ← LinearMap.comp_apply g emb, hg]
    simp [tot]
  · intro i j hij
    have : (fun w : Nat => (if w = i then (1 : ℝ) else 0) * if w = j then 1 else 0) = 0 := by
      funext w
      by_cases h : w = i
      · subst h; simp [hij]
      · simp [h]
    rw [this, map_zero]

theorem C122_statement_false : ¬ C122_statement := by
  intro h
  obtain ⟨E, hE⟩ := white_exists
  have h1 := h Nat E _ hE 1 (.input 0 0) (.accelWalk 0 0) trivial trivial (by intro h; cases h) 1 1
  rw [cov hE, if_pos (by simp [draw])] at h1
  norm_num at h1

/-- Sum of squares: the variance of the change of a bias in `m` samples. -/
theorem C122_variance {Ω : Type} {E : (Ω → ℝ) →ₗ[ℝ] ℝ} {z : Nat → Ω → ℝ} (h : White Ω E z) (D : ℝ)
    (m : Nat) (i : Fin 3) :
    E (fun w => (accelBias o nSat (fun j => z j w) ra D m i - o.accelWalk * ra i) ^ 2) =
      o.accelNoise ^ 2 * (m * D) * D := by
  have e : (fun w => (accelBias o nSat (fun j => z j w) ra D m i - o.accelWalk * ra i) ^ 2) =
      ∑ a ∈ Finset.range m, ∑ b ∈ Finset.range m, fun w =>
        z (draw nSat (.accelWalk a i)) w * (o.accelNoise * D) *
          (z (draw nSat (.accelWalk b i)) w * (o.accelNoise * D)) := by
    funext w
    simp only [accelBias, add_sub_cancel_left, pow_two, Finset.sum_mul_sum, Finset.sum_apply, mul_assoc]
  rw [e, map_sum]
  simp only [map_sum, cov h]
  have : ∀ a ∈ Finset.range m, (∑ b ∈ Finset.range m,
      if draw nSat (.accelWalk a i) = draw nSat (.accelWalk b i) then o.accelNoise * D * (o.accelNoise * D) else 0) =
      o.accelNoise * D * (o.accelNoise * D) := by
    intro a ha
    rw [Finset.sum_eq_single a]
    · rw [if_pos rfl]
    · intro b _ hb
      rw [if_neg]
      simp only [draw]
      omega
    · intro hna; exact absurd ha hna
  rw [Finset.sum_congr rfl this, Finset.sum_const, Finset.card_range, nsmul_eq_mul]
  ring

/-- A random walk has after a given time the same variance however often it is sampled; here it is half of it
when the samples come twice as often. -/
theorem C122_rate_violated {Ω : Type} {E : (Ω → ℝ) →ₗ[ℝ] ℝ} {z : Nat → Ω → ℝ} (h : White Ω E z) (D : ℝ)
    (m : Nat) (i : Fin 3) :
    2 * E (fun w => (accelBias o nSat (fun j => z j w) ra (D / 2) (2 * m) i - o.accelWalk * ra i) ^ 2) =
      E (fun w => (accelBias o nSat (fun j => z j w) ra D m i - o.accelWalk * ra i) ^ 2) := by
  rw [C122_variance o nSat ra h, C122_variance o nSat ra h]
  push_cast
  ring

/-- The strength of the walk that is configured does not matter for it: without measurement noise the
biases never change, and any other strength gives the same changes. -/
theorem C122_walk_violated (o' : Opt) (h : o'.accelNoise = o.accelNoise) (h' : o'.gyroNoise = o.gyroNoise)
    (D : ℝ) (m m' : Nat) (i : Fin 3) :
    accelBias o nSat z ra D m i - accelBias o nSat z ra D m' i =
      accelBias o' nSat z ra D m i - accelBias o' nSat z ra D m' i ∧
    gyroBias o nSat z rg D m i - gyroBias o nSat z rg D m' i =
      gyroBias o' nSat z rg D m i - gyroBias o' nSat z rg D m' i ∧
    (o.accelNoise = 0 → accelBias o nSat z ra D m i = o.accelWalk * ra i) ∧
    (o.gyroNoise = 0 → gyroBias o nSat z rg D m i = o.gyroWalk * rg i) := by
  refine ⟨?_, ?_, ?_, ?_⟩
  · unfold accelBias; rw [h]; ring
  · unfold gyroBias; rw [h']; ring
  · intro e; unfold accelBias; rw [e]; simp
  · intro e; unfold gyroBias; rw [e]; simp

/-- The clock's bias is the integral of its rate between the epochs, taken as linear in between; the rate
walks with the configured strength times the time between epochs. -/
theorem C122_clock (D : ℝ) (e : Nat) :
    clockRate o nSat z D (e + 1) - clockRate o nSat z D e = o.clockWalk * z e * D ∧
    clockBias o nSat z D (e + 1) - clockBias o nSat z D e =
      clockRate o nSat z D e * D + o.clockWalk * z e * D ^ 2 / 2 := by
  have h1 : clockRate o nSat z D (e + 1) = clockRate o nSat z D e + o.clockWalk * z e * D := by
    unfold clockRate; rw [Finset.sum_range_succ, ← add_assoc]; rfl
  refine ⟨by rw [h1]; ring, ?_⟩
  unfold clockBias
  rw [Finset.sum_range_succ, h1]
  ring

end Verif.Props.SimRun
