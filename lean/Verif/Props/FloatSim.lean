import Verif.Model.FloatSim
import Verif.Props.FloatCompare
import Verif.Props.SimRun
import Mathlib.Tactic.LinearCombination
/-!
# C121: the times of a run of the simulation, in `double`s
-/
namespace Verif.Props.FloatSim
open Verif.Utc Verif.TimeSpec Verif.Binary64 Verif.FTime Verif.FSim Verif.SimRunSpec
open Verif.Props.SimRun (Near instant_timeAt norm_timeAt eq_timeAt lt_timeAt near_between)

theorem near_mod {x : Int} (h : Near x) : Moderate (timeAt x) := by
  unfold Near at h
  unfold Moderate timeAt
  constructor <;> simp only <;> omega

theorem add_at {r : ℚ → ℚ} (hr : Nearest r) (x : Int) (s : ℚ) (hs : F s) (h1 : |s| < 4611686018) (hx : Near x) :
    FTime.addSec r (timeAt x) s = some (timeAt (x + trunc (r (s * 1000000000)))) := by
  obtain ⟨⟨d, a1, a2, a3⟩, -⟩ := FloatTime.step hr (timeAt x) s (norm_timeAt x) (near_mod hx) hs h1
  rw [a1, eq_timeAt d a2, a3, instant_timeAt]

theorem due_at {r : ℚ → ℚ} (hr : Nearest r) (fma : Bool) (rate : ℚ) (g : Int) (hk : 1 / rate = g / 10 ^ 9) (h0 : 0 < g)
    (h1 : g ≤ 10 ^ 9) (x y : Int) (hx : Near x) (hy : Near y) :
    due r fma rate (timeAt x) (timeAt y) = some (decide (g ≤ x - y)) := by
  have mx := near_mod hx
  have my := near_mod hy
  unfold Moderate at mx my
  rw [FloatCompare.C146_due hr fma rate g hk h0 h1 _ _ (norm_timeAt x) (norm_timeAt y) (by omega) (by omega),
    instant_timeAt, instant_timeAt]

/-- A sensor with the period `g` samples every `p` steps of `k` nanoseconds: the least number that
is no shorter. -/
def Steps (g k : Int) (p : Nat) : Prop := 0 < p ∧ g ≤ p * k ∧ ((p : Int) - 1) * k < g

theorem due_iff {g k : Int} {p : Nat} (hk : 0 < k) (h : Steps g k p) (a : Int) (j : Nat) :
    g ≤ a + (j + 1 : Nat) * k - (a + (j / p * p : Nat) * k) ↔ p ∣ j + 1 := by
  obtain ⟨h0, h1, h2⟩ := h
  have e : a + (j + 1 : Nat) * k - (a + (j / p * p : Nat) * k) = ((j % p : Nat) + 1 : Int) * k := by
    have : j = j / p * p + j % p := by rw [Nat.mul_comm, Nat.div_add_mod]
    have : (j : Int) = (j / p * p : Nat) + (j % p : Nat) := by exact_mod_cast this
    push_cast at this ⊢
    linear_combination k * this
  rw [e]
  have hlt := Nat.mod_lt j h0
  have dv : p ∣ j + 1 ↔ j % p + 1 = p := by
    constructor
    · intro hd
      have := Nat.mod_eq_zero_of_dvd hd
      rw [Nat.add_mod] at this
      by_contra hne
      rcases Nat.lt_or_ge 1 p with q | q
      · rw [Nat.mod_eq_of_lt q, Nat.mod_eq_of_lt (by omega)] at this
        omega
      · omega
    · intro hd
      have : j + 1 = p * (j / p + 1) := by
        have := Nat.div_add_mod j p
        rw [Nat.mul_add]; omega
      exact ⟨_, this⟩
  rw [dv]
  constructor
  · intro hg
    by_contra hne
    have : ((j % p : Nat) + 1 : Int) ≤ p - 1 := by omega
    have := Int.mul_le_mul_of_nonneg_right this hk.le
    omega
  · intro he
    have : ((j % p : Nat) + 1 : Int) = p := by exact_mod_cast he
    rw [this]; exact h1

theorem last_at (p j : Nat) :
    (if p ∣ j + 1 then j + 1 else j / p * p) = (j + 1) / p * p := by
  split
  · rename_i h
    rw [Nat.div_mul_cancel h]
  · rename_i h
    rw [Nat.succ_div_of_not_dvd h]

/-- What is logged in step `j + 1`. -/
def recAt (a k : Int) (p q j : Nat) : Rec := ⟨timeAt (a + (j + 1 : Nat) * k), decide (p ∣ j + 1), decide (q ∣ j + 1)⟩

/-- The state after `j` steps. -/
def stAt (a k : Int) (p q j : Nat) : St :=
  ⟨timeAt (a + j * k), timeAt (a + (j / p * p : Nat) * k), timeAt (a + (j / q * q : Nat) * k)⟩

theorem step_at {r : ℚ → ℚ} (hr : Nearest r) (fma : Bool) (o : Opt) (a k g i : Int) (p q n j : Nat) (hdt : F o.dt)
    (hdt' : |o.dt| < 4611686018) (hk : trunc (r (o.dt * 1000000000)) = k) (hk0 : 0 < k)
    (hg : 1 / o.gnssRate = g / 10 ^ 9) (hg0 : 0 < g) (hg1 : g ≤ 10 ^ 9) (hi : 1 / o.imuRate = i / 10 ^ 9) (hi0 : 0 < i)
    (hi1 : i ≤ 10 ^ 9) (hp : Steps g k p) (hq : Steps i k q) (ha : Near a) (hn : Near (a + n * k)) (hj : j < n) :
    FSim.step r fma o (stAt a k p q j) = some (stAt a k p q (j + 1), recAt a k p q j) := by
  have nb : ∀ m : Nat, m ≤ n → Near (a + m * k) := fun m hm => near_between a k hk0 n m hm ha hn
  have d1 : j / p * p ≤ n := (Nat.div_mul_le_self j p).trans hj.le
  have d2 : j / q * q ≤ n := (Nat.div_mul_le_self j q).trans hj.le
  have e : a + j * k + k = a + (j + 1 : Nat) * k := by push_cast; ring
  unfold FSim.step stAt
  simp only
  rw [add_at hr _ _ hdt hdt' (nb j hj.le), hk, e]
  simp only [Option.bind_eq_bind, Option.bind_some]
  rw [due_at hr fma _ g hg hg0 hg1 _ _ (nb _ hj) (nb _ d1), due_at hr fma _ i hi hi0 hi1 _ _ (nb _ hj) (nb _ d2)]
  simp only [Option.bind_some, due_iff hk0 hp a j, due_iff hk0 hq a j]
  unfold recAt
  rw [← last_at p j, ← last_at q j]
  by_cases b1 : p ∣ j + 1 <;> by_cases b2 : q ∣ j + 1 <;> simp [b1, b2]

theorem loop_at {r : ℚ → ℚ} (hr : Nearest r) (fma : Bool) (o : Opt) (a k g i M : Int) (p q n : Nat) (hdt : F o.dt)
    (hdt' : |o.dt| < 4611686018) (hk : trunc (r (o.dt * 1000000000)) = k) (hk0 : 0 < k)
    (hg : 1 / o.gnssRate = g / 10 ^ 9) (hg0 : 0 < g) (hg1 : g ≤ 10 ^ 9) (hi : 1 / o.imuRate = i / 10 ^ 9) (hi0 : 0 < i)
    (hi1 : i ≤ 10 ^ 9) (hp : Steps g k p) (hq : Steps i k q) (ha : Near a) (hn : Near (a + n * k)) (h1 : M ≤ n * k)
    (h2 : ∀ j : Nat, j < n → j * k < M) (d : Nat) : ∀ (j fuel : Nat), j + d = n → d < fuel →
    FSim.loop r fma o (timeAt (a + M)) fuel (stAt a k p q j) =
      .done (timeAt (a + n * k)) ((List.range' j d).map (recAt a k p q)) := by
  induction d with
  | zero =>
    intro j fuel hj hf
    obtain ⟨f, rfl⟩ : ∃ f, fuel = f + 1 := ⟨fuel - 1, by omega⟩
    obtain rfl : j = n := by omega
    rw [FSim.loop, show (stAt a k p q j).t = timeAt (a + j * k) from rfl, lt_timeAt, if_neg (by simp; omega)]
    rfl
  | succ d ih =>
    intro j fuel hj hf
    obtain ⟨f, rfl⟩ : ∃ f, fuel = f + 1 := ⟨fuel - 1, by omega⟩
    have hlt := h2 j (by omega)
    rw [FSim.loop, show (stAt a k p q j).t = timeAt (a + j * k) from rfl, lt_timeAt, if_pos (by simpa using hlt),
      step_at hr fma o a k g i p q n j hdt hdt' hk hk0 hg hg0 hg1 hi hi0 hi1 hp hq ha hn (by omega)]
    simp only
    rw [ih (j + 1) f (by omega) (by omega)]
    simp only [List.range'_succ, List.map_cons]

/-- **C121.** In `double`s, whatever the rounding to nearest and whether operations are fused: the
simulation ends after the least number of steps that reaches its end, its steps are `k` nanoseconds
apart, without any drift, and a sensor whose period is a whole number of nanoseconds up to a second is
sampled in every `p`-th step, `p` being the least number of steps no shorter than the period. -/
theorem C121_doubles {r : ℚ → ℚ} (hr : Nearest r) (fma : Bool) (o : Opt) (t0 : Time) (ht : Norm t0) (k g i M : Int)
    (p q n : Nat) (hdt : F o.dt) (hdt' : |o.dt| < 4611686018) (hk : trunc (r (o.dt * 1000000000)) = k) (hk0 : 0 < k)
    (htm : F o.tmax) (htm' : |o.tmax| < 4611686018) (hM : trunc (r (o.tmax * 1000000000)) = M)
    (hg : 1 / o.gnssRate = g / 10 ^ 9) (hg0 : 0 < g) (hg1 : g ≤ 10 ^ 9) (hi : 1 / o.imuRate = i / 10 ^ 9) (hi0 : 0 < i)
    (hi1 : i ≤ 10 ^ 9) (hp : Steps g k p) (hq : Steps i k q) (ha : Near (instant t0)) (hn : Near (instant t0 + n * k))
    (h1 : M ≤ n * k) (h2 : ∀ j : Nat, j < n → j * k < M) (fuel : Nat) (hf : n < fuel) :
    FSim.simMain r fma o t0 fuel =
      .done (timeAt (instant t0 + n * k)) ((List.range n).map (recAt (instant t0) k p q)) := by
  unfold FSim.simMain
  have e := eq_timeAt t0 ht
  generalize instant t0 = a at *
  subst e
  rw [add_at hr _ _ htm htm' ha, hM]
  simp only
  have := loop_at hr fma o a k g i M p q n hdt hdt' hk hk0 hg hg0 hg1 hi hi0 hi1 hp hq ha hn h1 h2 n 0 fuel
    (by omega) hf
  rw [List.range_eq_range', ← this]
  unfold stAt
  simp

/-- **C121.** The default options, in `double`s: 300 seconds are exactly 30000 steps, each of exactly
10 ms; the GNSS observes in every twentieth step, the IMU samples in each, that is 100 and not 250 times per
second. -/
theorem C121_default {r : ℚ → ℚ} (hr : Nearest r) (fma : Bool) (t0 : Time) (ht : Norm t0)
    (ha : |instant t0| ≤ 2 ^ 59 * 10 ^ 9) (fuel : Nat) (hf : 30000 < fuel) :
    FSim.simMain r fma ⟨r (1 / 100), 300, 5, 250⟩ t0 fuel =
      .done (timeAt (instant t0 + 300 * 10 ^ 9))
        ((List.range 30000).map fun (j : ℕ) =>
          ⟨timeAt (instant t0 + (j + 1) * 10 ^ 7), decide (20 ∣ j + 1), true⟩) := by
  have a : r (1 / 100) = (5764607523034235 : Int) * (2 : ℚ) ^ (-59 : Int) :=
    hr.eq_of (by norm_num) (by norm_num) (by norm_num) (by rw [abs_lt]; norm_num)
  have b : r (r (1 / 100) * 1000000000) = (5368709120000000 : Int) * (2 : ℚ) ^ (-29 : Int) := by
    rw [a]
    exact hr.eq_of (by norm_num) (by norm_num) (by norm_num) (by rw [abs_lt]; norm_num)
  have c : trunc (r (r (1 / 100) * 1000000000)) = 10000000 := by
    rw [b]; unfold trunc; norm_num
  have F3 : F (300 : ℚ) := by simpa using F_int (n := 300) (by norm_num)
  have d : trunc (r (300 * 1000000000)) = 300000000000 := by
    have hF : F (300000000000 : ℚ) := by simpa using F_int (n := 300000000000) (by norm_num)
    rw [show (300 * 1000000000 : ℚ) = 300000000000 by norm_num, hr.exact hF]
    unfold trunc; norm_num
  rw [abs_le] at ha
  have := C121_doubles hr fma ⟨r (1 / 100), 300, 5, 250⟩ t0 ht 10000000 200000000 4000000 300000000000 20 1 30000
    (hr.mem _) (by simp only; rw [a, abs_lt]; norm_num) c (by norm_num) F3 (by norm_num) d (by norm_num) (by norm_num)
    (by norm_num) (by norm_num) (by norm_num) (by norm_num) ⟨by norm_num, by norm_num, by norm_num⟩
    ⟨by norm_num, by norm_num, by norm_num⟩ (by unfold Near; omega) (by unfold Near; push_cast; omega) (by norm_num)
    (fun j hj => by omega) fuel hf
  have e1 : instant t0 + (30000 : Nat) * 10000000 = instant t0 + 300 * 10 ^ 9 := by norm_num
  have e2 : recAt (instant t0) 10000000 20 1 = fun (j : ℕ) =>
      ⟨timeAt (instant t0 + (j + 1) * 10 ^ 7), decide (20 ∣ j + 1), true⟩ := by
    funext j
    unfold recAt
    simp
  rw [this, e1, e2]

/-- The hypotheses are met at a time of 2020. -/
example : ∃ rs, FSim.simMain rnd true ⟨rnd (1 / 100), 300, 5, 250⟩ ⟨1600000000, 5⟩ 30001 =
    .done (timeAt (instant ⟨1600000000, 5⟩ + 300 * 10 ^ 9)) rs :=
  ⟨_, C121_default rnd_nearest true _ ⟨by norm_num, by norm_num⟩ (by unfold instant; norm_num [abs_le]) _ (by norm_num)⟩

end Verif.Props.FloatSim
