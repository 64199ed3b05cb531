import Verif.Model.SimRun
import Verif.Spec.Time
import Mathlib.Algebra.BigOperators.Group.Finset.Basic
/-!
# What a run of the simulation should log
-/
namespace Verif.SimRunSpec
open Verif.SimRun Verif.Utc

/-- The time of a number of nanoseconds. -/
def timeAt (ns : Int) : Time := ⟨ns / 10 ^ 9, ns % 10 ^ 9⟩

/-- A sensor samples every `p` steps of `k` nanoseconds: the least number that is no shorter than
its period. -/
def Every (rate : ℝ) (k : Int) (p : Nat) : Prop :=
  0 < p ∧ 1 / rate ≤ (p * k : ℝ) / 10 ^ 9 ∧ ∀ q : Nat, 0 < q → q < p → (q * k : ℝ) / 10 ^ 9 < 1 / rate

/-- The sources of noise. -/
inductive Source
  | clockInit (i : Fin 2)
  | input (step : Nat) (i : Fin 2)
  | clockWalk (epoch : Nat)
  | phase (epoch sat : Nat)
  | range (epoch sat : Nat)
  | doppler (epoch sat : Nat)
  | accelWalk (sample : Nat) (i : Fin 3)
  | gyroWalk (sample : Nat) (i : Fin 3)
  | accel (sample : Nat) (i : Fin 3)
  | gyro (sample : Nat) (i : Fin 3)

/-- The number of the sequence that a source of noise uses, with `nSat` satellites. -/
def draw (nSat : Nat) : Source → Nat
  | .clockInit i => i
  | .input j i => 2 * j + i
  | .clockWalk e => e
  | .phase e s => 3 * (nSat * e + s)
  | .range e s => 3 * (nSat * e + s) + 1
  | .doppler e s => 3 * (nSat * e + s) + 2
  | .accelWalk m i => 12 * m + i
  | .gyroWalk m i => 12 * m + 3 + i
  | .accel m i => 12 * m + 6 + i
  | .gyro m i => 12 * m + 9 + i

variable (o : Opt) (nSat : Nat) (z : Nat → ℝ) (ra rg : Fin 3 → ℝ)

/-- The rate of the clock after `e` epochs `D` seconds apart, and its bias. -/
noncomputable def clockRate (D : ℝ) (e : Nat) : ℝ :=
  o.clockWalk * z 1 + ∑ m ∈ Finset.range e, o.clockWalk * z (draw nSat (.clockWalk m)) * D
noncomputable def clockBias (D : ℝ) (e : Nat) : ℝ :=
  o.clockInit * z 0 + ∑ m ∈ Finset.range e, (clockRate o nSat z D m + clockRate o nSat z D (m + 1)) / 2 * D

/-- The biases after `m` samples `D` seconds apart. -/
noncomputable def accelBias (D : ℝ) (m : Nat) (i : Fin 3) : ℝ :=
  o.accelWalk * ra i + ∑ j ∈ Finset.range m, z (draw nSat (.accelWalk j i)) * o.accelNoise * D
noncomputable def gyroBias (D : ℝ) (m : Nat) (i : Fin 3) : ℝ :=
  o.gyroWalk * rg i + ∑ j ∈ Finset.range m, z (draw nSat (.gyroWalk j i)) * o.gyroNoise * D

/-- The records of step `j + 1` of `k` nanoseconds from `a`, with GNSS every `p` and IMU every `q`
steps. -/
noncomputable def records (a k : Int) (p q j : Nat) : List Rec :=
  let t := timeAt (a + (j + 1 : Nat) * k)
  let D : ℝ := (p * k : ℝ) / 10 ^ 9
  let E : ℝ := (q * k : ℝ) / 10 ^ 9
  let e := (j + 1) / p
  let m := (j + 1) / q
  [.input (z (draw nSat (.input j 0)) * o.inputNoise) (z (draw nSat (.input j 1)) * o.inputNoise)] ++
  (if p ∣ j + 1 then [.gnss t ((List.range nSat).map fun s =>
    (z (draw nSat (.phase (e - 1) s)) * o.phaseStd, z (draw nSat (.range (e - 1) s)) * o.rangeStd,
      z (draw nSat (.doppler (e - 1) s)) * o.dopplerStd))] else []) ++
  (if q ∣ j + 1 then [.imu t (accelBias o nSat z ra E m) (gyroBias o nSat z rg E m)
    (fun i => z (draw nSat (.accel (m - 1) i)) * o.accelNoise)
    (fun i => z (draw nSat (.gyro (m - 1) i)) * o.gyroNoise)] else []) ++
  [.truth t (clockBias o nSat z D e) (clockRate o nSat z D e)]

end Verif.SimRunSpec
