import Verif.Model.DQuat
import Verif.Model.So3

/-!
`models/imu_model.cxx` and `models/imu_state.cxx` over the reals.

Simplifications: times are whole nanoseconds (`ℤ`, `UTCTime` with normalised fields and no overflow), `toSec`
and all other arithmetic is exact, the `isFinite` checks always pass.  A failed `check` or an access outside the
history is `none`.  Of `finished` only the matrix it inverts is modelled.
-/

namespace Verif.Model.Imu

open Verif.Model.Lie Matrix

/-- `meas::ImuSample` (common/measurements/imu.h). -/
structure Sample where
  t : ℤ
  accel : V3
  gyro : V3

/-- `ImuState` (imu_state.h 34-38). -/
structure IState where
  alpha : V3
  beta : V3
  gamma : Quat

/-- `ImuErrorState` (imu_state.h 10-24). -/
structure IErr where
  alpha : V3
  beta : V3
  gamma : V3

/-- The nine coordinates of an `ImuErrorState`: component, then axis. -/
abbrev I9 := Fin 3 × Fin 3
/-- The six coordinates of a bias or of an input: accelerometer or gyroscope, then axis. -/
abbrev I6 := Fin 2 × Fin 3

/-- An `ImuErrorState` from its nine coordinates and back (imu_state.h 14-24). -/
def IErr.ofVec (v : I9 → ℝ) : IErr := ⟨fun i => v (0, i), fun i => v (1, i), fun i => v (2, i)⟩
def IErr.toVec (e : IErr) : I9 → ℝ := fun p => (![e.alpha, e.beta, e.gamma] : Fin 3 → V3) p.1 p.2

/-- `dstate * s` for a scalar. -/
def IErr.scale (e : IErr) (s : ℝ) : IErr := ⟨s • e.alpha, s • e.beta, s • e.gamma⟩

/-- `ImuState::setIdentity` (imu_state.cxx 15-20). -/
def IState.identity : IState := ⟨0, 0, Quat.identity⟩

/-- `ImuState::operator+` (imu_state.cxx 29-36). -/
noncomputable def IState.plus (x : IState) (d : IErr) : IState :=
  ⟨x.alpha + d.alpha, x.beta + d.beta, x.gamma.otimes (Quat.exp d.gamma)⟩

/-- `ImuState::operator+=` (imu_state.cxx 46-52). -/
noncomputable def IState.plusAssign (x : IState) (d : IErr) : IState :=
  ⟨x.alpha + d.alpha, x.beta + d.beta, x.gamma.otimes (Quat.exp d.gamma)⟩

/-- `ImuState::operator-` (imu_state.cxx 62-69). -/
noncomputable def IState.minus (x y : IState) : IErr :=
  ⟨x.alpha - y.alpha, x.beta - y.beta, (y.gamma.inverse.otimes x.gamma).log⟩

/-- An accelerometer and a gyroscope bias (`Vec6`, `accelBias` and `gyroBias`, imu_model.h 70-73). -/
structure Bias where
  accel : V3
  gyro : V3

def Bias.toVec (b : Bias) : I6 → ℝ := fun p => (![b.accel, b.gyro] : Fin 2 → V3) p.1 p.2

/-- `GRAVITY` (imu_model.cxx 13). -/
noncomputable def GRAVITY : V3 := (9.80665 : ℝ) • ![0, 0, 1]

/-- `ImuModel::errorStateDynamics` (imu_model.cxx 27-37), the input noise being a pair. -/
def errorStateDynamics (b : Bias) (s : IState) (d : IErr) (accel gyro : V3) (n : Bias) : IErr :=
  { alpha := d.beta
    beta := -s.gamma.rota (cross (accel - b.accel) d.gamma + n.accel)
    gamma := -cross (gyro - b.gyro) d.gamma - n.gyro }

/-- `ImuModel::dynamics`, the derivative of the state (imu_model.cxx 39-50). -/
def dynamics (b : Bias) (s : IState) (accel gyro : V3) : IErr :=
  ⟨s.beta, s.gamma.rota (accel - b.accel), gyro - b.gyro⟩

/-- The matrix `A` of `ImuModel::dynamics` (imu_model.cxx 59-69). -/
def dynA (b : Bias) (s : IState) (accel gyro : V3) : Matrix I9 I9 ℝ :=
  of fun p q => (![![0, 1, 0],
    ![0, 0, -(s.gamma.R.transpose * skew (accel - b.accel))],
    ![0, 0, -skew (gyro - b.gyro)]] : Fin 3 → Fin 3 → M3) p.1 q.1 p.2 q.2

/-- The matrix `B` of `ImuModel::dynamics` (imu_model.cxx 71-78). -/
def dynB (s : IState) : Matrix I9 I6 ℝ :=
  of fun p q => (![![0, 0], ![-s.gamma.R.transpose, 0], ![0, -1]] : Fin 3 → Fin 2 → M3) p.1 q.1 p.2 q.2

/-- `ImuModel::History` (imu_model.h 81-87). -/
structure History where
  z : Sample
  state : IState
  cov : Matrix I9 I9 ℝ
  dbias : Matrix I9 I6 ℝ

/-- `ImuModel` (imu_model.h 75-90).  `R_` is a reference in the code; it is assumed to outlive the model. -/
structure Model where
  bias : Bias
  R : I6 → ℝ
  hist : List History

/-- `ImuModel::ImuModel` (imu_model.cxx 15-24). -/
def Model.new (z0 : Sample) (bias : Bias) (R : I6 → ℝ) : Model :=
  ⟨bias, R, [⟨z0, IState.identity, 0, 0⟩]⟩

/-- `UTCTime::toSec` of a difference of `n` nanoseconds. -/
noncomputable def toSec (n : ℤ) : ℝ := (n : ℝ) / 1e9

/-- `TIME_QUANTIZATION` and half of it, in nanoseconds (common/defs.h, quantized_time.h 20). -/
def QUANT : ℤ := 100000
def HALF : ℤ := 50000

/-- The entry pushed by `ImuModel::integrate` after the entry `b` (imu_model.cxx 92-114). -/
noncomputable def step (bias : Bias) (R : I6 → ℝ) (b : History) (imu : Sample) : History :=
  let dt := toSec (imu.t - b.z.t)
  let accel := (1 / 2 : ℝ) • (imu.accel + b.z.accel)
  let gyro := (1 / 2 : ℝ) • (imu.gyro + b.z.gyro)
  let Adt := dt • dynA bias b.state accel gyro
  let A := 1 + Adt * (1 + (0.5 : ℝ) • Adt)
  let B := dt • dynB b.state
  { z := imu
    state := b.state.plus ((dynamics bias b.state accel gyro).scale dt)
    cov := A * b.cov * Aᵀ + B * diagonal R * Bᵀ
    dbias := A * b.dbias + B }

/-- `ImuModel::integrate` (imu_model.cxx 81-121). -/
noncomputable def Model.integrate (m : Model) (imu : Sample) : Option Model :=
  match m.hist.getLast? with
  | none => none
  | some b => if QUANT ≤ imu.t - b.z.t then some { m with hist := m.hist ++ [step m.bias m.R b imu] } else none

/-- The covariance `ImuModel::finished` inverts (imu_model.cxx 120-132); `none` when its `check` fails. -/
noncomputable def Model.finishedCov (m : Model) : Option (Matrix I9 I9 ℝ) :=
  match m.hist.getLast? with
  | none => none
  | some b => if 0 < m.hist.length - 1 then
      some (if m.hist.length - 1 ≤ 2 then b.cov + (1e-15 : ℝ) • (1 : Matrix I9 I9 ℝ) else b.cov) else none

/-- `integrate` of several samples. -/
noncomputable def Model.integrateAll (m : Model) (l : List Sample) : Option Model := l.foldlM Model.integrate m

/-- `t0`, `tf`, `delta_t`, `state`, `dStatedBias` (imu_model.h 57-68) as functions of the two ends. -/
def Model.t0 (m : Model) : Option ℤ := m.hist.head?.map (·.z.t)
def Model.tf (m : Model) : Option ℤ := m.hist.getLast?.map (·.z.t)

/-- The values `computeEndState` and `Evaluate` read. -/
structure Pre where
  t0 : ℤ
  tf : ℤ
  state : IState
  dbias : Matrix I9 I6 ℝ

def Model.pre (m : Model) : Option Pre :=
  match m.hist.head?, m.hist.getLast? with
  | some f, some b => some ⟨f.z.t, b.z.t, b.state, b.dbias⟩
  | _, _ => none

noncomputable def Pre.dt (p : Pre) : ℝ := toSec (p.tf - p.t0)

/-- The constructor `DQuat(Quat, Vec3)` (dquat.h 95-99). -/
noncomputable def pose (r : Quat) (t : V3) : DQuat := DQuat.ofQT r t

/-- `ImuModel::computeEndState` (imu_model.cxx 267-295): the pose, the velocity and whether `Error::none` is
returned; `none` when a `check` fails. -/
noncomputable def Pre.computeEndState (p : Pre) (start : DQuat) (v : V3) : Option (DQuat × V3 × Bool) :=
  open Classical in
  if |1 - p.state.gamma.norm| < 1e-8 ∧ |1 - start.r.norm| < 1e-8 ∧ p.t0 ≤ p.tf then
    if p.tf = p.t0 then some (start, v, false)
    else
      let dt := p.dt
      let tj := start.translation + start.r.rota (dt • v + p.state.alpha) + (0.5 * dt * dt) • GRAVITY
      some (pose (start.r.otimes p.state.gamma) tj,
        p.state.gamma.rotp (v + dt • start.r.rotp GRAVITY + p.state.beta), true)
  else none

/-- The adjustment and the adjusted state of `ImuModel::Evaluate` (imu_model.cxx 168-169). -/
noncomputable def Pre.adjustment (p : Pre) (b : Bias) : IErr := .ofVec (p.dbias.mulVec b.toVec)
noncomputable def Pre.adjusted (p : Pre) (b : Bias) : IState := p.state.plus (p.adjustment b)

/-- The rotation error of `ImuModel::Evaluate` (imu_model.cxx 180-181). -/
def rotError (gamma : Quat) (start fin : DQuat) : Quat := gamma.inverse.otimes (start.r.inverse.otimes fin.r)

/-- The residual of `ImuModel::Evaluate` (imu_model.cxx 156-183). -/
noncomputable def Pre.residual (p : Pre) (start fin : DQuat) (v v' : V3) (b : Bias) : IErr :=
  let s := p.adjusted b
  let dt := p.dt
  { alpha := start.r.rotp (fin.translation - start.translation - (0.5 * dt * dt) • GRAVITY) - dt • v - s.alpha
    beta := s.gamma.rota v' - v - dt • start.r.rotp GRAVITY - s.beta
    gamma := (rotError s.gamma start fin).logJ }

/-- A 9×6 Jacobian with respect to a pose (`PoseJacobian`, imu_model.cxx 139-154, before
`linearize_local_param`): three rows of blocks, rotation and position columns. -/
structure PoseJac where
  rot : Fin 3 → M3
  pos : Fin 3 → M3

/-- Its product with an error of the pose. -/
def PoseJac.apply (J : PoseJac) (ξ : V6) : IErr :=
  ⟨(J.rot 0).mulVec ξ.w + (J.pos 0).mulVec ξ.v, (J.rot 1).mulVec ξ.w + (J.pos 1).mulVec ξ.v,
    (J.rot 2).mulVec ξ.w + (J.pos 2).mulVec ξ.v⟩

/-- `_jac[0]`, start pose (imu_model.cxx 187-201); `L` is `log_jac`. -/
noncomputable def Pre.startJac (p : Pre) (start fin : DQuat) (b : Bias) (L : M3) : PoseJac :=
  let dt := p.dt
  { rot := ![skew (start.r.rotp (fin.translation - start.translation - (0.5 * dt * dt) • GRAVITY)),
      -(dt • skew (start.r.rotp GRAVITY)), -(L * (p.adjusted b).gamma.R * start.r.R)]
    pos := ![-start.r.R, 0, 0] }

/-- `_jac[1]`, end pose (imu_model.cxx 203-216). -/
noncomputable def Pre.endJac (p : Pre) (start : DQuat) (b : Bias) (L : M3) : PoseJac :=
  { rot := ![0, 0, L * (p.adjusted b).gamma.R * start.r.R]
    pos := ![start.r.R, 0, 0] }

/-- `_jac[2]` and `_jac[3]`, start and end velocity (imu_model.cxx 218-234). -/
noncomputable def Pre.startVelJac (p : Pre) : Fin 3 → M3 := ![-(p.dt • (1 : M3)), -1, 0]
noncomputable def Pre.endVelJac (p : Pre) (b : Bias) : Fin 3 → M3 := ![0, (p.adjusted b).gamma.R.transpose, 0]

/-- `_jac[4]`, bias (imu_model.cxx 236-264). -/
noncomputable def Pre.biasJac (p : Pre) (start fin : DQuat) (v' : V3) (b : Bias) (L : M3) : Matrix I9 I6 ℝ :=
  let s := p.adjusted b
  let E := rotError s.gamma start fin
  let byAdjusted : Matrix I9 I9 ℝ := of fun p q => (![![-1, 0, 0],
    ![0, -1, -(s.gamma.R.transpose * skew v')], ![0, 0, -(E.Ad * L).transpose]] : Fin 3 → Fin 3 → M3) p.1 q.1 p.2 q.2
  let byState : Matrix I9 I9 ℝ := of fun p' q => (![![1, 0, 0], ![0, 1, 0],
    ![0, 0, (Quat.expJac .left (p.adjustment b).gamma).transpose]] : Fin 3 → Fin 3 → M3) p'.1 q.1 p'.2 q.2
  byAdjusted * byState * p.dbias

/-- `ImuModel::split` (imu_model.cxx 297-339): the first part (the object itself) and the second.  Comparisons
with `t_split` are those of `QuantizedTime` (quantized_time.cxx 5-69). -/
noncomputable def Model.split (m : Model) (t : ℤ) : Option (Model × Model) :=
  match m.t0, m.tf with
  | some t0, some tf =>
    if t - t0 > HALF ∧ tf - t > HALF then
      let pre := m.hist.takeWhile fun h => h.z.t - t ≤ HALF
      let post := m.hist.dropWhile fun h => h.z.t - t ≤ HALF
      match pre.getLast?, post.head? with
      | some prev, some it =>
        let scale := toSec (t - prev.z.t) / toSec (it.z.t - prev.z.t)
        let z : Sample := ⟨t, scale • it.z.accel + (1 - scale) • prev.z.accel,
          scale • it.z.gyro + (1 - scale) • prev.z.gyro⟩
        match (Model.new z m.bias m.R).integrateAll (post.map (·.z)) with
        | none => none
        | some second =>
          if HALF < |t - prev.z.t| then
            match ({ m with hist := pre } : Model).integrate z with
            | none => none
            | some first => some (first, second)
          else some ({ m with hist := pre }, second)
      | _, _ => none
    else none
  | _, _ => none

end Verif.Model.Imu
