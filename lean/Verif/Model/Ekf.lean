import Verif.Model.DQuat
import Mathlib.LinearAlgebra.Matrix.NonsingularInverse
import Mathlib.LinearAlgebra.Matrix.Determinant.Basic
import Mathlib.Data.Fintype.Sigma
import Mathlib.Data.Sigma.Order

/-!
Model of the Kalman filter produced by the code generator `core/ekf/ekf_gen` for `core/ekf/rtk_ekf.yaml`,
and of the hand-written models `core/ekf/rtk_ekf_impl.cxx`.  Doubles are real numbers.

The filter state is a list of `n` components (`state_composition`); component `i` has `d i` error
coordinates at the moment (a variable component such as `sd` has `base_dx * num` of them), so an index of
the covariance is a pair (component, coordinate).  The `isFinite` checks never fail on real numbers and are
left out; they are mentioned where uninitialised memory is read.
-/

namespace Verif.Model.Ekf

open Verif.Model.Lie Matrix

/-- An index of the error state: a component and one of its coordinates. -/
abbrev Idx {n : ℕ} (d : Fin n → ℕ) := Σ i : Fin n, Fin (d i)

/-- The memory of a covariance: only blocks with row component ≤ column component exist in the C++ class
(`create_symbolic_covariance`, ekf_gen_matrix_manip.py 80-101).  The entries below are never read. -/
abbrev Stored {n : ℕ} (d : Fin n → ℕ) := Matrix (Idx d) (Idx d) ℝ

section filter
variable {n : ℕ} {d : Fin n → ℕ}

/-- What the generated code reads as the covariance: a block below the diagonal is the transpose of the
stored one (ekf_gen_matrix_manip.py 94-98). -/
def full (S : Stored d) : Matrix (Idx d) (Idx d) ℝ :=
  of fun p q => if p.1 ≤ q.1 then S p q else S q p

/-- `commit_mat(M, P, symmetric=True)`: assign the blocks with `c ≥ r` only
(ekf_gen_matrix_manip.py 210-224). -/
def commitSym (M : Matrix (Idx d) (Idx d) ℝ) (S : Stored d) : Stored d :=
  of fun p q => if p.1 ≤ q.1 then M p q else S p q

/-- `commit_mat_inplace_modify(M, P, '+', True)` (ekf_gen_matrix_manip.py 183-202). -/
def addSym (M : Matrix (Idx d) (Idx d) ℝ) (S : Stored d) : Stored d :=
  of fun p q => if p.1 ≤ q.1 then S p q + M p q else S p q

/-- `commit_mat_inplace_modify(M, P, '-', True)` (ekf_gen_matrix_manip.py 183-202). -/
def subSym (M : Matrix (Idx d) (Idx d) ℝ) (S : Stored d) : Stored d :=
  of fun p q => if p.1 ≤ q.1 then S p q - M p q else S p q

/-- `Abar = I + A * dt + A * A * dt * dt * half` (ekf_gen_matrix_manip.py 309). -/
noncomputable def abar (A : Matrix (Idx d) (Idx d) ℝ) (dt : ℝ) : Matrix (Idx d) (Idx d) ℝ :=
  1 + dt • A + (dt * dt * 0.5) • (A * A)

/-- `Bbar = (I + A * dt * half) * B * dt` (ekf_gen_matrix_manip.py 310). -/
noncomputable def bbar {m : ℕ} (A : Matrix (Idx d) (Idx d) ℝ) (B : Matrix (Idx d) (Fin m) ℝ) (dt : ℝ) :
    Matrix (Idx d) (Fin m) ℝ :=
  dt • ((1 + (dt * 0.5) • A) * B)

/-- The covariance part of `predict`: `Abar * Pin * Abar.T + Bbar * Qu * Bbar.T` committed to the output
memory, then `+= Qx` (ekf_gen_matrix_manip.py 298-332, ekf_gen_templates.py 649-657).  `Qu` and `Qx` are
vectors used `.asDiagonal()`.  `out` is what the output memory held before. -/
noncomputable def predictCov {m : ℕ} (A : Matrix (Idx d) (Idx d) ℝ) (B : Matrix (Idx d) (Fin m) ℝ) (dt : ℝ)
    (Qx : Idx d → ℝ) (Qu : Fin m → ℝ) (P out : Stored d) : Stored d :=
  addSym (diagonal Qx)
    (commitSym (abar A dt * full P * (abar A dt)ᵀ + bbar A B dt * diagonal Qu * (bbar A B dt)ᵀ) out)

/-- How `doUpdate` ends. -/
inductive Outcome
  | ok
  | empty
  | gated
  /-- the innovation matrix is singular: Eigen's `inverse()` returns infinities or NaNs -/
  | singular
deriving DecidableEq, Repr

/-- A residual of declared size `M` of which `m` entries belong to the measurement: `res.head(size)`. -/
def head {m M : ℕ} (h : m ≤ M) (r : Fin M → ℝ) : Fin m → ℝ := fun i => r (Fin.castLE h i)

/-- The local variable `Sinv`.  It has the maximal size `M`; for a measurement of fixed size `m = M`, for
one of variable size only `Sinv.block(0, 0, m, m)` is assigned and the rest is whatever the stack held,
`junk` (ekf_gen_matrix_manip.py 398-406). -/
def sinvMem {m M : ℕ} (S : Matrix (Fin m) (Fin m) ℝ) (junk : Matrix (Fin M) (Fin M) ℝ) :
    Matrix (Fin M) (Fin M) ℝ :=
  of fun i j => if h : i.1 < m ∧ j.1 < m then S ⟨i.1, h.1⟩ ⟨j.1, h.2⟩ else junk i j

/-- The innovation covariance `H * PHT + R` (ekf_gen_matrix_manip.py 388-395). -/
def innov {m : ℕ} (P : Matrix (Idx d) (Idx d) ℝ) (H : Matrix (Fin m) (Idx d) ℝ) (R : Fin m → ℝ) :
    Matrix (Fin m) (Fin m) ℝ := H * (P * Hᵀ) + diagonal R

/-- `const double mahal = res.transpose() * Sinv * res` (ekf_gen_templates.py 692): the whole `Sinv` and the
whole `res`. -/
noncomputable def mahal {m M : ℕ} (Sinv : Matrix (Fin m) (Fin m) ℝ) (junk : Matrix (Fin M) (Fin M) ℝ)
    (res : Fin M → ℝ) : ℝ := res ⬝ᵥ (sinvMem Sinv junk).mulVec res

/-- `K = PHT * Sinv` (ekf_gen_matrix_manip.py 411). -/
noncomputable def gain {m : ℕ} (P : Matrix (Idx d) (Idx d) ℝ) (H : Matrix (Fin m) (Idx d) ℝ) (R : Fin m → ℝ) :
    Matrix (Idx d) (Fin m) ℝ := P * Hᵀ * (innov P H R)⁻¹

/-- A snapshot without its input (ekf_gen_templates.py 174-179). -/
structure Snap (X : Type) {n : ℕ} (d : Fin n → ℕ) where
  x : X
  cov : Stored d

/-- The parameters of a measurement type: `MAX_MAHAL`, `DISABLED`, and whether its size varies
(ekf_gen.py 340-360). -/
structure MeasType where
  maxMahal : ℝ
  disabled : Bool
  varSize : Bool

/-- `doUpdate` (ekf_gen_templates.py 669-720), with `plus` the state's `operator+=`. -/
noncomputable def doUpdate {X : Type} (plus : X → (Idx d → ℝ) → X) (ty : MeasType) {m M : ℕ} (h : m ≤ M)
    (H : Matrix (Fin m) (Idx d) ℝ) (R : Fin m → ℝ) (res : Fin M → ℝ) (junk : Matrix (Fin M) (Fin M) ℝ)
    (s : Snap X d) : Snap X d × Outcome :=
  open Classical in
  if ty.varSize = true ∧ m = 0 then (s, .empty) else
  if (innov (full s.cov) H R).det = 0 then (s, .singular) else
  if ty.maxMahal < mahal (innov (full s.cov) H R)⁻¹ junk res then (s, .gated) else
  if ty.disabled = true then (s, .ok) else
  (⟨plus s.x ((gain (full s.cov) H R).mulVec (head h res)),
    subSym (gain (full s.cov) H R * (full s.cov * Hᵀ)ᵀ) s.cov⟩, .ok)

end filter

/-! ### The state of `rtk_ekf.yaml` -/

abbrev V2 := Fin 2 → ℝ

/-- `ekf::State` (ekf_gen_templates.py 66-98 for `rtk_ekf.yaml` 15-25).  The time is a number of
seconds, `QuantizedTime` being exact here; `sd` is `std::array<Vec1, 30>` of which `numSd` are in use. -/
@[ext]
structure State where
  t : ℝ
  pose : DQuat
  vel : V3
  accBias : V3
  gyroBias : V3
  gpsClk : V2
  galClk : V2
  gloClk : V2
  pB2g : V3
  TI2e : DQuat
  numSd : ℕ
  sd : ℕ → ℝ

/-- `ErrorState` (ekf_gen_templates.py 32-64). -/
@[ext]
structure ErrorState where
  pose : V6
  vel : V3
  accBias : V3
  gyroBias : V3
  gpsClk : V2
  galClk : V2
  gloClk : V2
  pB2g : V3
  TI2e : V6
  sd : ℕ → ℝ

/-- `Input` (rtk_ekf.yaml 61-63). -/
@[ext]
structure Input where
  accel : V3
  gyro : V3

/-- A default-constructed time is zero (utctime.cxx 18-22). -/
def defaultTime : ℝ := 0

/-- `State::operator=` and with it the copy constructor: `copy_state` (ekf_gen_state.py 217-230) lists the
components, the counters and the used elements of the arrays.  The time `t` is not a component. -/
def State.assign (self other : State) : State :=
  { t := self.t
    pose := other.pose, vel := other.vel, accBias := other.accBias, gyroBias := other.gyroBias
    gpsClk := other.gpsClk, galClk := other.galClk, gloClk := other.gloClk
    pB2g := other.pB2g, TI2e := other.TI2e, numSd := other.numSd
    sd := fun i => if i < other.numSd then other.sd i else self.sd i }

/-- `State(const State&)` (ekf_gen_templates.py 253-256): assignment to a default-constructed object,
whose remaining members hold `fresh`. -/
def State.copy (fresh other : State) : State := State.assign { fresh with t := defaultTime } other

/-- `State::operator+` (ekf_gen_templates.py 264-270, `boxplus_impl` ekf_gen_state.py 375-402): manifold
components are multiplied by the exponential from the right.  The result is a new object `xp`. -/
noncomputable def State.plus (fresh x : State) (dx : ErrorState) : State :=
  { t := defaultTime
    pose := x.pose.otimes (DQuat.exp dx.pose)
    vel := x.vel + dx.vel, accBias := x.accBias + dx.accBias, gyroBias := x.gyroBias + dx.gyroBias
    gpsClk := x.gpsClk + dx.gpsClk, galClk := x.galClk + dx.galClk, gloClk := x.gloClk + dx.gloClk
    pB2g := x.pB2g + dx.pB2g
    TI2e := x.TI2e.otimes (DQuat.exp dx.TI2e)
    numSd := x.numSd
    sd := fun i => if i < x.numSd then x.sd i + dx.sd i else fresh.sd i }

/-- `State::operator+=` (`self_plus_impl`, ekf_gen_state.py 405-428). -/
noncomputable def State.plusAssign (x : State) (dx : ErrorState) : State :=
  { x with
    pose := x.pose.otimes (DQuat.exp dx.pose)
    vel := x.vel + dx.vel, accBias := x.accBias + dx.accBias, gyroBias := x.gyroBias + dx.gyroBias
    gpsClk := x.gpsClk + dx.gpsClk, galClk := x.galClk + dx.galClk, gloClk := x.gloClk + dx.gloClk
    pB2g := x.pB2g + dx.pB2g
    TI2e := x.TI2e.otimes (DQuat.exp dx.TI2e)
    sd := fun i => if i < x.numSd then x.sd i + dx.sd i else x.sd i }

/-- `ErrorState::operator*` (ekf_gen_state.py 233-242). -/
def ErrorState.scale (dx : ErrorState) (s : ℝ) : ErrorState :=
  ⟨⟨s • dx.pose.w, s • dx.pose.v⟩, s • dx.vel, s • dx.accBias, s • dx.gyroBias, s • dx.gpsClk,
    s • dx.galClk, s • dx.gloClk, s • dx.pB2g, ⟨s • dx.TI2e.w, s • dx.TI2e.v⟩, fun i => dx.sd i * s⟩

/-- The state part of `predict` (ekf_gen_templates.py 621-647): `none` where a `check` fails. -/
noncomputable def predictState (out fresh x : State) (tNew : ℝ) (xdot : ErrorState) : Option State :=
  open Classical in
  if x.t < tNew then
    some { State.assign out (State.plus fresh x (xdot.scale (tNew - x.t))) with t := x.t + (tNew - x.t) }
  else none

/-! ### Dynamics (rtk_ekf_impl.cxx 9-69) -/

/-- `Vec3::Unit(2) * 9.80665` (rtk_ekf_impl.cxx 13). -/
def gravity : V3 := ![0, 0, 9.80665]

/-- The derivative `xdot` of `dynamics` (rtk_ekf_impl.cxx 9-13, 40-56). -/
def dynamics (x : State) (u : Input) : ErrorState :=
  { pose := ⟨u.gyro - x.gyroBias, x.vel⟩
    vel := x.pose.r.rota gravity + (u.accel - x.accBias)
    accBias := 0, gyroBias := 0
    gpsClk := ![x.gpsClk 1, 0], galClk := ![x.galClk 1, 0], gloClk := ![x.gloClk 1, 0]
    pB2g := 0, TI2e := ⟨0, 0⟩, sd := fun _ => 0 }

/-- The product of the state Jacobian `dxdx` with an error state (rtk_ekf_impl.cxx 15-31).  Blocks that
are not assigned stay zero after `setZero` (or are not part of `StateJac`). -/
def stateJac (x : State) (u : Input) (dx : ErrorState) : ErrorState :=
  { pose := ⟨(-skew (u.gyro - x.gyroBias)).mulVec dx.pose.w + (-1 : M3).mulVec dx.gyroBias,
      (-skew x.vel).mulVec dx.pose.w + dx.vel⟩
    vel := (-skew (u.accel - x.accBias)).mulVec dx.pose.w + (-1 : M3).mulVec dx.accBias
    accBias := 0, gyroBias := 0
    gpsClk := 0, galClk := 0, gloClk := 0
    pB2g := 0, TI2e := ⟨0, 0⟩, sd := fun _ => 0 }

/-- The product of the input Jacobian `dxdu` with an input (rtk_ekf_impl.cxx 33-38). -/
def inputJac (eta : Input) : ErrorState :=
  { pose := ⟨eta.gyro, 0⟩, vel := eta.accel
    accBias := 0, gyroBias := 0, gpsClk := 0, galClk := 0, gloClk := 0, pB2g := 0, TI2e := ⟨0, 0⟩
    sd := fun _ => 0 }

/-- `errorStateDynamics` (rtk_ekf_impl.cxx 59-69). -/
def errorStateDynamics (dx : ErrorState) (x : State) (u eta : Input) : ErrorState :=
  { pose := ⟨-(cross (u.gyro - x.gyroBias) dx.pose.w) - dx.gyroBias + eta.gyro,
      dx.vel - cross x.vel dx.pose.w⟩
    vel := (-dx.accBias + eta.accel) - cross (u.accel - x.accBias) dx.pose.w
    accBias := 0, gyroBias := 0, gpsClk := 0, galClk := 0, gloClk := 0, pB2g := 0, TI2e := ⟨0, 0⟩
    sd := fun _ => 0 }

/-! ### Measurement models (rtk_ekf_impl.cxx 71-223) -/

/-- The antenna position in ECEF (rtk_ekf_impl.cxx 77-78). -/
def antPos (x : State) : V3 := x.TI2e.transformp (x.pose.transforma x.pB2g)

/-- The antenna velocity in the body frame (rtk_ekf_impl.cxx 79). -/
def antVelB (x : State) (u : Input) : V3 := cross u.gyro x.pB2g + x.vel

/-- `q_b2e` (rtk_ekf_impl.cxx 80). -/
def qB2e (x : State) : Quat := x.pose.r.inverse.otimes x.TI2e.r

/-- The antenna velocity in ECEF (rtk_ekf_impl.cxx 82). -/
def antVel (x : State) (u : Input) : V3 := (qB2e x).rotp (antVelB x u)

/-- `h<pointPosMeas>` (rtk_ekf_impl.cxx 71-107): position and velocity residual. -/
def hPointPos (z : V6) (x : State) (u : Input) : V6 := ⟨z.w - antPos x, z.v - antVel x u⟩

/-- A 6×6 Jacobian block as four 3×3 blocks, a 6×3 block as two. -/
structure PointPosJac where
  dPose : M6
  dPB2g : M3 × M3
  dTI2e : M6
  dVel : M3 × M3

/-- `rotp` and `rota` applied to each column of a matrix (quat.h 110-118 on `Mat3`). -/
def rotpM (q : Quat) (m : M3) : M3 := of fun i j => q.rotp (fun k => m k j) i
def rotaM (q : Quat) (m : M3) : M3 := of fun i j => q.rota (fun k => m k j) i

/-- The Jacobian of `h<pointPosMeas>` (rtk_ekf_impl.cxx 86-104). -/
def pointPosJac (x : State) (u : Input) : PointPosJac :=
  { dPose := fromBlocks (rotpM (qB2e x) (skew x.pB2g)) (-(qB2e x).R)
      (rotpM x.TI2e.r (rotaM x.pose.r (skew (antVelB x u)))) 0
    dPB2g := (-(qB2e x).R, -rotpM (qB2e x) (skew u.gyro))
    dTI2e := fromBlocks (-skew (antPos x)) 1 (-skew (x.TI2e.r.rotp (x.pose.r.rota (antVelB x u)))) 0
    dVel := (0, -(qB2e x).R) }

/-- The product of the Jacobian with an error state. -/
def PointPosJac.apply (J : PointPosJac) (dx : ErrorState) : V6 :=
  ⟨(J.dPose.apply dx.pose).w + J.dPB2g.1.mulVec dx.pB2g + (J.dTI2e.apply dx.TI2e).w + J.dVel.1.mulVec dx.vel,
   (J.dPose.apply dx.pose).v + J.dPB2g.2.mulVec dx.pB2g + (J.dTI2e.apply dx.TI2e).v + J.dVel.2.mulVec dx.vel⟩

/-- `h<fixAndHoldMeas>` (rtk_ekf_impl.cxx 197-223): `none` when the `check` on the sizes fails.  The
residual has 30 entries, those from `numSd` on being uninitialised (`junk`). -/
def hFixHold (z : List ℝ) (x : State) (junk : Fin 30 → ℝ) : Option (Fin 30 → ℝ) :=
  if x.numSd = z.length then
    some fun i => if i.1 < x.numSd then z.getD i.1 0 - x.sd i.1 else junk i
  else none

/-- Its Jacobian with respect to `sd`: minus the identity (rtk_ekf_impl.cxx 216-220). -/
def fixHoldJac (k : ℕ) : Matrix (Fin k) (Fin k) ℝ := -1

/-- Error coordinates of each component of the state with `k` single differences, in the order of
`rtk_ekf.yaml` 15-25. -/
def dims (k : ℕ) : Fin 10 → ℕ := ![6, 3, 3, 3, 2, 2, 2, k, 3, 6]

/-- The Jacobian as a row of blocks of the whole error state: only the block of component 7, `sd`, is there
(`create_symbolic_measurement_jacobian`, ekf_gen_matrix_manip.py 334-353). -/
def fixHoldH (k : ℕ) : Matrix (Fin k) (Idx (dims k)) ℝ :=
  of fun i p => if p.1 = 7 then (if h : p.2.1 < k then fixHoldJac k i ⟨p.2.1, h⟩ else 0) else 0

/-- Coordinate `i` of component `c` of an error vector. -/
def comp {k : ℕ} (v : Idx (dims k) → ℝ) (c : Fin 10) (i : ℕ) : ℝ :=
  if h : i < dims k c then v ⟨c, ⟨i, h⟩⟩ else 0

/-- The error state `dx = K * res` as components (`create_symbolic_error_state`,
ekf_gen_matrix_manip.py 25-38). -/
def ErrorState.ofVec {k : ℕ} (v : Idx (dims k) → ℝ) : ErrorState :=
  { pose := ⟨fun i => comp v 0 i, fun i => comp v 0 (3 + i)⟩
    vel := fun i => comp v 1 i, accBias := fun i => comp v 2 i, gyroBias := fun i => comp v 3 i
    gpsClk := fun i => comp v 4 i, galClk := fun i => comp v 5 i, gloClk := fun i => comp v 6 i
    sd := fun i => comp v 7 i
    pB2g := fun i => comp v 8 i
    TI2e := ⟨fun i => comp v 9 i, fun i => comp v 9 (3 + i)⟩ }

/-- `fixAndHoldMeas`: variable size, enabled, gating probability one, i.e. the limit is the largest double
(rtk_ekf.yaml 55-59, ekf_gen.py 463-474). -/
def fixHoldType : MeasType := ⟨1.7976931348623157e308, false, true⟩

/-- `update<fixAndHoldMeas>` (ekf_gen_templates.py 577-603): `none` when a `check` fails. -/
noncomputable def updateFixHold (z : List ℝ) (R : ℝ) (resJunk : Fin 30 → ℝ)
    (junk : Matrix (Fin 30) (Fin 30) ℝ) {k : ℕ} (hk : k ≤ 30) (s : Snap State (dims k)) :
    Option (Snap State (dims k) × Outcome) :=
  (hFixHold z s.x resJunk).map fun res =>
    doUpdate (fun x v => x.plusAssign (.ofVec v)) fixHoldType hk (fixHoldH k) (fun _ => R) res junk s

/-! #### The observation model (rtk_ekf_impl.cxx 109-195) -/

/-- The parts of `satellite::SatelliteCache` used by the observation model. -/
structure SatCache where
  pos : V3
  vel : V3
  clk : V2
  sagnac : ℝ
  iono : ℝ
  tropo : ℝ

/-- `obsMeas::Data`: pseudorange and Doppler, satellite and constellation (rtk_ekf.yaml 37-43). -/
structure ObsData where
  z : V2
  sat : SatCache
  gnssId : ℤ

/-- Constellation numbers (common/defs.h 16-24). -/
def GPS : ℤ := 0
def GALILEO : ℤ := 2
def GLONASS : ℤ := 6

/-- common/defs.h: speed of light and rotation rate of the earth. -/
def cLight : ℝ := 299792458.0
def omegaEarth : ℝ := 7.2921151467e-5

/-- The clock selected by an observation (rtk_ekf_impl.cxx 129-134), `none` when the `check` fails. -/
def obsClk (x : State) (g : ℤ) : Option V2 :=
  if g = GPS then some x.gpsClk else if g = GALILEO then some x.galClk
  else if g = GLONASS then some x.gloClk else none

/-- `est_prange` (rtk_ekf_impl.cxx 136-146). -/
noncomputable def estPrange (p : V3) (clk : V2) (s : SatCache) : ℝ :=
  vnorm (s.pos - p) + s.sagnac + s.iono + s.tropo + cLight * (clk 0 / 1e9 - s.clk 0)

/-- `est_doppler` (rtk_ekf_impl.cxx 147-152). -/
noncomputable def estDoppler (p v : V3) (clk : V2) (s : SatCache) : ℝ :=
  dot (s.vel - v) ((vnorm (s.pos - p))⁻¹ • (s.pos - p))
    + omegaEarth / cLight * (s.vel 1 * p 0 + s.pos 1 * v 0 - s.vel 0 * p 1 - s.pos 0 * v 1)
    + cLight * (clk 1 / 1e9 - s.clk 1)

/-- The residual of one observation. -/
noncomputable def hObs (o : ObsData) (x : State) (u : Input) : Option V2 :=
  (obsClk x o.gnssId).map fun clk =>
    ![o.z 0 - estPrange (antPos x) clk o.sat, o.z 1 - estDoppler (antPos x) (antVel x u) clk o.sat]

/-- The unit vector to the satellite (rtk_ekf_impl.cxx 143). -/
noncomputable def los (o : ObsData) (x : State) : V3 :=
  (vnorm (o.sat.pos - antPos x))⁻¹ • (o.sat.pos - antPos x)

/-- The first (pseudorange) row of the Jacobian applied to an error state (rtk_ekf_impl.cxx 157-192). -/
noncomputable def obsJacRange (o : ObsData) (x : State) (dx : ErrorState) : ℝ :=
  -dot (los o x) ((qB2e x).R.mulVec ((skew x.pB2g).mulVec dx.pose.w))
    + dot (los o x) ((qB2e x).R.mulVec dx.pose.v)
    + dot (los o x) ((skew (antPos x)).mulVec dx.TI2e.w) - dot (los o x) dx.TI2e.v
    + dot (los o x) ((qB2e x).R.mulVec dx.pB2g)
    + (if o.gnssId = GPS then -cLight / 1e9 * dx.gpsClk 0
       else if o.gnssId = GALILEO then -cLight / 1e9 * dx.galClk 0
       else if o.gnssId = GLONASS then -cLight / 1e9 * dx.gloClk 0 else 0)

/-- The second (Doppler) row of the Jacobian applied to an error state (rtk_ekf_impl.cxx 157-192). -/
noncomputable def obsJacDoppler (o : ObsData) (x : State) (u : Input) (dx : ErrorState) : ℝ :=
  -dot (los o x) ((qB2e x).R.mulVec ((skew (antVelB x u)).mulVec dx.pose.w))
    + dot (los o x) ((qB2e x).R.mulVec dx.vel)
    + dot (los o x) ((skew ((qB2e x).R.mulVec (antVelB x u))).mulVec dx.TI2e.w)
    + dot (los o x) ((rotpM (qB2e x) (skew u.gyro)).mulVec dx.pB2g)
    + (if o.gnssId = GPS then -cLight / 1e9 * dx.gpsClk 1
       else if o.gnssId = GALILEO then -cLight / 1e9 * dx.galClk 1
       else if o.gnssId = GLONASS then -cLight / 1e9 * dx.gloClk 1 else 0)

/-- A GNSS observation as it reaches the estimator (`meas::GnssObservation`), with its satellite already
looked up. -/
structure GnssObs where
  pseudorange : ℝ
  doppler : ℝ
  gnssId : ℤ
  sat : SatCache

/-- `RtkEkfEstimator::handleObsMeas` (rtk_ekf_estimator.cxx 152-158): the braced list names the
measurement and the satellite only, the remaining member `gnss_id` is value-initialised to zero. -/
def obsData (o : GnssObs) : ObsData := ⟨![o.pseudorange, o.doppler], o.sat, 0⟩

/-- `h<obsMeas>` over a bundle (rtk_ekf_impl.cxx 121-195): entry `i` is written by
`residual.segment<2>(i * 2)` into a `Vec<60>` (and rows of the Jacobian likewise); more than thirty
observations write outside (`none`). -/
noncomputable def hObsAll (z : List ObsData) (x : State) (u : Input) : Option (List V2) :=
  if z.length ≤ 30 then z.mapM fun o => hObs o x u else none

end Verif.Model.Ekf
