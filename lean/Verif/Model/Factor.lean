import Verif.Model.Ekf
import Verif.Model.So3

/-!
The factors of `models/`: `GnssDynamics`, `RelativeCarrierPhase`, `PseudorangeModel` and `PoseError`, over the reals.

Simplifications: exact arithmetic, the satellite states computed by the constructors are parameters, the Jacobians are
taken before the multiplication by `dGenDParam` (`by_elements`), quaternions read from parameter blocks are taken as
they are.  `Xi_` is a reference in `GnssDynamics` and in `PoseError`; it is assumed to outlive the factor.
-/

namespace Verif.Model.Factor

open Verif.Model.Lie Verif.Model.Ekf Matrix

/-! ### GnssDynamics -/

/-- `GnssDynamics` (gnss_dynamics_model.h 12-24, gnss_dynamics_model.cxx 8-11). -/
structure Dyn where
  dt : ℝ
  Xi : V3

/-- The residual of `GnssDynamics::Evaluate` (gnss_dynamics_model.cxx 26-36); a clock is bias and rate. -/
noncomputable def Dyn.residual (f : Dyn) (c1 c2 : V2) (sw1 sw2 : ℝ) : V3 :=
  ![f.Xi 0 * (c2 0 - (c1 0 + (c1 1 + c2 1) / 2 * f.dt)), f.Xi 1 * (c2 1 - c1 1), f.Xi 2 * (sw2 - sw1)]

/-- The Jacobians (gnss_dynamics_model.cxx 42-73). -/
noncomputable def Dyn.jacClk1 (f : Dyn) : Matrix (Fin 3) (Fin 2) ℝ :=
  !![-f.Xi 0, -f.Xi 0 * f.dt / 2; 0, -f.Xi 1; 0, 0]
noncomputable def Dyn.jacClk2 (f : Dyn) : Matrix (Fin 3) (Fin 2) ℝ :=
  !![f.Xi 0, -f.Xi 0 * f.dt / 2; 0, f.Xi 1; 0, 0]
def Dyn.jacSw1 (f : Dyn) : V3 := ![0, 0, -f.Xi 2]
def Dyn.jacSw2 (f : Dyn) : V3 := ![0, 0, f.Xi 2]

/-! ### The antenna -/

/-- The position of the antenna (prange_model.cxx 88-89, relative_carrier_phase_model.cxx 92-95). -/
def antenna (Te2r Tr2n Tn2b : DQuat) (p : V3) : V3 :=
  Te2r.r.rota (Tr2n.transforma (Tn2b.translation + Tn2b.r.rota p)) + Te2r.translation

/-- The unit vector to a satellite. -/
noncomputable def sight (pos p : V3) : V3 := (vnorm (pos - p))⁻¹ • (pos - p)

/-- `computeSagnac` (relative_carrier_phase_model.cxx 39-45, prange_model.cxx 48-53). -/
noncomputable def sagnac (pos p : V3) : ℝ := omegaEarth * (pos 0 * p 1 - pos 1 * p 0) / cLight

/-! ### RelativeCarrierPhase -/

/-- A satellite at the time of transmission. -/
structure SatState where
  pos : V3
  vel : V3
  clk : V2

/-- `RelativeCarrierPhase` (relative_carrier_phase_model.cxx 14-38, relative_carrier_phase_model.h 30-38). -/
structure RelCP where
  dPhi : ℝ
  lambda : ℝ
  Xi : ℝ
  Te2r : DQuat
  sat1 : SatState
  sat2 : SatState

/-- The constructor from two carrier phases. -/
def RelCP.new (phase1 phase2 lambda Xi : ℝ) (Te2r : DQuat) (sat1 sat2 : SatState) : RelCP :=
  ⟨phase2 - phase1, lambda, Xi, Te2r, sat1, sat2⟩

/-- The parameter blocks (relative_carrier_phase_model.cxx 78-89). -/
structure RelArg where
  T1 : DQuat
  T2 : DQuat
  clk1 : V2
  clk2 : V2
  sw1 : ℝ
  sw2 : ℝ
  Tr2n : DQuat
  p : V3

/-- `est1` and `est2` (relative_carrier_phase_model.cxx 92-112). -/
noncomputable def estPhase (s : SatState) (p : V3) (clk : V2) : ℝ :=
  vnorm (s.pos - p) + sagnac s.pos p + cLight * (clk 0 / 1e9 - s.clk 0)

def RelCP.ant1 (f : RelCP) (x : RelArg) : V3 := antenna f.Te2r x.Tr2n x.T1 x.p
def RelCP.ant2 (f : RelCP) (x : RelArg) : V3 := antenna f.Te2r x.Tr2n x.T2 x.p

/-- `delta` (relative_carrier_phase_model.cxx 115-119). -/
noncomputable def RelCP.delta (f : RelCP) (x : RelArg) : ℝ :=
  f.dPhi - f.lambda * (estPhase f.sat2 (f.ant2 x) x.clk2 - estPhase f.sat1 (f.ant1 x) x.clk1)

/-- `gain` and `*residual` (relative_carrier_phase_model.cxx 118-122). -/
def RelCP.gain (f : RelCP) (x : RelArg) : ℝ := f.Xi * x.sw1 * x.sw2
noncomputable def RelCP.residual (f : RelCP) (x : RelArg) : ℝ := f.gain x * f.delta x

/-- `R_E2n` (relative_carrier_phase_model.cxx 128). -/
def RelCP.RE2n (f : RelCP) (x : RelArg) : M3 := x.Tr2n.r.R * f.Te2r.r.R

noncomputable def RelCP.e1 (f : RelCP) (x : RelArg) : V3 := sight f.sat1.pos (f.ant1 x)
noncomputable def RelCP.e2 (f : RelCP) (x : RelArg) : V3 := sight f.sat2.pos (f.ant2 x)

/-- The Jacobians with respect to the poses (relative_carrier_phase_model.cxx 134-151): rotation, position. -/
noncomputable def RelCP.jacT1 (f : RelCP) (x : RelArg) : V6 :=
  ⟨(f.gain x * f.lambda) • vecMul (f.e1 x) ((f.RE2n x)ᵀ * x.T1.r.Rᵀ * skew x.p),
    (f.gain x * f.lambda) • vecMul (-f.e1 x) ((f.RE2n x)ᵀ * x.T1.r.Rᵀ)⟩
noncomputable def RelCP.jacT2 (f : RelCP) (x : RelArg) : V6 :=
  ⟨(f.gain x * f.lambda) • vecMul (-f.e2 x) ((f.RE2n x)ᵀ * x.T2.r.Rᵀ * skew x.p),
    (f.gain x * f.lambda) • vecMul (f.e2 x) ((f.RE2n x)ᵀ * x.T2.r.Rᵀ)⟩

/-- With respect to the clocks and the switches (relative_carrier_phase_model.cxx 152-173). -/
noncomputable def RelCP.jacClk1 (f : RelCP) (x : RelArg) : V2 := ![f.gain x * f.lambda * cLight / 1e9, 0]
noncomputable def RelCP.jacClk2 (f : RelCP) (x : RelArg) : V2 := ![-f.gain x * f.lambda * cLight / 1e9, 0]
noncomputable def RelCP.jacSw1 (f : RelCP) (x : RelArg) : ℝ := f.Xi * x.sw2 * f.delta x
noncomputable def RelCP.jacSw2 (f : RelCP) (x : RelArg) : ℝ := f.Xi * x.sw1 * f.delta x

/-- With respect to `T_r2n` (relative_carrier_phase_model.cxx 174-189). -/
noncomputable def RelCP.jacTr2n (f : RelCP) (x : RelArg) : V6 :=
  ⟨(f.gain x * f.lambda) • (vecMul (f.e1 x) (f.Te2r.r.Rᵀ * x.Tr2n.r.Rᵀ * skew (x.T1.translation + x.T1.r.rota x.p))
      - vecMul (f.e2 x) (f.Te2r.r.Rᵀ * x.Tr2n.r.Rᵀ * skew (x.T2.translation + x.T2.r.rota x.p))),
    (f.gain x * f.lambda) • (vecMul (-f.e1 x) (f.RE2n x)ᵀ - vecMul (-f.e2 x) (f.RE2n x)ᵀ)⟩

/-- With respect to `p_b2g` (relative_carrier_phase_model.cxx 190-197). -/
noncomputable def RelCP.jacP (f : RelCP) (x : RelArg) : V3 :=
  (f.gain x * f.lambda) • (vecMul (f.e2 x) (f.Te2r.r.Rᵀ * x.Tr2n.r.Rᵀ * x.T2.r.Rᵀ)
    - vecMul (f.e1 x) (f.Te2r.r.Rᵀ * x.Tr2n.r.Rᵀ * x.T1.r.Rᵀ))

/-! ### PseudorangeModel -/

/-- `PseudorangeModel` (prange_model.h, prange_model.cxx 16-47): the satellite with the delays computed by the
constructor, pseudorange and Doppler, the pose of the reference and `sqrt_inv_cov_`. -/
structure Prange where
  sat : SatCache
  pseudorange : ℝ
  doppler : ℝ
  Te2r : DQuat
  W : M3

/-- The parameter blocks (prange_model.cxx 79-85). -/
structure PrArg where
  T : DQuat
  vel : V3
  clk : V2
  Tr2n : DQuat
  sw : ℝ
  p : V3

/-- Position and velocity of the antenna (prange_model.cxx 87-89). -/
def Prange.pos (f : Prange) (x : PrArg) : V3 := antenna f.Te2r x.Tr2n x.T x.p
def Prange.velE (f : Prange) (x : PrArg) : V3 := f.Te2r.r.rota (x.Tr2n.r.rota (x.T.r.rota x.vel))

/-- `est_prange` (prange_model.cxx 90-96). -/
noncomputable def Prange.estP (f : Prange) (x : PrArg) : ℝ :=
  vnorm (f.sat.pos - f.pos x) + f.sat.sagnac + f.sat.iono + f.sat.tropo + cLight * (x.clk 0 * 1e-9 - f.sat.clk 0)

/-- `est_doppler` (prange_model.cxx 97-103); the line of sight is divided by the range with the Sagnac correction. -/
noncomputable def Prange.estD (f : Prange) (x : PrArg) : ℝ :=
  dot (f.sat.vel - f.velE x) ((vnorm (f.sat.pos - f.pos x) + f.sat.sagnac)⁻¹ • (f.sat.pos - f.pos x))
    + omegaEarth / cLight * (f.sat.vel 1 * f.pos x 0 + f.sat.pos 1 * f.velE x 0 - f.sat.vel 0 * f.pos x 1
      - f.sat.pos 0 * f.velE x 1)
    + cLight * (x.clk 1 * 1e-9 - f.sat.clk 1)

/-- The residual before and after weighting (prange_model.cxx 105-107). -/
noncomputable def Prange.raw (f : Prange) (x : PrArg) : V3 :=
  ![x.sw * (f.estP x - f.pseudorange), x.sw * (f.estD x - f.doppler), 1 - x.sw]
noncomputable def Prange.residual (f : Prange) (x : PrArg) : V3 := f.W.mulVec (f.raw x)

noncomputable def Prange.e (f : Prange) (x : PrArg) : V3 := sight f.sat.pos (f.pos x)
def Prange.RE2n (f : Prange) (x : PrArg) : M3 := x.Tr2n.r.R * f.Te2r.r.R

/-- The Jacobian with respect to `T_n2b` applied to an error (prange_model.cxx 117-128). -/
noncomputable def Prange.jacT (f : Prange) (x : PrArg) (ξ : V6) : V3 :=
  f.W.mulVec ![(x.sw • vecMul (f.e x) ((f.RE2n x)ᵀ * x.T.r.Rᵀ * skew x.p)) ⬝ᵥ ξ.w
      + (x.sw • vecMul (-f.e x) ((f.RE2n x)ᵀ * x.T.r.Rᵀ)) ⬝ᵥ ξ.v,
    (x.sw • vecMul (f.e x) ((f.RE2n x)ᵀ * x.T.r.Rᵀ * skew x.vel)) ⬝ᵥ ξ.w, 0]

/-- With respect to the velocity (prange_model.cxx 130-137). -/
noncomputable def Prange.jacVel (f : Prange) (x : PrArg) (δ : V3) : V3 :=
  ![0, (x.sw • vecMul (-f.e x) (f.W 1 1 • ((f.RE2n x)ᵀ * x.T.r.Rᵀ))) ⬝ᵥ δ, 0]

/-- With respect to the clock (prange_model.cxx 139-146). -/
noncomputable def Prange.jacClk (f : Prange) (x : PrArg) (δ : V2) : V3 :=
  ![x.sw * cLight / 1e9 * f.W 0 0 * δ 0, x.sw * cLight / 1e9 * f.W 1 1 * δ 1, 0]

/-- With respect to `T_r2n` (prange_model.cxx 148-160). -/
noncomputable def Prange.jacTr2n (f : Prange) (x : PrArg) (ξ : V6) : V3 :=
  f.W.mulVec ![(x.sw • vecMul (f.e x) (f.Te2r.r.Rᵀ * x.Tr2n.r.Rᵀ * skew (x.T.translation + x.T.r.rota x.p))) ⬝ᵥ ξ.w
      + (x.sw • vecMul (-f.e x) (f.RE2n x)ᵀ) ⬝ᵥ ξ.v,
    (x.sw • vecMul (f.e x) ((f.RE2n x)ᵀ * skew (x.T.r.Rᵀ.mulVec x.vel))) ⬝ᵥ ξ.w, 0]

/-- With respect to the switch (prange_model.cxx 161-168). -/
noncomputable def Prange.jacSw (f : Prange) (x : PrArg) : V3 :=
  ![f.W 0 0 * (f.estP x - f.pseudorange), f.W 1 1 * (f.estD x - f.doppler), -f.W 2 2]

/-- With respect to `p_b2g` (prange_model.cxx 169-176). -/
noncomputable def Prange.jacP (f : Prange) (x : PrArg) (δ : V3) : V3 :=
  ![((-x.sw * f.W 0 0) • vecMul (f.e x) (f.Te2r.r.Rᵀ * x.Tr2n.r.Rᵀ * x.T.r.Rᵀ)) ⬝ᵥ δ, 0, 0]

/-! ### PoseError -/

/-- `PoseError` (pose_error_model.cxx 11-14): the anchor and the weights, rotation then translation. -/
structure PoseErr where
  anchor : DQuat
  Xi : V6

/-- The residual when no Jacobian is asked for (pose_error_model.cxx 36) and when it is (29). -/
noncomputable def PoseErr.plain (f : PoseErr) (pose : DQuat) : V6 :=
  let l := (f.anchor.inverse.otimes pose).log
  ⟨fun i => f.Xi.w i * l.w i, fun i => f.Xi.v i * l.v i⟩
noncomputable def PoseErr.withJac (f : PoseErr) (pose : DQuat) : V6 :=
  let l := (f.anchor.inverse.otimes pose).logJ
  ⟨fun i => f.Xi.w i * l.w i, fun i => f.Xi.v i * l.v i⟩

end Verif.Model.Factor
