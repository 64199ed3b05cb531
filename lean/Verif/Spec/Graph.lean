import Verif.Model.Graph
import Verif.Spec.Evaluate

/-!
# What is expected of states and factors
-/

namespace Verif.Spec.Graph

open Verif.Model.Graph Verif.Spec.Evaluate

/-- A state of class `c` lives at `a`, as its constructor made it but for its list of factors. -/
def IsState (h : Heap) (c : Cls) (a : ℕ) : Prop :=
  ∃ s, h a = some s ∧ s.cls = c ∧ s.dim = c.DIM ∧ s.id = c.ID

/-- The arguments have the types of the parameters. -/
def Typed (h : Heap) (ts : List Cls) (as : List ℕ) : Prop := List.Forall₂ (IsState h) ts as

/-- The block of numbers of a state. -/
def block (s : StateObj) : Seg := ⟨s.data, s.dim⟩

/-- The blocks the models of models/*.cxx expect of a solver, by the class of the state: `ImuModel` (imu_model.cxx 158-164),
`RelativeCarrierPhase` (relative_carrier_phase_model.cxx 78-88), `PseudorangeModel` (prange_model.cxx 79-84), `GnssDynamics`
(gnss_dynamics_model.cxx 26-31). -/
def expects : Kind → List Cls
  | .imu => [.pose, .pose, .velocity, .velocity, .bias]
  | .carrier => [.pose, .pose, .clock, .clock, .switch, .switch, .pose, .antenna]
  | .gnss => [.pose, .velocity, .clock, .pose, .switch, .antenna]
  | .switch => [.clock, .clock, .switch, .switch]

end Verif.Spec.Graph
