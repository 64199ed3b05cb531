import Verif.Model.CircularBuffer
import Verif.Model.DQuat
import Mathlib.Data.Real.Basic

/-!
# Model of states, factors and the factor graph

common/hetero_collection.h, core/states/*.h, core/factors/*.h, core/node.h, core/factor_graph.h, core/factor_graph.cxx.

Simplifications: a state is known by its address; a reference is an address.  The conversion to the base class keeps the address
(`State` is the only base with members).  The memory of the numbers is apart from that of the objects; `ptr` is where the numbers of
a state are.  That the arguments of a constructor have the types of its parameters is a hypothesis (`Spec.Graph.Typed`), as the
compiler sees to it.  The constructor of `Node` leaves its members as they were (Eigen, `std::array`): a parameter.
-/

namespace Verif.Model.Graph

open Verif.CB Verif.Model.Lie

/-! ### States -/

/-- The classes of states (core/states/*.h). -/
inductive Cls where
  | antenna | clock | switch | bias | pose | velocity
deriving DecidableEq, Repr

/-- The enumerators (core/states/base.h 16-25), in their order from 0. -/
def Cls.ID : Cls → ℕ
  | .antenna => 0
  | .clock => 1
  | .switch => 2
  | .bias => 3
  | .pose => 4
  | .velocity => 5

/-- `DIM` (antenna_position.h 13, clock_bias.h 13, gnss_switch.h 12, imu_bias.h 13, pose.h 17, vel.h 13). -/
def Cls.DIM : Cls → ℕ
  | .antenna => 3
  | .clock => 2
  | .switch => 1
  | .bias => 6
  | .pose => 8
  | .velocity => 3

/-- How many numbers are where `getData` points (antenna_position.h 16-18, clock_bias.h 16-18, gnss_switch.h 15-17, imu_bias.h 16-19,
pose.h 19-23, vel.h 16-20): `Vec3`, `Vec2`, `double`, `Vec6`, `DQuat`, `Vec3`. -/
def Cls.numbers : Cls → ℕ
  | .antenna => 3
  | .clock => 2
  | .switch => 1
  | .bias => 6
  | .pose => 4 + 4
  | .velocity => 3

/-- `State` (base.h 27-43) with what its class adds. -/
structure StateObj where
  cls : Cls
  dim : ℕ
  id : ℕ
  ptr : ℕ
  factors : List ℕ

/-- `StateTemplate()` (base.h 45-49): the constants come from the class, there are no factors. -/
def StateObj.new (c : Cls) (ptr : ℕ) : StateObj := ⟨c, c.DIM, c.ID, ptr, []⟩

/-- `data()` (base.h 54-58). -/
def StateObj.data (s : StateObj) : ℕ := s.ptr

/-- `State::base_items` (base.h 35): a copy of the list. -/
def StateObj.baseItems (s : StateObj) : List ℕ := s.factors

/-- What is where; `none`: no state lives there. -/
abbrev Heap := ℕ → Option StateObj

/-! ### Collections -/

/-- `HeteroCollection` (hetero_collection.h 9-23): a tuple of references. -/
structure Coll where
  tuple : List ℕ

/-- The constructor (hetero_collection.h 20-23). -/
def Coll.new (args : List ℕ) : Coll := ⟨args⟩

/-- `get<i>` (hetero_collection.h 34-37); `none` does not compile. -/
def Coll.get (c : Coll) (i : ℕ) : Option ℕ := c.tuple[i]?

/-- `get_base<i>` (hetero_collection.h 40-43). -/
def Coll.getBase (c : Coll) (i : ℕ) : Option ℕ := c.tuple[i]?

/-- `__impl` (hetero_collection.h 25-30) with the indices of a sequence. -/
def Coll.impl (c : Coll) : List ℕ → Option (List ℕ)
  | [] => some []
  | i :: is => (c.tuple[i]?).bind fun a => (c.impl is).map (a :: ·)

/-- `base_items` (hetero_collection.h 45-50): all indices from 0. -/
def Coll.baseItems (c : Coll) : Option (List ℕ) := c.impl (List.range c.tuple.length)

/-! ### Factors -/

/-- A factor: the collection it is and its own references. -/
structure Factor where
  coll : Coll
  members : List ℕ

/-- The states a class of factors is declared with, and its constructor. -/
inductive Kind where
  | gnss | switch | imu | carrier
deriving DecidableEq, Repr

/-- The parameters of the templates (core/factors/gnss.h 9-13, gnss_switch.h 9, imu.h 9-14, relative_carrier_phase.h 9-16). -/
def Kind.types : Kind → List Cls
  | .gnss => [.pose, .velocity, .clock, .antenna]
  | .switch => [.switch, .switch]
  | .imu => [.pose, .pose, .velocity, .velocity, .bias]
  | .carrier => [.pose, .pose, .antenna, .clock, .clock, .switch, .switch]

/-- The constructor of `Gnss` (gnss.h 16-29). -/
def gnss (pose vel clock antenna : ℕ) : Factor :=
  ⟨.new [pose, vel, clock, antenna], [pose, vel, clock, antenna]⟩

/-- The constructor of `GnssSwitch` (gnss_switch.h 12-16). -/
def gnssSwitch (switch1 switch2 : ℕ) : Factor := ⟨.new [switch1, switch2], [switch1, switch2]⟩

/-- The constructor of `Imu` (imu.h 17-33). -/
def imu (pose1 pose2 vel1 vel2 bias : ℕ) : Factor :=
  ⟨.new [pose1, pose2, vel1, vel2, bias], [pose1, pose2, vel1, vel2, bias]⟩

/-- The constructor of `RelativeCarrierPhase` (relative_carrier_phase.h 19-48). -/
def carrier (pose1 pose2 antenna clock1 clock2 switch1 switch2 : ℕ) : Factor :=
  ⟨.new [pose1, pose2, antenna, clock1, clock2, switch1, switch2],
    [pose1, pose2, antenna, clock1, clock2, switch1, switch2]⟩

/-- The states of a factor as a solver sees them; `none`: one of them is gone. -/
def Factor.states (h : Heap) (f : Factor) : Option (List StateObj) := f.coll.baseItems.bind fun l => l.mapM h

/-! ### The graph -/

/-- `Node` (core/node.h 10-20). -/
structure Node where
  t : Int × Int
  T_n2b : DQuat
  vel : V3
  clk : Fin 2 → ℝ
  sw : Fin 30 → ℝ

/-- `FactorGraph::Options` (core/factor_graph.h 21-39). -/
structure Options where
  Xi_r2n : V6
  t0 : Int × Int
  x0 : DQuat
  vel0 : V3
  clk0 : Fin 2 → ℝ
  imuBias0 : Fin 6 → ℝ
  p_b2g0 : V3
  T_r2n0 : DQuat
  T_e2r : DQuat

/-- The values of the declarations (factor_graph.h 26-38); `Xi_r2n_` is not initialised, `UTCTime()` is zero (utctime.cxx 18-22). -/
def Options.new (Xi : V6) : Options :=
  ⟨Xi, (0, 0), DQuat.identity, 0, 0, 0, 0, DQuat.identity, DQuat.identity⟩

/-- `MAX_STATE_LEN + 1` (factor_graph.h 47, 51). -/
def maxLen : ℕ := 26

/-- `FactorGraph` (factor_graph.h 46-57). -/
structure FactorGraph where
  nodes : CB.Ring Node
  p_b2g : V3
  imuBias : Fin 6 → ℝ
  T_r2n : DQuat
  options : Options

/-- An assignment to a member of `nodes_.back()`. -/
def setBack (r : CB.Ring Node) (f : Node → Node) : CB.Ring Node :=
  match back maxLen r with
  | none => { r with faults := r.faults + 1 }
  | some n => assign r (minus maxLen r.tail 1) (f n)

/-- `for (auto& k : nodes_.back().sw) k = 1.0;` (factor_graph.cxx 13-16), one element after the other. -/
def fillSw (r : CB.Ring Node) : List (Fin 30) → CB.Ring Node
  | [] => r
  | i :: is => fillSw (setBack r fun n => { n with sw := fun j => if j = i then 1 else n.sw j }) is

/-- The constructor (factor_graph.cxx 6-21); `g` is what the memory of the node held before. -/
def FactorGraph.new (o : Options) (g : Node) : FactorGraph :=
  let r := emplaceBack maxLen init g
  let r := setBack r fun n => { n with t := o.t0 }
  let r := setBack r fun n => { n with T_n2b := o.x0 }
  let r := setBack r fun n => { n with vel := o.vel0 }
  let r := setBack r fun n => { n with clk := o.clk0 }
  let r := fillSw r (List.finRange 30)
  ⟨r, o.p_b2g0, o.imuBias0, o.T_r2n0, o⟩

/-- `lastNode` (factor_graph.h 44). -/
def FactorGraph.lastNode (g : FactorGraph) : Option Node := back maxLen g.nodes

end Verif.Model.Graph
