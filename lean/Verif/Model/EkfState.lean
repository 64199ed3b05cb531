import Verif.Model.DQuat
import Verif.Model.So3

/-!
# Model of the generated class `State` and its arithmetic, for every configuration

core/ekf/ekf_gen/ekf_gen_state.py 217-282, 345-453, 572-599 with the templates ekf_gen_templates.py 188-313.

The generator splits the states into those of fixed and those of variable size
(`fixed_states`, `variable_states`); `F` and `V` are the names of the two kinds.  Every generated
function is one assignment per fixed state and one loop (or one assignment of the whole buffer) per
variable state; assignments to different members do not interact, so that each function is given by what
it does to one member.  Members of an object that was only declared hold arbitrary values, the
parameter `fresh`.  `none`: an access outside of an array, or a quotient `0/0` in a logarithm.
-/

namespace Verif.EkfState

open Verif.Model.Lie

/-- The types of states the generator knows (ekf_gen_utils.py 54-97). -/
inductive Kind where
  | vec (n : ℕ)
  | quat
  | dquat
  | so3
  | se3
deriving DecidableEq

/-- The values of a state. -/
def El : Kind → Type
  | .vec n => Fin n → ℝ
  | .quat => Quat
  | .dquat => DQuat
  | .so3 => M3
  | .se3 => SE3

/-- The values of its part of the error state (`error_state_size`, ekf_gen_utils.py 69-82). -/
def Tan : Kind → Type
  | .vec n => Fin n → ℝ
  | .quat => V3
  | .dquat => V6
  | .so3 => V3
  | .se3 => V6

/-- The right side of `state_plus_impl` (ekf_gen_state.py 381-389) and `plus_impl` (411-419). -/
noncomputable def plusEl : (k : Kind) → El k → Tan k → El k
  | .vec _, x, d => fun i => x i + d i
  | .quat, x, d => Quat.otimes x (Quat.exp d)
  | .dquat, x, d => DQuat.otimes x (DQuat.exp d)
  | .so3, x, d => SO3.times x (SO3.exp d)
  | .se3, x, d => SE3.mul x (SE3.exp d)

/-- The right side of `minus_impl` (ekf_gen_state.py 437-445). -/
noncomputable def minusEl : (k : Kind) → El k → El k → Option (Tan k)
  | .vec _, x, x2 => some fun i => x i - x2 i
  | .quat, x, x2 => some (Quat.log (Quat.otimes (Quat.inverse x2) x))
  | .dquat, x, x2 => some (DQuat.log (DQuat.otimes (DQuat.inverse x2) x))
  | .so3, x, x2 => some (SO3.log (SO3.times (SO3.inverse x2) x))
  | .se3, x, x2 => SE3.log (SE3.mul (SE3.inverse x2) x)

/-- Sum, multiple and zero of parts of the error state; they are Eigen vectors. -/
def Tan.add : (k : Kind) → Tan k → Tan k → Tan k
  | .vec _, a, b => fun i => a i + b i
  | .quat, a, b => fun i => a i + b i
  | .dquat, a, b => ⟨fun i => a.w i + b.w i, fun i => a.v i + b.v i⟩
  | .so3, a, b => fun i => a i + b i
  | .se3, a, b => ⟨fun i => a.w i + b.w i, fun i => a.v i + b.v i⟩

def Tan.smul (s : ℝ) : (k : Kind) → Tan k → Tan k
  | .vec _, a => fun i => a i * s
  | .quat, a => fun i => a i * s
  | .dquat, a => ⟨fun i => a.w i * s, fun i => a.v i * s⟩
  | .so3, a => fun i => a i * s
  | .se3, a => ⟨fun i => a.w i * s, fun i => a.v i * s⟩

def Tan.zero : (k : Kind) → Tan k
  | .vec _ => fun _ => 0
  | .quat => (0 : V3)
  | .dquat => ⟨0, 0⟩
  | .so3 => (0 : V3)
  | .se3 => ⟨0, 0⟩

/-- `Identity()` of the manifolds and `setZero()` of the vectors (`identity_impl`, ekf_gen_state.py 463-467). -/
def El.identity : (k : Kind) → El k
  | .vec _ => fun _ => 0
  | .quat => Quat.identity
  | .dquat => DQuat.identity
  | .so3 => (1 : M3)
  | .se3 => SE3.identity

/-- A configuration: `state_composition` of the yaml file. -/
structure Cfg where
  F : Type
  V : Type
  kf : F → Kind
  kv : V → Kind
  /-- `bundle_size` -/
  cap : V → ℕ

variable {c : Cfg}

/-- The members of `State` (ekf_gen_templates.py 76-80, `state_members` ekf_gen_state.py 75-95); `τ` is the type of
times. -/
structure State (τ : Type) (c : Cfg) where
  t : τ
  fixed : (f : c.F) → El (c.kf f)
  arr : (v : c.V) → Fin (c.cap v) → El (c.kv v)
  num : c.V → ℕ

/-- The members of `ErrorState` (`error_state_buffers`, `error_state_members` ekf_gen_state.py 20-72). -/
structure Err (c : Cfg) where
  fixed : (f : c.F) → Tan (c.kf f)
  buf : (v : c.V) → Fin (c.cap v) → Tan (c.kv v)

/-- `for (size_t i = 0; i < n; ++i) a[i] = f(i);` for an array of `cap` elements, where the right sides read no element
that was written before. -/
def fill {α : Type} {cap : ℕ} (n : ℕ) (old f : Fin cap → α) : Option (Fin cap → α) :=
  if n ≤ cap then some fun i => if i.1 < n then f i else old i else none

open Classical in
/-- One such loop for each variable state. -/
noncomputable def loops (β : c.V → Type) (step : (v : c.V) → Option (β v)) : Option ((v : c.V) → β v) :=
  if h : ∀ v, (step v).isSome then some fun v => (step v).get (h v) else none

variable {τ : Type}

/-- `State::operator=` (`copy_state`, ekf_gen_state.py 217-230): the time is not copied. -/
noncomputable def assign (self other : State τ c) : Option (State τ c) :=
  (loops _ fun v => fill (other.num v) (self.arr v) (other.arr v)).map fun a =>
    { self with fixed := other.fixed, arr := a, num := other.num }

/-- `State::operator+` (`boxplus_impl`, ekf_gen_state.py 375-402).  `fresh` is the object `xp` as it is declared. -/
noncomputable def plus (fresh x : State τ c) (dx : Err c) : Option (State τ c) :=
  (loops _ fun v => fill (x.num v) (fresh.arr v) fun i => plusEl _ (x.arr v i) (dx.buf v i)).map fun a =>
    { fresh with fixed := fun f => plusEl _ (x.fixed f) (dx.fixed f), arr := a, num := x.num }

/-- `State::operator+=` (`self_plus_impl`, ekf_gen_state.py 405-428). -/
noncomputable def plusAssign (x : State τ c) (dx : Err c) : Option (State τ c) :=
  (loops _ fun v => fill (x.num v) (x.arr v) fun i => plusEl _ (x.arr v i) (dx.buf v i)).map fun a =>
    { x with fixed := fun f => plusEl _ (x.fixed f) (dx.fixed f), arr := a }

/-- The loop of `boxminus_impl`, whose right sides may have no value. -/
noncomputable def fillM {α : Type} {cap : ℕ} (n : ℕ) (old : Fin cap → α) (f : Fin cap → Option α) : Option (Fin cap → α) :=
  open Classical in
  if n ≤ cap ∧ ∀ i : Fin cap, i.1 < n → (f i).isSome then
    some fun i => if i.1 < n then (f i).getD (old i) else old i
  else none

open Classical in
/-- `State::operator-` (`boxminus_impl`, ekf_gen_state.py 431-455).  `fresh` is the object `dx` as it is declared. -/
noncomputable def minus (fresh : Err c) (x x2 : State τ c) : Option (Err c) :=
  if h : ∀ f, (minusEl _ (x.fixed f) (x2.fixed f)).isSome then
    (loops _ fun v => fillM (x.num v) (fresh.buf v) fun i => minusEl _ (x.arr v i) (x2.arr v i)).map fun b =>
      { fixed := fun f => (minusEl _ (x.fixed f) (x2.fixed f)).get (h f), buf := b }
  else none

/-- `ErrorState::operator+` and `+=` (`impl_plus`, `self_add`, ekf_gen_state.py 257-277): whole buffers. -/
def Err.add (a b : Err c) : Err c :=
  ⟨fun f => Tan.add _ (a.fixed f) (b.fixed f), fun v i => Tan.add _ (a.buf v i) (b.buf v i)⟩

/-- `ErrorState::operator*` (`scalar_multiply`, ekf_gen_state.py 233-242). -/
def Err.scale (a : Err c) (s : ℝ) : Err c :=
  ⟨fun f => Tan.smul s _ (a.fixed f), fun v i => Tan.smul s _ (a.buf v i)⟩

/-- `ErrorState::setZero` (`set_zero`, ekf_gen_state.py 328-337). -/
def Err.zero : Err c := ⟨fun _ => Tan.zero _, fun _ _ => Tan.zero _⟩

/-- `State::setIdentity` (`state_set_identity`, ekf_gen_state.py 458-477): all elements of the arrays, not the
counters. -/
def setIdentity (x : State τ c) : State τ c :=
  { x with fixed := fun _ => El.identity _, arr := fun _ _ => El.identity _ }

/-- `isFinite(const State&)` (`finite_state`, ekf_gen_state.py 572-585): all elements of the arrays.  Real numbers have no
infinities; the test of one element is an arbitrary predicate. -/
def isFinite (fin : (k : Kind) → El k → Prop) (x : State τ c) : Prop :=
  (∀ f, fin _ (x.fixed f)) ∧ ∀ v i, fin _ (x.arr v i)

/-- `isFinite(const ErrorState&)` (`finite_error_state`, ekf_gen_state.py 588-599): whole buffers. -/
def Err.isFinite (fin : (k : Kind) → Tan k → Prop) (x : Err c) : Prop :=
  (∀ f, fin _ (x.fixed f)) ∧ ∀ v i, fin _ (x.buf v i)

open Classical in
/-- The state part of `predict` (ekf_gen_templates.py 614-647): `x_out = x + xdot * dt; x_out.t = x.t + dt`.  `stop`: one
of the checks of `x` and `xdot` fails. -/
noncomputable def predict (finX : (k : Kind) → El k → Prop) (finD : (k : Kind) → Tan k → Prop) (tadd : τ → ℝ → τ)
    (out fresh x : State τ c) (xdot : Err c) (dt : ℝ) : Option (State τ c) :=
  if isFinite finX x ∧ xdot.isFinite finD then
    ((plus fresh x (xdot.scale dt)).bind fun s => assign out s).map fun y => { y with t := tadd x.t dt }
  else none

end Verif.EkfState
