import Verif.Model.EkfState
import Verif.Spec.Lie

/-!
# Specification of the arithmetic of states

Two states are the same if they have the same elements in use; what lies beyond the counters does not matter.
-/

namespace Verif.EkfState

open Verif.Model.Lie Verif.Spec.Lie

variable {τ : Type} {c : Cfg}

/-- The counters fit the arrays. -/
def Fits (x : State τ c) : Prop := ∀ v, x.num v ≤ c.cap v

/-- The same elements in use (the time is not compared). -/
def Same (x y : State τ c) : Prop :=
  x.fixed = y.fixed ∧ x.num = y.num ∧ ∀ v (i : Fin (c.cap v)), i.1 < x.num v → x.arr v i = y.arr v i

/-- The same part of an error state, as far as the counters say. -/
def SameErr (num : c.V → ℕ) (a b : Err c) : Prop :=
  a.fixed = b.fixed ∧ ∀ v (i : Fin (c.cap v)), i.1 < num v → a.buf v i = b.buf v i

/-- A state which has the property `P` in each element in use. -/
def Each (P : (k : Kind) → El k → Prop) (x : State τ c) : Prop :=
  (∀ f, P _ (x.fixed f)) ∧ ∀ v (i : Fin (c.cap v)), i.1 < x.num v → P _ (x.arr v i)

/-- The same for two states and for error states. -/
def Each₂ (P : (k : Kind) → El k → El k → Prop) (x y : State τ c) : Prop :=
  (∀ f, P _ (x.fixed f) (y.fixed f)) ∧ ∀ v (i : Fin (c.cap v)), i.1 < x.num v → P _ (x.arr v i) (y.arr v i)

def EachErr (P : (k : Kind) → Tan k → Prop) (num : c.V → ℕ) (a : Err c) : Prop :=
  (∀ f, P _ (a.fixed f)) ∧ ∀ v (i : Fin (c.cap v)), i.1 < num v → P _ (a.buf v i)

def EachErr₂ (P : (k : Kind) → Tan k → Tan k → Prop) (num : c.V → ℕ) (a b : Err c) : Prop :=
  (∀ f, P _ (a.fixed f) (b.fixed f)) ∧ ∀ v (i : Fin (c.cap v)), i.1 < num v → P _ (a.buf v i) (b.buf v i)

/-- Members of the groups: unit quaternions, unit dual quaternions, rotation matrices. -/
def Good : (k : Kind) → El k → Prop
  | .vec _, _ => True
  | .quat, (q : Quat) => q.w ^ 2 + q.x ^ 2 + q.y ^ 2 + q.z ^ 2 = 1
  | .dquat, (p : DQuat) => p.r.w ^ 2 + p.r.x ^ 2 + p.r.y ^ 2 + p.r.z ^ 2 = 1 ∧
      p.r.w * p.d.w + p.r.x * p.d.x + p.r.y * p.d.y + p.r.z * p.d.z = 0
  | .so3, (m : M3) => IsRot m
  | .se3, (x : SE3) => IsRot x.r

/-- The angle by which an error state turns, if it turns. -/
noncomputable def angle : (k : Kind) → Tan k → ℝ
  | .vec _, _ => 0
  | .quat, (w : V3) => vnorm w
  | .dquat, (x : V6) => vnorm x.w
  | .so3, (w : V3) => vnorm w
  | .se3, (x : V6) => vnorm x.w

/-- Equal for vectors; equal to 30 billionths for rotations and motions, each part relative to itself. -/
def Near : (k : Kind) → Tan k → Tan k → Prop
  | .vec _, a, b => a = b
  | .quat, (a : V3), (b : V3) => vnorm (a - b) ≤ 3e-8 * vnorm b
  | .dquat, (a : V6), (b : V6) => vnorm (a.w - b.w) ≤ 3e-8 * vnorm b.w ∧ vnorm (a.v - b.v) ≤ 3e-8 * vnorm b.v
  | .so3, (a : V3), (b : V3) => vnorm (a - b) ≤ 3e-8 * vnorm b
  | .se3, (a : V6), (b : V6) => vnorm (a.w - b.w) ≤ 3e-8 * vnorm b.w ∧ vnorm (a.v - b.v) ≤ 3e-8 * vnorm b.v

/-- The motion from `y` to `x` is neither tiny nor (for matrices) a half turn. -/
noncomputable def Apart : (k : Kind) → El k → El k → Prop
  | .vec _, _, _ => True
  | .quat, (x : Quat), (y : Quat) => 4e-6 < vnorm (y.inverse.otimes x).bar
  | .dquat, (x : DQuat), (y : DQuat) => 1e-8 < sqNorm (y.inverse.otimes x).r.bar ∧ 4e-6 < sqNorm (y.inverse.otimes x).log.w
  | .so3, (x : M3), (y : M3) => -1 + 1e-8 < SO3.tr (y.transpose * x) ∧ SO3.tr (y.transpose * x) ≤ 3 - 4e-6
  | .se3, (x : SE3), (y : SE3) => -1 + 1e-8 < SO3.tr (y.r.transpose * x.r) ∧ SO3.tr (y.r.transpose * x.r) ≤ 3 - 4e-6

end Verif.EkfState
