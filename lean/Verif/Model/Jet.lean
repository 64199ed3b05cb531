import Verif.Model.DQuat

/-!
# Model of motions with derivatives, and of equality

common/math/quat.h 130, common/math/dquat.h 127, common/math/jet.h 11-34, common/math/two_jet.h 11-40.

Numbers are reals (no NaN).  The parts of a `DQuat` are its numbers, as for all constructors but the one from eight numbers (C117).
-/

namespace Verif.Jet

open Verif.Model.Lie

open Classical in
/-- `Quat::operator==` (quat.h 130): coefficient by coefficient. -/
noncomputable def quatEq (p q : Quat) : Bool := decide (p.w = q.w) && decide (p.x = q.x) && decide (p.y = q.y) && decide (p.z = q.z)

/-- `DQuat::operator==` (dquat.h 127): the eight numbers. -/
noncomputable def dquatEq (p q : DQuat) : Bool := quatEq p.r q.r && quatEq p.d q.d

open Classical in
/-- `==` of two tangent vectors, six numbers. -/
noncomputable def tangentEq (a b : V6) : Bool :=
  decide (∀ i : Fin 3, a.w i = b.w i) && decide (∀ i : Fin 3, a.v i = b.v i)

/-- `Jet` (jet.h 10-34). -/
structure Jet where
  x : DQuat
  dx : V6

/-- `TwoJet` (two_jet.h 10-40). -/
structure TwoJet where
  x : DQuat
  dx : V6
  d2x : V6

/-- `Jet::operator==` (jet.h 33). -/
noncomputable def jetEq (a b : Jet) : Bool := dquatEq a.x b.x && tangentEq a.dx b.dx

/-- `TwoJet::operator==` (two_jet.h 36-39). -/
noncomputable def twoJetEq (a b : TwoJet) : Bool := dquatEq a.x b.x && tangentEq a.dx b.dx && tangentEq a.d2x b.d2x

/-- `Jet::Identity` (jet.h 25-31). -/
def jetIdentity : Jet := ⟨DQuat.identity, ⟨0, 0⟩⟩

/-- `TwoJet::Identity` (two_jet.h 27-34). -/
def twoJetIdentity : TwoJet := ⟨DQuat.identity, ⟨0, 0⟩, ⟨0, 0⟩⟩

end Verif.Jet
