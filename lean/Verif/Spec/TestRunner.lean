import Verif.Model.TestRunner

/-!
# What the runner of the tests should say (C144)
-/

namespace Verif.Spec.TestRunner

open Verif.Model.TestRunner

/-- The result is that of running each of `tests`: it tells failure if and only if one of them fails, and names them. -/
def Right (prog : List Char → Prog) (tests : List (List Char)) (r : Result) : Prop :=
  (r.exit = 0 ↔ ∀ t ∈ tests, (prog t).status = 0) ∧
  (∀ t, t ∈ r.passed ↔ t ∈ tests ∧ (prog t).status = 0) ∧ ∀ t, t ∈ r.failed ↔ t ∈ tests ∧ (prog t).status ≠ 0

/-- A name is one line. -/
def OneLine (t : List Char) : Prop := '\n' ∉ t

end Verif.Spec.TestRunner
