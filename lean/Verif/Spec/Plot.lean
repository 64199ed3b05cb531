import Verif.Model.Plot

/-!
# What plots should show (C142, C143)

A plot of a component of the records shows, for each record, the component over the time; a difference is taken at the same time; each
observation is shown once.
-/

namespace Verif.Spec.Plot

open Verif.Log Verif.Model.Plot

/-- A structured type has a field. -/
inductive HasField : DFields → String → DType → Prop
  | here (k d fs) : HasField (.cons k d fs) k d
  | there (k k' d d' fs) : k' ≠ k → HasField fs k d → HasField (.cons k' d' fs) k d

/-- Names lead from a type to the type of a part. -/
inductive Leads : DType → List String → DType → Prop
  | nil (d) : Leads d [] d
  | cons (fs k d p d') : HasField fs k d → Leads d p d' → Leads (.struct fs) (k :: p) d'

/-- In each record the number at names `p` and indices `l` is `v`. -/
def Value (a : Arr) (p : List String) (l : List ℕ) (v : Reading → Num) : Prop :=
  ∀ r ∈ a.recs, r.lookup (p, l) = some (v r)

/-- The line of `v` over `t`. -/
def lineOf (a : Arr) (t v : Reading → Num) : List (Num × Num) := a.recs.map fun r => (t r, v r)

/-- Times grow. -/
def Increasing (pts : List (ℚ × ℚ)) : Prop := pts.Pairwise fun a b => a.1 < b.1

/-- The value at `x` on the line through two points. -/
def onLine (a b : ℚ × ℚ) (x y : ℚ) : Prop := (y - a.2) * (b.1 - a.1) = (b.2 - a.2) * (x - a.1)

/-- The observations of a satellite at a frequency, in their order, component `j` over time. -/
def series {V : Type} (obs : List (Obs V)) (g s : ℕ) (f : ℚ) (j : Fin 3) : List (V × V) :=
  (obs.filter fun o => decide (o.gnss = g ∧ o.sat = s ∧ o.freq = f)).map fun o => (o.t, o.fields j)

end Verif.Spec.Plot
