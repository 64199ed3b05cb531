import Verif.Model.TestHelpers

/-!
# What is expected of comparisons and of random matrices
-/

namespace Verif.Spec.TestHelpers

open Verif.Model.TestHelpers Verif.Model.Lie

/-- Relative closeness, with differences below `tol` of small numbers allowed as they are. -/
def Close (tol x y : ℝ) : Prop := |x - y| ≤ tol * max (max |x| |y|) 1

/-- The numbers of a finite matrix. -/
def Holds (m : Mat) (f : ℕ → ℕ → ℝ) : Prop := ∀ r, r < m.rows → ∀ c, c < m.cols → m.at' r c = .fin (f r c)

/-- The elements of a quaternion. -/
def elems (q : Quat) : Fin 4 → Fl := fun i => .fin (![q.w, q.x, q.y, q.z] i)

/-- The elements of a dual quaternion. -/
def elems8 (p : DQuat) : Fin 8 → Fl := fun i =>
  .fin (![p.r.w, p.r.x, p.r.y, p.r.z, p.d.w, p.d.x, p.d.y, p.d.z] i)

end Verif.Spec.TestHelpers
