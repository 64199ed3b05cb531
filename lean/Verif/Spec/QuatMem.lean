import Mathlib.Data.Real.Basic

/-!
# Specification of objects in memory
-/

namespace Verif.QuatMem

/-- All of the `n` cells from `a` are alive. -/
def Alive (m : ℕ → Option ℝ) (a n : ℕ) : Prop := ∀ i, a ≤ i → i < a + n → ∃ v, m i = some v

/-- Nothing but the `n` cells from `a` differs. -/
def Only (m m' : ℕ → Option ℝ) (a n : ℕ) : Prop := ∀ i, i < a ∨ a + n ≤ i → m' i = m i

/-- The same numbers in the `n` cells from `a`. -/
def SameAt (m m' : ℕ → Option ℝ) (a n : ℕ) : Prop := ∀ i, a ≤ i → i < a + n → m' i = m i

/-- Two ranges of `n` cells have no cell in common. -/
def Apart (a b n : ℕ) : Prop := a + n ≤ b ∨ b + n ≤ a

end Verif.QuatMem
