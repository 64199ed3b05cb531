import Verif.Model.QuatMem

/-!
# What a solver expects of `Evaluate`
-/

namespace Verif.Spec.Evaluate

open Verif.QuatMem

/-- The matrix `J` is in memory at `a`, row by row. -/
def RowMajor (m : Mem) (a : ℕ) {r c : ℕ} (J : Matrix (Fin r) (Fin c) ℝ) : Prop :=
  ∀ (i : Fin r) (j : Fin c), m (a + (i.val * c + j.val)) = some (J i j)

/-- A block of memory of a solver: address and length. -/
structure Seg where
  a : ℕ
  n : ℕ

def Seg.has (s : Seg) (y : ℕ) : Prop := s.a ≤ y ∧ y < s.a + s.n

/-- The blocks to be written: the residual (`none`), and the Jacobians asked for; `ns` are their sizes.  The solver passes null
for all Jacobians, or null for some. -/
def blocks (res : Seg) (jac : Option (ℕ → Option ℕ)) (ns : List ℕ) : Option ℕ → Option Seg
  | none => some res
  | some k => (jac.bind fun f => f k).bind fun a => ns[k]?.map fun n => ⟨a, n⟩

/-- The blocks to be written are alive and overlap neither each other nor those to be read. -/
structure Ready (m : Mem) (ins : List Seg) (outs : Option ℕ → Option Seg) : Prop where
  alive : ∀ g s, outs g = some s → ∀ y, s.has y → (m y).isSome
  apart : ∀ g g' s t, g ≠ g' → outs g = some s → outs g' = some t → ∀ y, s.has y → ¬ t.has y
  input : ∀ g s, outs g = some s → ∀ t ∈ ins, ∀ y, s.has y → ¬ t.has y

/-- Nothing but the blocks to be written changes. -/
def Only (m m' : Mem) (outs : Option ℕ → Option Seg) : Prop := ∀ y, (∀ g s, outs g = some s → ¬ s.has y) → m' y = m y

/-- The Jacobian `k`, if it is asked for, is `J`. -/
def Asked (m' : Mem) (jac : Option (ℕ → Option ℕ)) (k : ℕ) {r c : ℕ} (J : Matrix (Fin r) (Fin c) ℝ) : Prop :=
  ∀ f a, jac = some f → f k = some a → RowMajor m' a J

end Verif.Spec.Evaluate
