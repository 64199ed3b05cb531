import Mathlib.Data.Nat.Notation
/-!
# Names in snake case

Lower case and digits, words separated by single underscores, words after the first begin with a letter.
-/
namespace Verif.Spec.GenNames

/-- No capitals, no underscore at the start, a small letter after every underscore. -/
def Snake (n : List ℕ) : Prop :=
  n ≠ [] ∧ n.head? ≠ some 95 ∧ (∀ c ∈ n, ¬(65 ≤ c ∧ c ≤ 90)) ∧
    ∀ a b, n = a ++ 95 :: b → ∃ c, b.head? = some c ∧ 97 ≤ c ∧ c ≤ 122

end Verif.Spec.GenNames
