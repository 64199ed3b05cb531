import Verif.Model.Config
/-!
# What the value of a configuration key is: C113

A key is a path of names joined by slashes; each name selects an entry of a map, or an element of a
list by its decimal index.
-/
namespace Verif.Spec.Config

open Verif.Config

/-- `At root path n`: following `path` from `root` leads to `n`. -/
inductive At : Node → List Key → Node → Prop
  | here (n : Node) : At n [] n
  | entry (l₁ l₂ : List (Key × Node)) (k : Key) (n m : Node) (path : List Key) :
      (∀ p ∈ l₁, p.1 ≠ k) → At n path m → At (.map (l₁ ++ (k, n) :: l₂)) (k :: path) m
  | index (l₁ l₂ : List Node) (n m : Node) (path : List Key) :
      At n path m → At (.seq (l₁ ++ n :: l₂)) ((toString l₁.length).toList :: path) m

/-- There is a scalar on the way. -/
def Blocked (root : Node) (path : List Key) : Prop :=
  ∃ before k after text, path = before ++ k :: after ∧ At root before (.scalar text)

/-- The names of a path can be told apart when joined by slashes. -/
def Names (path : List Key) : Prop := (∀ k ∈ path, '/' ∉ k) ∧ ∃ k, path.getLast? = some k ∧ k ≠ []

/-- The key of a path. -/
def joined (path : List Key) : Key := ['/'].intercalate path

/-- The node is a list of numbers with the given values. -/
def IsList {K : Type} (parse : List Char → Option K) (n : Node) (l : List K) : Prop :=
  ∃ ts : List (List Char), n = .seq (ts.map Node.scalar) ∧ ts.map parse = l.map some

end Verif.Spec.Config
