import Verif.Model.CircularBuffer
/-!
# Specification: a bounded double-ended queue as a list

Independent of the ring: a list, oldest element first, of length at most `cap`.
-/
namespace Verif.DequeSpec

variable {α : Type}

/-- Append at the back; a full queue first forgets its oldest (front) element. -/
def pushBack (cap : Nat) (l : List α) (v : α) : List α :=
  (if l.length = cap then l.drop 1 else l) ++ [v]

/-- Prepend at the front; a full queue first forgets its back element. -/
def pushFront (cap : Nat) (l : List α) (v : α) : List α :=
  v :: (if l.length = cap then l.dropLast else l)

/-- Effect of one call on the deque. -/
def step (cap : Nat) (l : List α) : CB.Op α → List α
  | .emplaceBack v => pushBack cap l v
  | .pushBack v => pushBack cap l v
  | .emplaceFront v => pushFront cap l v
  | .pushFront v => pushFront cap l v
  | .popFront => l.drop 1
  | .popBack => l.dropLast
  | .clear => []

/-- Deque contents after a history. -/
def run (cap : Nat) (ops : List (CB.Op α)) : List α := ops.foldl (step cap) []

/-- `pop_front`/`pop_back` need an element. -/
def allowed (l : List α) : CB.Op α → Prop
  | .popFront => l ≠ []
  | .popBack => l ≠ []
  | _ => True

/-- No pop on an empty queue anywhere in the history. -/
def Legal (cap : Nat) : List α → List (CB.Op α) → Prop
  | _, [] => True
  | l, op :: ops => allowed l op ∧ Legal cap (step cap l op) ops

end Verif.DequeSpec
