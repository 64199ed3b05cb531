/-!
# Model of `mc::CircularBuffer<T, N>` (common/circular_buffer.h)

Pointers into `memory_` are modelled by their offset `0 .. N-1` from `buf_`; `end_` is the
offset `N` (lines 100-104).  `mem` is the last value stored in a slot (`none` before the
first store) and `live` records whether an object currently lives in the slot, so that
placement new, assignment and explicit destructor calls can be told apart.  `faults` counts
lifetime errors: destroying or assigning to a slot without a live object, or constructing
over a live one.  The value semantics (`mem`) follows what the machine does regardless.
-/
namespace Verif.CB

/-- common/circular_buffer.h 99-104: the data members. -/
structure Ring (α : Type) where
  mem : Nat → Option α
  live : Nat → Bool
  head : Nat
  tail : Nat
  faults : Nat

variable {α : Type}

/-- circular_buffer.h 18, 100-104: `CircularBuffer() = default`, both iterators at `buf_`. -/
def init : Ring α := ⟨fun _ => none, fun _ => false, 0, 0, 0⟩

/-- circular_buffer.h 135-142, `operator++()`. -/
def inc (N v : Nat) : Nat := if v + 1 = N then 0 else v + 1

/-- circular_buffer.h 150-157, `operator--()`. -/
def dec (N v : Nat) : Nat := if v = 0 then N - 1 else v - 1

/-- circular_buffer.h 166-170 / 251-255, `operator+(size_t)`, including the wrap of the
64-bit `size_t` sum. -/
def plus (N v d : Nat) : Nat := ((v + d) % 2 ^ 64) % N

/-- circular_buffer.h 179-184 / 257-262, `operator-(size_t)`. -/
def minus (N v i : Nat) : Nat := (v + N - i % N) % N

/-- Implicit conversion of an `int` argument to `size_t` (line 30-33: `head_ + i`). -/
def toSizeT (i : Int) : Nat := (i % (2 ^ 64 : Int)).toNat

/-- circular_buffer.h 193-203, `idx()`. -/
def idx (N : Nat) (r : Ring α) (v : Nat) : Nat :=
  if r.head ≤ v then v - r.head else N - (r.head - v)

/-- circular_buffer.h 35. -/
def empty (r : Ring α) : Bool := r.head == r.tail

/-- circular_buffer.h 36. -/
def full (N : Nat) (r : Ring α) : Bool := plus N r.tail 1 == r.head

/-- circular_buffer.h 38-39. -/
def capacity (N : Nat) : Nat := N - 1

/-- circular_buffer.h 40 with 186-191: `int` difference of the two `idx()` values converted
to `size_t`. -/
def size (N : Nat) (r : Ring α) : Nat :=
  toSizeT ((idx N r r.tail : Int) - (idx N r r.head : Int))

/-- circular_buffer.h 25-26. -/
def front (r : Ring α) : Option α := r.mem r.head

/-- circular_buffer.h 27-28. -/
def back (N : Nat) (r : Ring α) : Option α := r.mem (minus N r.tail 1)

/-- circular_buffer.h 30-33, `operator[]` and `at`. -/
def at' (N : Nat) (r : Ring α) (i : Int) : Option α := r.mem (plus N r.head (toSizeT i))

/-- Explicit destructor call `p->~T()`. -/
def destroy (r : Ring α) (p : Nat) : Ring α :=
  if r.live p then { r with live := fun q => if q = p then false else r.live q }
  else { r with faults := r.faults + 1 }

/-- Placement new `new (p) T(args...)`. -/
def construct (r : Ring α) (p : Nat) (v : α) : Ring α :=
  { r with mem := fun q => if q = p then some v else r.mem q,
           live := fun q => if q = p then true else r.live q,
           faults := if r.live p then r.faults + 1 else r.faults }

/-- Copy assignment `*p = obj`. -/
def assign (r : Ring α) (p : Nat) (v : α) : Ring α :=
  { r with mem := fun q => if q = p then some v else r.mem q,
           faults := if r.live p then r.faults else r.faults + 1 }

/-- circular_buffer.h 50-54. -/
def popFront (N : Nat) (r : Ring α) : Ring α :=
  let r' := destroy r r.head
  { r' with head := inc N r'.head }

/-- circular_buffer.h 55-59. -/
def popBack (N : Nat) (r : Ring α) : Ring α :=
  let r' := destroy r r.tail
  { r' with tail := dec N r'.tail }

/-- circular_buffer.h 42-49: `while (!empty()) { destroy *head_; head_++ }`.  `fuel` bounds the
loop; `Props` shows that `N` rounds always suffice from a reachable state. -/
def clearLoop (N : Nat) : Nat → Ring α → Ring α
  | 0, r => r
  | fuel + 1, r => if empty r then r else clearLoop N fuel (popFront N r)

/-- circular_buffer.h 42-49. -/
def clear (N : Nat) (r : Ring α) : Ring α := clearLoop N N r

/-- circular_buffer.h 61-68. -/
def emplaceBack (N : Nat) (r : Ring α) (v : α) : Ring α :=
  let r := if full N r then popFront N r else r
  let r := construct r r.tail v
  { r with tail := inc N r.tail }

/-- circular_buffer.h 70-76. -/
def pushBack (N : Nat) (r : Ring α) (v : α) : Ring α :=
  let r := if full N r then popFront N r else r
  let r := assign r r.tail v
  { r with tail := inc N r.tail }

/-- circular_buffer.h 78-85. -/
def emplaceFront (N : Nat) (r : Ring α) (v : α) : Ring α :=
  let r := if full N r then popBack N r else r
  let r := { r with head := dec N r.head }
  construct r r.head v

/-- circular_buffer.h 87-94. -/
def pushFront (N : Nat) (r : Ring α) (v : α) : Ring α :=
  let r := if full N r then popBack N r else r
  let r := { r with head := dec N r.head }
  assign r r.head v

/-- The mutating calls of the public interface. -/
inductive Op (α : Type)
  | emplaceBack (v : α) | pushBack (v : α) | emplaceFront (v : α) | pushFront (v : α)
  | popFront | popBack | clear

/-- One call. -/
def step (N : Nat) (r : Ring α) : Op α → Ring α
  | .emplaceBack v => emplaceBack N r v
  | .pushBack v => pushBack N r v
  | .emplaceFront v => emplaceFront N r v
  | .pushFront v => pushFront N r v
  | .popFront => popFront N r
  | .popBack => popBack N r
  | .clear => clear N r

/-- A history of calls on a fresh buffer. -/
def run (N : Nat) (ops : List (Op α)) : Ring α := ops.foldl (step N) init

/-- Range-based `for` over `begin()`..`end()` (lines 21-24, 135-142, 205, 213-216), reading
`*it` and incrementing until `it == end()`.  `fuel` bounds the loop. -/
def iterate (N : Nat) (r : Ring α) : Nat → Nat → List (Option α)
  | 0, _ => []
  | fuel + 1, it => if it = r.tail then [] else r.mem it :: iterate N r fuel (inc N it)

end Verif.CB
