import Verif.Model.CircularBuffer
import Verif.Model.QuatMem

/-!
# Model of copied objects

common/circular_buffer.h 18-104, models/imu_state.h 10-33, models/imu_state.cxx 53.

Neither `CircularBuffer` nor `ImuErrorState` declares a copy constructor or a copy assignment, so the compiler copies member
by member: the bytes of `memory_`, but also the pointer `buf_` and the pointers in the iterators, and the pointers of the
`Eigen::Map`s. `FactorGraph`, `SatManager` and `RtkEkfEstimator` have a `CircularBuffer` as a member and are copied the same way.

Simplification: copying the bytes of elements does not make them objects, so the new storage holds values but nothing lives in it.
A storage is known by the number of the buffer it belongs to, pointers into it by that number and the offset.
-/

namespace Verif.Copies

open Verif.CB

/-- The members of one buffer (circular_buffer.h 100-104): the storage `buf_` points to, the offsets of `head_` and `tail_`,
and the buffer the pointer `buf` of its iterators points to. -/
structure Buf where
  buf : Nat
  owner : Nat
  head : Nat
  tail : Nat
deriving DecidableEq, Repr

/-- All buffers: the storages `memory_`, what lives in them, the other members. -/
structure World (α : Type) where
  mem : Nat → Nat → Option α
  live : Nat → Nat → Bool
  obj : Nat → Buf
  faults : Nat

variable {α : Type}

/-- Buffers as the constructor leaves them (circular_buffer.h 18, 100-104). -/
def fresh : World α := ⟨fun _ _ => none, fun _ _ => false, fun i => ⟨i, i, 0, 0⟩, 0⟩

/-- What the calls on buffer `i` work with: the storage `buf_` points to and its own iterators. -/
def view (w : World α) (i : Nat) : CB.Ring α :=
  ⟨w.mem (w.obj i).buf, w.live (w.obj i).buf, (w.obj i).head, (w.obj i).tail, w.faults⟩

/-- What they leave. -/
def put (w : World α) (i : Nat) (r : CB.Ring α) : World α where
  mem := fun k => if k = (w.obj i).buf then r.mem else w.mem k
  live := fun k => if k = (w.obj i).buf then r.live else w.live k
  obj := fun k => if k = i then { w.obj i with head := r.head, tail := r.tail } else w.obj k
  faults := r.faults

/-- A call on buffer `i`. -/
def call (N : Nat) (w : World α) (i : Nat) (op : Op α) : World α := put w i (step N (view w i) op)

/-- The implicit copy constructor and the implicit copy assignment: `dst` becomes a copy of `src`. -/
def copy (w : World α) (dst src : Nat) : World α where
  mem := fun k => if k = dst then w.mem src else w.mem k
  live := w.live
  obj := fun k => if k = dst then w.obj src else w.obj k
  faults := w.faults

/-- `idx()` (circular_buffer.h 193-203): the index counts from the `head_` of the buffer the iterator points to. -/
def idxAt (N : Nat) (w : World α) (i v : Nat) : Nat :=
  let h := (w.obj (w.obj i).owner).head
  if h ≤ v then v - h else N - (h - v)

/-- `size()` (circular_buffer.h 40, 186-191). -/
def sizeAt (N : Nat) (w : World α) (i : Nat) : Nat :=
  toSizeT ((idxAt N w i (w.obj i).tail : Int) - (idxAt N w i (w.obj i).head : Int))

/-- The elements a range-based `for` over buffer `i` visits. -/
def elements (N : Nat) (w : World α) (i : Nat) : List (Option α) := iterate N (view w i) N (w.obj i).head

/-- The destructor (circular_buffer.h 20). -/
def destruct (N : Nat) (w : World α) (i : Nat) : World α := call N w i .clear

/-- Calls on several buffers. -/
def calls (N : Nat) (w : World α) (l : List (Nat × Op α)) : World α := l.foldl (fun w p => call N w p.1 p.2) w

/-! ### Error states -/

open Verif.QuatMem in
/-- Reading `n` numbers. -/
def rd (m : Mem) (a : Nat) : Nat → Option (List ℝ)
  | 0 => some []
  | n + 1 => (m a).bind fun x => (rd m (a + 1) n).map fun l => x :: l

open Verif.QuatMem in
/-- Writing numbers one after the other. -/
def wrs (m : Mem) (a : Nat) : List ℝ → Option Mem
  | [] => some m
  | x :: l => (wr m a x).bind fun m => wrs m (a + 1) l

open Verif.QuatMem in
/-- Copying `n` numbers one after the other, as the assignment of a map does. -/
def mv (m : Mem) (b a : Nat) : Nat → Option Mem
  | 0 => some m
  | n + 1 => (m a).bind fun x => (wr m b x).bind fun m => mv m (b + 1) (a + 1) n

/-- An `ImuErrorState` (imu_state.h 10-24): the address of its nine numbers and of what its three maps refer to. -/
structure Err where
  data : Nat
  alpha : Nat
  beta : Nat
  gamma : Nat
deriving DecidableEq, Repr

/-- `ImuErrorState()` (imu_state.cxx 53) at the address `b`: the numbers are not set. -/
def errNew (b : Nat) : Err := ⟨b, b, b + 3, b + 6⟩

/-- `ImuErrorState(const Eigen::MatrixBase<Derived>&)` (imu_state.h 14-19) for an expression with the values `v`. -/
def errOf (m : QuatMem.Mem) (b : Nat) (v : List ℝ) : Option (QuatMem.Mem × Err) := (wrs m b v).map fun m => (m, errNew b)

/-- The implicit copy constructor: the numbers and the three maps, which refer to where the maps of `o` refer to. An argument of
the type `ImuErrorState` matches it better than the template. -/
def errCopy (m : QuatMem.Mem) (b : Nat) (o : Err) : Option (QuatMem.Mem × Err) :=
  (mv m b o.data 9).map fun m => (m, { o with data := b })

/-- The implicit copy assignment: the numbers, then through each map. -/
def errAssign (m : QuatMem.Mem) (p q : Err) : Option QuatMem.Mem :=
  (mv m p.data q.data 9).bind fun m => (mv m p.alpha q.alpha 3).bind fun m => (mv m p.beta q.beta 3).bind fun m =>
    mv m p.gamma q.gamma 3

/-- `operator=` (imu_state.h 26-32) of an expression with the values `v`. -/
def errSet (m : QuatMem.Mem) (p : Err) (v : List ℝ) : Option QuatMem.Mem := wrs m p.data v

/-- What `ImuState + ImuErrorState` (imu_state.cxx 29-36) reads: the three maps. -/
def errParts (m : QuatMem.Mem) (o : Err) : Option (List ℝ) :=
  (rd m o.alpha 3).bind fun a => (rd m o.beta 3).bind fun b => (rd m o.gamma 3).map fun g => a ++ b ++ g

/-- The vector itself: its nine numbers. -/
def errVec (m : QuatMem.Mem) (o : Err) : Option (List ℝ) := rd m o.data 9

end Verif.Copies
