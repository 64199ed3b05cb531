import Verif.Model.DQuat

/-!
# Model of quaternions as objects in memory

common/math/quat.h 19-62, 101-115, 138-142, common/math/dquat.h 65-127, models/imu_state.h 10-33.

A `Quat` has a buffer `buf_` and a map `arr_` onto four numbers, which need not be the buffer.  Memory is a partial function
of addresses to numbers; an address without number is not alive, access to it is undefined behaviour (`none`).
Assignments through `Eigen::Map` write one coefficient after the other.  The comma initialiser `arr_ << a, b, c, d` stores `a`
before it evaluates `b` and so on (C++17 orders the operands of `<<` and of the comma from left to right).
-/

namespace Verif.QuatMem

open Verif.Model.Lie

abbrev Mem := ℕ → Option ℝ

/-- Four consecutive numbers. -/
def rd4 (m : Mem) (a : ℕ) : Option Quat :=
  match m a, m (a + 1), m (a + 2), m (a + 3) with
  | some w, some x, some y, some z => some ⟨w, x, y, z⟩
  | _, _, _, _ => none

/-- Writing one number. -/
def wr (m : Mem) (a : ℕ) (v : ℝ) : Option Mem :=
  if (m a).isSome then some (Function.update m a (some v)) else none

/-- Writing four numbers that were computed before. -/
def wr4 (m : Mem) (a : ℕ) (q : Quat) : Option Mem :=
  (wr m a q.w).bind fun m => (wr m (a + 1) q.x).bind fun m => (wr m (a + 2) q.y).bind fun m => wr m (a + 3) q.z

/-- A `Quat`: the address of `buf_` and the address `arr_` is mapped to. -/
structure Obj where
  buf : ℕ
  map : ℕ
deriving DecidableEq

/-- `elements()` (quat.h 74). -/
def Obj.val (m : Mem) (o : Obj) : Option Quat := rd4 m o.map

/-- `Quat()` and `Quat(w, x, y, z)` (quat.h 31-33); `b` is the address of the new object's buffer. -/
def make (m : Mem) (b : ℕ) (q : Quat) : Option (Mem × Obj) := (wr4 m b q).map fun m => (m, ⟨b, b⟩)

/-- `Quat(const T* data)` (quat.h 39), and `Quat(Ref<const Vec4>)` (35) of a vector in memory at `a`. -/
def ofPtr (m : Mem) (b a : ℕ) : Mem × Obj := (m, ⟨b, a⟩)

/-- Four numbers at `a` come to life, or die. -/
def alloc4 (m : Mem) (a : ℕ) (q : Quat) : Mem := fun i =>
  if i = a then some q.w else if i = a + 1 then some q.x else if i = a + 2 then some q.y else if i = a + 3 then some q.z else m i

def free4 (m : Mem) (a : ℕ) : Mem := fun i => if a ≤ i ∧ i < a + 4 then none else m i

/-- `Quat(Ref<const Vec4>)` (quat.h 35) of an expression with the value `q`, as in `Quat(a + b)`: the parameter holds the value of the
expression at `t` and dies at the end of the constructor. -/
def ofExpr (m : Mem) (b t : ℕ) (q : Quat) : Mem × Obj :=
  let r := ofPtr (alloc4 m t q) b t
  (free4 r.1 t, r.2)

/-- `Quat(const Quat&)` (quat.h 37). -/
def copy (m : Mem) (b : ℕ) (q : Obj) : Option (Mem × Obj) :=
  (wr4Seq m b q.map).map fun m => (m, ⟨b, b⟩)
where
  /-- `arr_ = q.arr_`: one coefficient after the other. -/
  wr4Seq (m : Mem) (b a : ℕ) : Option Mem :=
    (m a).bind fun v => (wr m b v).bind fun m => (m (a + 1)).bind fun v => (wr m (b + 1) v).bind fun m =>
      (m (a + 2)).bind fun v => (wr m (b + 2) v).bind fun m => (m (a + 3)).bind fun v => wr m (b + 3) v

/-- `Quat::operator=(const Quat&)` (quat.h 138-142): `elements()` returns a vector by value. -/
def assign (m : Mem) (p q : Obj) : Option Mem := (q.val m).bind fun v => wr4 m p.map v

/-- `Quat::operator*=` (quat.h 101-115). -/
def mulAssign (m : Mem) (p q : Obj) : Option Mem :=
  (p.val m).bind fun s =>
  (q.val m).bind fun r => (wr m p.map (s.w * r.w - s.x * r.x - s.y * r.y - s.z * r.z)).bind fun m =>
  (q.val m).bind fun r => (wr m (p.map + 1) (s.w * r.x + s.x * r.w + s.y * r.z - s.z * r.y)).bind fun m =>
  (q.val m).bind fun r => (wr m (p.map + 2) (s.w * r.y - s.x * r.z + s.y * r.w + s.z * r.x)).bind fun m =>
  (q.val m).bind fun r => wr m (p.map + 3) (s.w * r.z + s.x * r.y - s.y * r.x + s.z * r.w)

/-- `p = p * q` (quat.h 97-100, 117-128, 138-142): the product is a new object. -/
def mulThen (m : Mem) (p q : Obj) : Option Mem :=
  (p.val m).bind fun s => (q.val m).bind fun r => wr4 m p.map (s.otimes r)

/-! ### Dual quaternions -/

/-- A `DQuat`: `buf_` (8 numbers), the map `arr_`, and the parts `r_` and `d_`, which are `Quat`s with buffers of their own. -/
structure DObj where
  buf : ℕ
  arr : ℕ
  r : Obj
  d : Obj
deriving DecidableEq

/-- `DQuat(const T* data)` (dquat.h 74); the new object occupies 16 numbers from `b`. -/
def dOfPtr (b a : ℕ) : DObj := ⟨b, a, ⟨b + 8, a⟩, ⟨b + 12, a + 4⟩⟩

/-- Writing eight numbers. -/
def wr8 (m : Mem) (a : ℕ) (p : DQuat) : Option Mem := (wr4 m a p.r).bind fun m => wr4 m (a + 4) p.d

/-- The eight numbers of `arr_`. -/
def rd8 (m : Mem) (a : ℕ) : Option DQuat := (rd4 m a).bind fun r => (rd4 m (a + 4)).map fun d => ⟨r, d⟩

/-- `DQuat()` and `DQuat(r, d)` (dquat.h 69-73, 90-94). -/
def dMake (m : Mem) (b : ℕ) (p : DQuat) : Option (Mem × DObj) :=
  let o := dOfPtr b b
  ((wr4 m o.r.map p.r).bind fun m => wr4 m o.d.map p.d).map fun m => (m, o)

/-- `DQuat(rw, …, dz)` (dquat.h 76-86): `r_` and `d_` are not in the list of initialisers and are default constructed. -/
def dEight (m : Mem) (b : ℕ) (p : DQuat) : Option (Mem × DObj) :=
  (wr8 m b p).bind fun m => (wr4 m (b + 8) Quat.identity).bind fun m => (wr4 m (b + 12) Quat.identity).map fun m =>
    (m, ⟨b, b, ⟨b + 8, b + 8⟩, ⟨b + 12, b + 12⟩⟩)

/-- `arr_ = q.arr_` for eight numbers, one after the other. -/
def cp8 (m : Mem) (b a : ℕ) : Option Mem := (copy.wr4Seq m b a).bind fun m => copy.wr4Seq m (b + 4) (a + 4)

/-- `DQuat(const DQuat&)` (dquat.h 89). -/
def dCopy (m : Mem) (b : ℕ) (q : DObj) : Option (Mem × DObj) := (cp8 m b q.arr).map fun m => (m, dOfPtr b b)

/-- `DQuat::operator=(const DQuat&)` (dquat.h 114-118). -/
def dAssign (m : Mem) (p q : DObj) : Option Mem := cp8 m p.arr q.arr

/-- What the group operations and the actions see: `real()` and `dual()` (dquat.h 106-109). -/
def DObj.val (m : Mem) (o : DObj) : Option DQuat := (o.r.val m).bind fun r => (o.d.val m).map fun d => ⟨r, d⟩

/-! ### The error state of the preintegration -/

/-- An `ImuErrorState`: nine numbers and three maps (imu_state.h 10-23). -/
structure EObj where
  data : ℕ
  alpha : ℕ
  beta : ℕ
  gamma : ℕ
deriving DecidableEq

/-- The constructors (imu_state.cxx 55, imu_state.h 14-19). -/
def eMake (b : ℕ) : EObj := ⟨b, b, b + 3, b + 6⟩

/-- Copying nine numbers. -/
def cp9 (m : Mem) (b a : ℕ) : Option Mem := (cp8 m b a).bind fun m => (m (a + 8)).bind fun v => wr m (b + 8) v

/-- The copy constructor is the implicit one: `Vec9` is copied, the maps are copied as maps, that is their addresses. -/
def eCopy (m : Mem) (b : ℕ) (e : EObj) : Option (Mem × EObj) := (cp9 m b e.data).map fun m => (m, { e with data := b })

end Verif.QuatMem
