import Verif.Model.LogFormat
/-!
# What a log file says to a reader: C110

`View.view p x` lists everything in the value `x`: the names leading to each number, the index of the
number in its array, and the number.  Matrices are listed by row and column.
-/
namespace Verif.Log.Spec

open Verif.Log

/-- The number of a C++ object. -/
class Number (α : Type) where
  num : α → Num

instance : Number F64 := ⟨fun x => .f64 x.bits.toNat⟩
instance : Number F32 := ⟨fun x => .f32 x.bits.toNat⟩
instance : Number Int64 := ⟨fun x => .int x.toInt⟩
instance : Number Int32 := ⟨fun x => .int x.toInt⟩
instance : Number Int16 := ⟨fun x => .int x.toInt⟩
instance : Number Int8 := ⟨fun x => .int x.toInt⟩
instance : Number UInt64 := ⟨fun x => .int x.toNat⟩
instance : Number UInt32 := ⟨fun x => .int x.toNat⟩
instance : Number UInt16 := ⟨fun x => .int x.toNat⟩
instance : Number UInt8 := ⟨fun x => .int x.toNat⟩

/-- Everything in a value. -/
class View (α : Type) where
  view : List String → α → Reading

open View Number

instance {α : Type} [Number α] : View α := ⟨fun p x => [((p, []), num x)]⟩

/-- A column vector is a matrix with one column. -/
instance {α : Type} [Number α] {n : Nat} : View (Vector α n) :=
  ⟨fun p x => (List.finRange n).map fun i => ((p, [i.val, 0]), num x[i.val])⟩

/-- Entry `(i, j)` of a matrix. -/
def entry {α : Type} {r c : Nat} (m : EMat α r c) (i : Fin r) (j : Fin c) : α :=
  m.data[i.val + r * j.val]'(by
    have := i.isLt; have := j.isLt
    calc i.val + r * j.val < r + r * j.val := by omega
      _ = r * (j.val + 1) := by rw [Nat.mul_add, Nat.mul_one, Nat.add_comm]
      _ ≤ r * c := Nat.mul_le_mul_left _ (by omega))

instance {α : Type} [Number α] {r c : Nat} : View (EMat α r c) :=
  ⟨fun p m => (List.finRange r).flatMap fun i => (List.finRange c).map fun j =>
    ((p, [i.val, j.val]), num (entry m i j))⟩

/-- A column vector whose length is chosen at run time. -/
instance {α : Type} [Number α] : View (List α) :=
  ⟨fun p x => x.zipIdx.map fun a => ((p, [a.2, 0]), num a.1)⟩

instance : View Stamp := ⟨fun p x => view (p ++ ["sec"]) x.sec ++ view (p ++ ["nsec"]) x.nsec⟩

instance : View ImuSample :=
  ⟨fun p x => view (p ++ ["t"]) x.t ++ view (p ++ ["accel"]) x.accel ++ view (p ++ ["gyro"]) x.gyro⟩

instance : View GnssObservation :=
  ⟨fun p x => view (p ++ ["t"]) x.t ++ view (p ++ ["gnss_id"]) x.gnss_id ++
    view (p ++ ["sat_num"]) x.sat_num ++ view (p ++ ["freq"]) x.freq ++
    view (p ++ ["pseudorange"]) x.pseudorange ++ view (p ++ ["doppler"]) x.doppler ++
    view (p ++ ["carrier_phase"]) x.carrier_phase⟩

/-- Coefficients in the order of math/quat.h 66-69: `w() = arr_(0)`, ... -/
instance : View Quat :=
  ⟨fun p x => view (p ++ ["w"]) x.arr_[0] ++ view (p ++ ["x"]) x.arr_[1] ++
    view (p ++ ["y"]) x.arr_[2] ++ view (p ++ ["z"]) x.arr_[3]⟩

instance : View Pose :=
  ⟨fun p x => view (p ++ ["rot"]) x.q ++ view (p ++ ["trans"]) x.translation⟩

/-- math/dquat.h 30-31: `angular()` is the head, `linear()` the tail. -/
def tangentView (p : List String) (x : Vector F64 6) : Reading :=
  view (p ++ ["angular"]) #v[x[0], x[1], x[2]] ++ view (p ++ ["linear"]) #v[x[3], x[4], x[5]]

instance : View Tangent := ⟨fun p x => tangentView p x.v⟩

instance : View Jet := ⟨fun p x => view (p ++ ["x"]) x.x ++ tangentView (p ++ ["dx"]) x.dx⟩

instance : View TwoJet :=
  ⟨fun p x => view (p ++ ["x"]) x.x ++ tangentView (p ++ ["dx"]) x.dx ++
    tangentView (p ++ ["d2x"]) x.d2x⟩

/-- A column together with the meaning of its values. -/
structure VCol extends Col where
  [view : View α]

/-- The columns without their meaning. -/
def cols (vs : List VCol) : List Col := vs.map VCol.toCol

/-- Everything in the values of a record. -/
def rowView : (vs : List VCol) → Row (cols vs) → Reading
  | [], _ => []
  | v :: vs, x => v.view.view [v.name] x.1 ++ rowView vs x.2

/-- Everything in a record: the stamp `t` and the values. -/
def recordView (vs : List VCol) (r : Stamp × Row (cols vs)) : Reading :=
  view ["t"] r.1 ++ rowView vs r.2

/-- The Python reader gives back what was logged. -/
def ReadsBack (vs : List VCol) : Prop :=
  ∀ rs : List (Stamp × Row (cols vs)),
    pyLoad (cols vs) (streamFile (cols vs) rs) = some (rs.map (recordView vs))

/-- Names the logger should take: different from each other and from the stamp. -/
def GoodNames (ns : List String) : Prop := ns.Nodup ∧ "t" ∉ ns

end Verif.Log.Spec
