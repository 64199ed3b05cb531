import Mathlib.Analysis.Real.Sqrt
import Mathlib.Analysis.SpecialFunctions.Trigonometric.Inverse
import Mathlib.Analysis.SpecialFunctions.Complex.Arg
import Mathlib.Data.Matrix.Mul
import Mathlib.LinearAlgebra.Matrix.Notation

/-!
Model of `common/math/quat.h`, with doubles read as real numbers.

A quaternion is its four elements (`arr_`, quat.h 61); the fact that `arr_` may map memory owned by
somebody else (quat.h 36, 40) is not modelled here.  Vectors are `Fin 3 → ℝ` and matrices are
Mathlib matrices.  A division `0/0` (a quaternion of NaNs in C++) is the outcome `none` where it can
happen (`fromAxisAngle`); everywhere else the denominators are shown to be non-zero by the theorems.
-/

namespace Verif.Model.Lie

/-- `Vec3` (quat.h 26). -/
abbrev V3 := Fin 3 → ℝ

/-- `Mat3` (quat.h 27). -/
abbrev M3 := Matrix (Fin 3) (Fin 3) ℝ

/-- `Eigen::cross` of two 3-vectors. -/
def cross (a b : V3) : V3 :=
  ![a 1 * b 2 - a 2 * b 1, a 2 * b 0 - a 0 * b 2, a 0 * b 1 - a 1 * b 0]

/-- `Eigen::dot` of two 3-vectors. -/
def dot (a b : V3) : ℝ := a 0 * b 0 + a 1 * b 1 + a 2 * b 2

/-- `Eigen::squaredNorm` of a 3-vector. -/
def sqNorm (a : V3) : ℝ := dot a a

/-- `Eigen::norm` of a 3-vector. -/
noncomputable def vnorm (a : V3) : ℝ := Real.sqrt (sqNorm a)

/-- `Eigen::normalized`: a vector of zero squared norm is returned unchanged. -/
noncomputable def normalized (a : V3) : V3 := if 0 < sqNorm a then (vnorm a)⁻¹ • a else a

/-- `skew` (matrix_defs.h 97-109). -/
def skew (v : V3) : M3 :=
  !![0, -v 2, v 1;
     v 2, 0, -v 0;
     -v 1, v 0, 0]

/-- `std::atan2`, the argument of `x + i y` in `(-π, π]`. -/
noncomputable def atan2 (y x : ℝ) : ℝ := Complex.arg ⟨x, y⟩

/-- The four elements of a `Quat` (quat.h 61). -/
@[ext]
structure Quat where
  w : ℝ
  x : ℝ
  y : ℝ
  z : ℝ

namespace Quat

/-- `Quat::Identity` (quat.h 364-369) and the default constructor (32). -/
def identity : Quat := ⟨1, 0, 0, 0⟩

/-- `Quat::operator+` (quat.h 78-83). -/
def add (p q : Quat) : Quat := ⟨p.w + q.w, p.x + q.x, p.y + q.y, p.z + q.z⟩

/-- `Quat::operator-` (quat.h 84-89). -/
def sub (p q : Quat) : Quat := ⟨p.w - q.w, p.x - q.x, p.y - q.y, p.z - q.z⟩

/-- `Quat::operator*(const T&)` (quat.h 90-95). -/
def smul (s : ℝ) (q : Quat) : Quat := ⟨s * q.w, s * q.x, s * q.y, s * q.z⟩

/-- `Quat::otimes` (quat.h 118-129), also `operator*` (97-100). -/
def otimes (p q : Quat) : Quat :=
  ⟨p.w * q.w - p.x * q.x - p.y * q.y - p.z * q.z,
   p.w * q.x + p.x * q.w + p.y * q.z - p.z * q.y,
   p.w * q.y - p.x * q.z + p.y * q.w + p.z * q.x,
   p.w * q.z + p.x * q.y - p.y * q.x + p.z * q.w⟩

/-- `Quat::operator*=` (quat.h 101-115) for a right factor that lies elsewhere in memory.  The elements of
`*this` are saved first, those of `q` are not: see `Model/QuatMem.lean` for a factor that is the same object. -/
def mulAssign (p q : Quat) : Quat :=
  let w := p.w
  let x := p.x
  let y := p.y
  let z := p.z
  ⟨w * q.w - x * q.x - y * q.y - z * q.z,
   w * q.x + x * q.w + y * q.z - z * q.y,
   w * q.y - x * q.z + y * q.w + z * q.x,
   w * q.z + x * q.y - y * q.x + z * q.w⟩

/-- `Quat::inverse` (quat.h 493-501). -/
def inverse (q : Quat) : Quat := ⟨q.w, -q.x, -q.y, -q.z⟩

/-- `arr_.squaredNorm()`. -/
def sqNorm (q : Quat) : ℝ := q.w * q.w + q.x * q.x + q.y * q.y + q.z * q.z

/-- `Quat::norm` (quat.h 505). -/
noncomputable def norm (q : Quat) : ℝ := Real.sqrt q.sqNorm

/-- `Quat::normalize` (quat.h 440). -/
noncomputable def normalize (q : Quat) : Quat :=
  ⟨q.w / q.norm, q.x / q.norm, q.y / q.norm, q.z / q.norm⟩

/-- `Quat::bar` (quat.h 407-411). -/
def bar (q : Quat) : V3 := ![q.x, q.y, q.z]

/-- `Quat::make_pure` (quat.h 289-294). -/
def pure (v : V3) : Quat := ⟨0, v 0, v 1, v 2⟩

/-- `Quat::rota` (quat.h 472-479). -/
def rota (q : Quat) (v : V3) : V3 :=
  let t := (2 : ℝ) • cross v q.bar
  v - q.w • t + cross t q.bar

/-- `Quat::rotp` (quat.h 482-489). -/
def rotp (q : Quat) (v : V3) : V3 :=
  let t := (2 : ℝ) • cross v q.bar
  v + q.w • t + cross t q.bar

/-- `Quat::R` (quat.h 413-431). -/
def R (q : Quat) : M3 :=
  !![1 - 2 * (q.y * q.y) - 2 * (q.z * q.z), 2 * (q.x * q.y) + 2 * (q.w * q.z),
       2 * (q.x * q.z) - 2 * (q.w * q.y);
     2 * (q.x * q.y) - 2 * (q.w * q.z), 1 - 2 * (q.x * q.x) - 2 * (q.z * q.z),
       2 * (q.y * q.z) + 2 * (q.w * q.x);
     2 * (q.x * q.z) + 2 * (q.w * q.y), 2 * (q.y * q.z) - 2 * (q.w * q.x),
       1 - 2 * (q.x * q.x) - 2 * (q.y * q.y)]

/-- `Quat::Ad` (quat.h 503). -/
def Ad (q : Quat) : M3 := q.R.transpose

/-- `Quat::dParamDGen` (quat.h 507-517). -/
noncomputable def dParamDGen (q : Quat) : Matrix (Fin 4) (Fin 3) ℝ :=
  !![-q.x / 2, -q.y / 2, -q.z / 2;
     q.w / 2, -q.z / 2, q.y / 2;
     q.z / 2, q.w / 2, -q.x / 2;
     -q.y / 2, q.x / 2, q.w / 2]

/-- `Quat::dGenDParam` (quat.h 519-528). -/
def dGenDParam (q : Quat) : Matrix (Fin 3) (Fin 4) ℝ :=
  !![-q.x * 2, q.w * 2, q.z * 2, -q.y * 2;
     -q.y * 2, -q.z * 2, q.w * 2, q.x * 2;
     -q.z * 2, q.y * 2, -q.x * 2, q.w * 2]

/-- `Quat::exp(v)` (quat.h 159-179). -/
noncomputable def exp (v : V3) : Quat :=
  let n := vnorm v
  if n > 4e-6 then
    let s := Real.sin (n / 2) / n
    ⟨Real.cos (n / 2), s * v 0, s * v 1, s * v 2⟩
  else
    let n2 := n * n
    let n4 := n2 * n2
    let s := 0.5 - n2 / 48 + n4 / 3840
    normalize ⟨Real.cos (n / 2), s * v 0, s * v 1, s * v 2⟩

/-- The quaternion computed by `Quat::exp(w, jac)` (quat.h 181-207). -/
noncomputable def expJ (v : V3) : Quat :=
  let n2 := Lie.sqNorm v
  let n := vnorm v
  let s := if n > 4e-6 then Real.sin (n / 2) / n
    else
      let n4 := n2 * n2
      0.5 - n2 / 48 + n4 / 3840
  normalize ⟨Real.cos (n / 2), s * v 0, s * v 1, s * v 2⟩

/-- `Quat::log()` (quat.h 219-237). -/
noncomputable def log (q : Quat) : V3 :=
  let v := q.bar
  let n := vnorm v
  if n > 4e-6 then (2 * atan2 n q.w / n) • v
  else
    let n2 := n * n
    let n4 := n2 * n2
    let w3 := q.w * q.w * q.w
    let w5 := w3 * q.w * q.w
    (2 * (1 / q.w - n2 / (3 * w3) + n4 / (5 * w5))) • v

/-- The vector computed by `Quat::log(jac)` (quat.h 239-287).  In the Taylor branch the last term is
`(n5 / 5 * w5)`, which C++ parses as `(n5 / 5) * w5`. -/
noncomputable def logJ (q : Quat) : V3 :=
  let v := q.bar
  let n := vnorm v
  if n > 4e-6 then (2 * atan2 n q.w) • (n⁻¹ • v)
  else
    let n2 := n * n
    let n3 := n2 * n
    let n5 := n3 * n2
    let w2 := q.w * q.w
    let w3 := w2 * q.w
    let w5 := w3 * w2
    let th := 2 * (n / q.w - n3 / (3 * w3) + n5 / 5 * w5)
    if n = 0 then th • ![1, 0, 0] else th • (n⁻¹ • v)

/-- `Quat::from_R` (quat.h 297-327). -/
noncomputable def fromR (m : M3) : Quat :=
  let tr := m 0 0 + m 1 1 + m 2 2
  if tr > 0 then
    let S := Real.sqrt (tr + 1) * 2
    ⟨0.25 * S, (m 1 2 - m 2 1) / S, (m 2 0 - m 0 2) / S, (m 0 1 - m 1 0) / S⟩
  else if m 0 0 > m 1 1 ∧ m 0 0 > m 2 2 then
    let S := Real.sqrt (1 + m 0 0 - m 1 1 - m 2 2) * 2
    ⟨(m 1 2 - m 2 1) / S, 0.25 * S, (m 1 0 + m 0 1) / S, (m 2 0 + m 0 2) / S⟩
  else if m 1 1 > m 2 2 then
    let S := Real.sqrt (1 + m 1 1 - m 0 0 - m 2 2) * 2
    ⟨(m 2 0 - m 0 2) / S, (m 1 0 + m 0 1) / S, 0.25 * S, (m 2 1 + m 1 2) / S⟩
  else
    let S := Real.sqrt (1 + m 2 2 - m 0 0 - m 1 1) * 2
    ⟨(m 0 1 - m 1 0) / S, (m 2 0 + m 0 2) / S, (m 2 1 + m 1 2) / S, 0.25 * S⟩

open Classical in
/-- `Quat::from_axis_angle` (quat.h 329-340).  `none` is the division of zeros by zero. -/
noncomputable def fromAxisAngle (axis : V3) (angle : ℝ) : Option Quat :=
  let a2 := angle / 2
  let s := Real.sin a2
  let out : Quat := ⟨Real.cos a2, axis 0 * s, axis 1 * s, axis 2 * s⟩
  if out.norm = 0 then none else some out.normalize

/-- `Quat::from_euler` (quat.h 342-355) and the three-angle constructor (44-60). -/
noncomputable def fromEuler (roll pitch yaw : ℝ) : Quat :=
  let cp := Real.cos (roll / 2)
  let ct := Real.cos (pitch / 2)
  let cs := Real.cos (yaw / 2)
  let sp := Real.sin (roll / 2)
  let st := Real.sin (pitch / 2)
  let ss := Real.sin (yaw / 2)
  ⟨cp * ct * cs + sp * st * ss, sp * ct * cs - cp * st * ss,
   cp * st * cs + sp * ct * ss, cp * ct * ss - sp * st * cs⟩

/-- `Quat::from_two_unit_vectors` (quat.h 357-362). -/
noncomputable def fromTwoUnitVectors (u v : V3) : Option Quat :=
  fromAxisAngle (normalized (cross u v)) (-Real.arccos (dot u v))

/-- `Quat::roll` (quat.h 379-382). -/
noncomputable def roll (q : Quat) : ℝ :=
  atan2 (2 * (q.w * q.x + q.y * q.z)) (1 - 2 * (q.x * q.x + q.y * q.y))

/-- `Quat::pitch` (quat.h 384-393); `copysign(1, val)` of a non-zero `val` is its sign. -/
noncomputable def pitch (q : Quat) : ℝ :=
  let val := 2 * (q.w * q.y - q.x * q.z)
  if |val| > 1 then (if val < 0 then -1 else 1) * Real.pi / 2 else Real.arcsin val

/-- `Quat::yaw` (quat.h 395-398). -/
noncomputable def yaw (q : Quat) : ℝ :=
  atan2 (2 * (q.w * q.z + q.x * q.y)) (1 - 2 * (q.y * q.y + q.z * q.z))

end Quat

end Verif.Model.Lie
