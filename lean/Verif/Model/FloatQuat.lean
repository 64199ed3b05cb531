import Verif.Model.Quat
/-!
# Model of products of quaternions and of rotations of vectors in `double`s

common/math/quat.h 97-129, 159-179, 440, 472-489.

`Model/Quat.lean` computes with real numbers; here every operation is followed by a rounding `r`,
which is a parameter.  The compiler may evaluate a product and the addition that follows in one operation
with one rounding: the parameter `fma` says whether it does.  Overflow is not modelled: there is no largest number.
The sine and the cosine of the library are arbitrary functions `S` and `C`; square roots are rounded correctly; sums of squares
are formed in the order of the coefficients; halving is exact.
-/
namespace Verif.FQuat
open Verif.Model.Lie

/-- `acc + a * b` for `s = 1`, `acc - a * b` for `s = -1`. -/
def term (r : ℝ → ℝ) (fma : Bool) (acc s a b : ℝ) : ℝ :=
  if fma then r (acc + s * (a * b)) else r (acc + s * r (a * b))

/-- `a0 * b0 ± a1 * b1 ± a2 * b2 ± a3 * b3`, from left to right. -/
def sum4 (r : ℝ → ℝ) (fma : Bool) (a0 b0 s1 a1 b1 s2 a2 b2 s3 a3 b3 : ℝ) : ℝ :=
  term r fma (term r fma (term r fma (r (a0 * b0)) s1 a1 b1) s2 a2 b2) s3 a3 b3

/-- `otimes` (quat.h 117-128) and `operator*` (96-100); `operator*=` (101-115) of another object. -/
def mul (r : ℝ → ℝ) (fma : Bool) (p q : Quat) : Quat where
  w := sum4 r fma p.w q.w (-1) p.x q.x (-1) p.y q.y (-1) p.z q.z
  x := sum4 r fma p.w q.x 1 p.x q.w 1 p.y q.z (-1) p.z q.y
  y := sum4 r fma p.w q.y (-1) p.x q.z 1 p.y q.w 1 p.z q.x
  z := sum4 r fma p.w q.z 1 p.x q.y (-1) p.y q.x 1 p.z q.w

/-- Products one after the other, as in imu_state.cxx 47-53 (`gamma = gamma * exp(...)`) and in the states of the
filter; nothing normalises the result. -/
def compose (r : ℝ → ℝ) (fma : Bool) (es : List Quat) : Quat := es.foldl (mul r fma) Quat.identity

/-- `a * b - c * d`, a coefficient of Eigen's cross product. -/
def det2 (r : ℝ → ℝ) (fma : Bool) (a b c d : ℝ) : ℝ := term r fma (r (a * b)) (-1) c d

/-- `v.cross(u)`. -/
def cross (r : ℝ → ℝ) (fma : Bool) (v u : V3) : V3 :=
  ![det2 r fma (v 1) (u 2) (v 2) (u 1), det2 r fma (v 2) (u 0) (v 0) (u 2), det2 r fma (v 0) (u 1) (v 1) (u 0)]

/-- `v ± w * t + t.cross(bar())` with `t = 2 * v.cross(bar())`: `rotp` (quat.h 482-489) for `s = 1`, `rota`
(472-479) for `s = -1`. -/
def rot (r : ℝ → ℝ) (fma : Bool) (s : ℝ) (q : Quat) (v : V3) : V3 :=
  let t : V3 := fun i => r (2 * cross r fma v q.bar i)
  fun i => r (term r fma (v i) s q.w (t i) + cross r fma t q.bar i)

/-- The sum of three squares. -/
def sq3 (r : ℝ → ℝ) (fma : Bool) (a b c : ℝ) : ℝ := term r fma (term r fma (r (a * a)) 1 b b) 1 c c

/-- The sum of four squares. -/
def sq4 (r : ℝ → ℝ) (fma : Bool) (a b c d : ℝ) : ℝ := term r fma (sq3 r fma a b c) 1 d d

/-- `normalize` (quat.h 440). -/
noncomputable def normalize (r : ℝ → ℝ) (fma : Bool) (q : Quat) : Quat :=
  let m := r (Real.sqrt (sq4 r fma q.w q.x q.y q.z))
  ⟨r (q.w / m), r (q.x / m), r (q.y / m), r (q.z / m)⟩

open Classical in
/-- `exp(v)` (quat.h 159-179). -/
noncomputable def exp (r S C : ℝ → ℝ) (fma : Bool) (v : V3) : Quat :=
  let n := r (Real.sqrt (sq3 r fma (v 0) (v 1) (v 2)))
  if n > r (4 / 10 ^ 6) then
    let s := r (S (n / 2) / n)
    ⟨C (n / 2), r (s * v 0), r (s * v 1), r (s * v 2)⟩
  else
    let n2 := r (n * n)
    let n4 := r (n2 * n2)
    let s := r (r (1 / 2 - r (n2 / 48)) + r (n4 / 3840))
    normalize r fma ⟨C (n / 2), r (s * v 0), r (s * v 1), r (s * v 2)⟩

end Verif.FQuat
