import Verif.Model.DQuat

/-!
Model of `common/math/so3.h` and `common/math/se3.h`, and of the overloads of `exp` and `log` in
`quat.h` and `dquat.h` that return a Jacobian, with doubles read as real numbers.

An `SO3` is its matrix `rot_` (so3.h 272).  `rectify` (a singular value decomposition) is not modelled.
The entry `e` of the Jacobian of a logarithm is `0/0` at exactly half a turn; the outcome is `none`
there.
-/

namespace Verif.Model.Lie

open Matrix

/-- The coefficients `a`, `b`, `c` shared by all exponentials, above the threshold (so3.h 101-107,
se3.h 91-98, quat.h 187-193). -/
noncomputable def abcTrig (th2 th : ℝ) : ℝ × ℝ × ℝ :=
  let a := Real.sin th / th
  let b := (1 - Real.cos th) / th2
  let c := (1 - a) / th2
  (a, b, c)

/-- Their Taylor polynomials below the threshold (so3.h 94-100, se3.h 84-90, quat.h 194-202). -/
noncomputable def abcTaylor (th2 : ℝ) : ℝ × ℝ × ℝ :=
  let th4 := th2 * th2
  (1 - th2 / 6 + th4 / 120, 1 / 2 - th2 / 24 + th4 / 720, 1 / 6 - th2 / 120 + th4 / 5040)

/-- `a`, `b`, `c` of `SO3::exp` and `SE3::exp` (so3.h 67-81, 91-107; se3.h 81-98): Taylor if
`th2 < 4e-6`. -/
noncomputable def abcSo3 (w : V3) : ℝ × ℝ × ℝ :=
  let th2 := sqNorm w
  if th2 < 4e-6 then abcTaylor th2 else abcTrig th2 (Real.sqrt th2)

/-- `a`, `b`, `c` of `Quat::exp(w, jac)` (quat.h 181-202): Taylor unless `th > 4e-6`. -/
noncomputable def abcQuat (w : V3) : ℝ × ℝ × ℝ :=
  let th2 := sqNorm w
  let th := vnorm w
  if th > 4e-6 then abcTrig th2 th else abcTaylor th2

/-- `Identity + a * W + b * W * W` (so3.h 85, 111; se3.h 102-103). -/
def rodrigues (a b : ℝ) (w : V3) : M3 := 1 + a • skew w + (b • skew w) * skew w

/-- `a * Identity + b * W + c * w * wᵀ` (so3.h 113, quat.h 209). -/
def jacForm (a b c : ℝ) (w : V3) : M3 := a • 1 + b • skew w + c • vecMulVec w w

/-- `(b - 2 * c) / (2 * a)` (so3.h 217, 224; quat.h 257); `0/0` if `a = 0`. -/
noncomputable def eCoef (abc : ℝ × ℝ × ℝ) : Option ℝ :=
  if abc.1 = 0 then none else some ((abc.2.1 - 2 * abc.2.2) / (2 * abc.1))

namespace SO3

/-- `SO3::exp(w)` (so3.h 65-87) and the matrix computed by `SO3::exp(w, jac)` (89-115). -/
noncomputable def exp (w : V3) : M3 := rodrigues (abcSo3 w).1 (abcSo3 w).2.1 w

/-- The Jacobian of `SO3::exp(w, jac)` (so3.h 113). -/
noncomputable def expJac (w : V3) : M3 := jacForm (abcSo3 w).1 (abcSo3 w).2.1 (abcSo3 w).2.2 w

/-- The vector `r` of `SO3::log` (so3.h 125-127). -/
def axis2 (m : M3) : V3 := ![m 2 1 - m 1 2, m 0 2 - m 2 0, m 1 0 - m 0 1]

/-- `rot_.trace()` (so3.h 121). -/
def tr (m : M3) : ℝ := m 0 0 + m 1 1 + m 2 2

/-- The quaternion of the last branch of `SO3::log()` (so3.h 142-161). -/
noncomputable def piQuat (m : M3) : Quat :=
  if m 0 0 > m 1 1 ∧ m 0 0 > m 2 2 then
    let S := Real.sqrt (1 + m 0 0 - m 1 1 - m 2 2) * 2
    ⟨(m 1 2 - m 2 1) / S, 0.25 * S, (m 1 0 + m 0 1) / S, (m 2 0 + m 0 2) / S⟩
  else if m 1 1 > m 2 2 then
    let S := Real.sqrt (1 + m 1 1 - m 0 0 - m 2 2) * 2
    ⟨(m 2 0 - m 0 2) / S, (m 1 0 + m 0 1) / S, 0.25 * S, (m 2 1 + m 1 2) / S⟩
  else
    let S := Real.sqrt (1 + m 2 2 - m 0 0 - m 1 1) * 2
    ⟨(m 0 1 - m 1 0) / S, (m 2 0 + m 0 2) / S, (m 2 1 + m 1 2) / S, 0.25 * S⟩

/-- `SO3::log()` (so3.h 117-167). -/
noncomputable def log (m : M3) : V3 :=
  let t := tr m
  let r := axis2 m
  if t ≥ 3 - 1e-8 then (1 / 2 - (t - 3) / 12) • r
  else if 3 - 1e-8 > t ∧ t > -1 + 1e-8 then
    let θ := Real.arccos ((t - 1) / 2)
    (θ / (2 * Real.sin θ)) • r
  else
    let q := piQuat m
    (2 * atan2 (vnorm q.bar) q.w / vnorm q.bar) • q.bar

/-- The vector computed by `SO3::log(jac)` (so3.h 169-229). -/
noncomputable def logJ (m : M3) : V3 :=
  let t := tr m
  let r := axis2 m
  if t ≥ 3 - 1e-8 then (1 / 2 - (t - 3) / 12) • r
  else if 3 - 1e-8 > t ∧ t > -1 + 1e-8 then
    let θ := Real.arccos ((t - 1) / 2)
    (θ / (2 * Real.sin θ)) • r
  else -(Quat.fromR m).log

/-- The Jacobian computed by `SO3::log(jac)` (so3.h 169-229). -/
noncomputable def logJac (m : M3) : Option M3 :=
  let t := tr m
  let w := logJ m
  let W := skew w
  let th := Real.arccos ((t - 1) / 2)
  if t ≥ 3 - 1e-8 then
    (eCoef (abcTaylor (th * th))).map fun e => 1 - (1 / 2 : ℝ) • W + (e • W) * W
  else if 3 - 1e-8 > t ∧ t > -1 + 1e-8 then
    (eCoef (abcTrig (th * th) th)).map fun e => 1 - (1 / 2 : ℝ) • W + (e • W) * W
  else
    let th2 := sqNorm w
    (eCoef (abcTrig th2 (Real.sqrt th2))).map fun e => -1 + (1 / 2 : ℝ) • W - (e • W) * W

/-- `SO3::times` and `operator*` (so3.h 34, 231). -/
def times (m n : M3) : M3 := m * n

/-- `SO3::inverse` (so3.h 48). -/
def inverse (m : M3) : M3 := m.transpose

/-- `SO3::rotp` (so3.h 240). -/
def rotp (m : M3) (v : V3) : V3 := m.mulVec v

/-- `SO3::rota` (so3.h 241). -/
def rota (m : M3) (v : V3) : V3 := m.transpose.mulVec v

/-- `SO3::from_axis_angle` (so3.h 243-246). -/
noncomputable def fromAxisAngle (axis : V3) (angle : ℝ) : M3 := exp (angle • -(normalized axis))

/-- `SO3::from_two_unit_vectors` (so3.h 248-257). -/
noncomputable def fromTwoUnitVectors (u v : V3) : M3 :=
  let u1 := normalized u
  let u2 := normalized v
  exp (Real.arccos (dot u1 u2) • normalized (cross u1 u2))

/-- `SO3::Ad` (so3.h 260). -/
def Ad (m : M3) : M3 := m

end SO3

/-- `r_` and `t_` (se3.h 245-246). -/
@[ext]
structure SE3 where
  r : M3
  t : V3

namespace SE3

/-- `SE3()` and `SE3::identity` (se3.h 26-30, 36). -/
def identity : SE3 := ⟨1, 0⟩

/-- `operator*` (se3.h 48). -/
def mul (x y : SE3) : SE3 := ⟨x.r * y.r, x.r.mulVec y.t + x.t⟩

/-- `SE3::inverse` (se3.h 50-54). -/
def inverse (x : SE3) : SE3 := ⟨x.r.transpose, -(x.r.transpose.mulVec x.t)⟩

/-- `SE3::matrix` (se3.h 63-71). -/
def matrix (x : SE3) : Matrix (Fin 3 ⊕ Fin 1) (Fin 3 ⊕ Fin 1) ℝ :=
  fromBlocks x.r (Matrix.of fun i _ => x.t i) 0 1

/-- `SE3::transformp` and `operator*` on vectors (se3.h 73-74). -/
def transformp (x : SE3) (v : V3) : V3 := x.r.mulVec v + x.t

/-- `SE3::transforma` (se3.h 75). -/
def transforma (x : SE3) (v : V3) : V3 := x.r.transpose.mulVec (v - x.t)

/-- `SE3::exp(wu)` (se3.h 77-105) and the motion computed by `SE3::exp(wu, jac)` (107-147). -/
noncomputable def exp (x : V6) : SE3 :=
  let k := abcSo3 x.w
  ⟨rodrigues k.1 k.2.1 x.w, (rodrigues k.2.1 k.2.2 x.w).mulVec x.v⟩

/-- `C1` and `C2` above and below the threshold (se3.h 121-122, 131-132; dquat.h 234-235, 246-247). -/
noncomputable def c12 (small : Prop) [Decidable small] (k : ℝ × ℝ × ℝ) (th2 : ℝ) : ℝ × ℝ :=
  if small then
    (-1 / 12 + th2 / 180 - th2 * th2 / 6720, -1 / 60 + th2 / 1260 - th2 * th2 / 60480)
  else ((k.1 - 2 * k.2.1) / th2, (k.2.1 - 3 * k.2.2) / th2)

/-- The block `D` (se3.h 139-142, dquat.h 254, 258-259). -/
def dBlock (k : ℝ × ℝ × ℝ) (C : ℝ × ℝ) (w v : V3) : M3 :=
  k.2.1 • skew v + k.2.2 • (vecMulVec w v + vecMulVec v w)
    + dot w v • ((k.2.2 - k.2.1) • 1 + C.1 • skew w + C.2 • vecMulVec w w)

/-- The Jacobian of `SE3::exp(wu, jac)` (se3.h 107-147). -/
noncomputable def expJac (x : V6) : M6 :=
  let k := abcSo3 x.w
  let A := SO3.expJac x.w
  fromBlocks A 0 (dBlock k (c12 (sqNorm x.w < 4e-6) k (sqNorm x.w)) x.w x.v) A

/-- The coefficient `e` of `SE3::log()` (se3.h 206-218); `0/0` at half a turn. -/
noncomputable def logE (w : V3) : Option ℝ :=
  let th2 := sqNorm w
  let th := Real.sqrt th2
  if th < 1e-4 then some (1 / 12 + th2 * (1 / 720 + th2 * (1 / 30240)))
  else
    let k := abcTrig th2 th
    if k.1 = 0 then none else some ((k.2.1 * 0.5 - k.2.2) / k.1)

/-- `SE3::log()` (se3.h 197-226). -/
noncomputable def log (x : SE3) : Option V6 :=
  let w := SO3.log x.r
  (logE w).map fun e =>
    ⟨w, x.t - (0.5 : ℝ) • cross w x.t + e • cross w (cross w x.t)⟩

/-- The tangent vector and the Jacobian computed by `SE3::log(jac)` (se3.h 149-195) at least `1e-4` away
from the identity; `none` is half a turn or a smaller rotation (Taylor branch, not modelled). -/
noncomputable def logWithJac (x : SE3) : Option (V6 × M6) :=
  let w := SO3.logJ x.r
  let th2 := sqNorm w
  let th := Real.sqrt th2
  let k := abcTrig th2 th
  if th < 1e-4 ∨ k.1 = 0 then none
  else
    (SO3.logJac x.r).map fun E =>
      let e := (k.2.1 * 0.5 - k.2.2) / k.1
      let v := x.t - (0.5 : ℝ) • cross w x.t + e • cross w (cross w x.t)
      let D := dBlock k ((k.1 - 2 * k.2.1) / th2, (k.2.1 - 3 * k.2.2) / th2) w v
      (⟨w, v⟩, fromBlocks E 0 (-(E * D * E)) E)

/-- `SE3::Ad` (se3.h 235-243). -/
def Ad (x : SE3) : M6 := fromBlocks x.r 0 (skew x.t * x.r) x.r

end SE3

/-- Which side a Jacobian acts on (`JacobianSide`, defs.h 27-31). -/
inductive Side
  | left
  | right
  deriving DecidableEq

/-- The Jacobian of `Quat::exp<SIDE>(w, jac)` (quat.h 181-216). -/
noncomputable def Quat.expJac (side : Side) (w : V3) : M3 :=
  let k := abcQuat w
  match side with
  | .left => k.1 • 1 + k.2.1 • skew w + k.2.2 • vecMulVec w w
  | .right => k.1 • 1 - k.2.1 • skew w + k.2.2 • vecMulVec w w

/-- The Jacobian of `Quat::log<SIDE>(jac)` (quat.h 239-288); `none` is 0/0. -/
noncomputable def Quat.logJac (side : Side) (q : Quat) : Option M3 :=
  let n := vnorm q.bar
  if n > 4e-6 then
    let th := 2 * atan2 n q.w
    let W := skew q.logJ
    (eCoef (abcTrig (th * th) th)).map fun e =>
      match side with
      | .left => 1 - (1 / 2 : ℝ) • W + e • (W * W)
      | .right => 1 + (1 / 2 : ℝ) • W + e • (W * W)
  else
    let n2 := n * n
    let n3 := n2 * n
    let n5 := n3 * n2
    let w2 := q.w * q.w
    let w3 := w2 * q.w
    let w5 := w3 * w2
    let th := 2 * (n / q.w - n3 / (3 * w3) + n5 / 5 * w5)
    let th2 := th * th
    let e := 1 / 12 + th2 / 720 + th2 * th2 / 30240
    let W := skew q.logJ
    some (match side with
      | .left => 1 - (1 / 2 : ℝ) • W + e • (W * W)
      | .right => 1 + (1 / 2 : ℝ) • W + e • (W * W))

/-- `a`, `b`, `c` inside `DQuat::exp(wv, jac)` (dquat.h 226-248). -/
noncomputable def abcDQuat (w : V3) : ℝ × ℝ × ℝ :=
  let th2 := sqNorm w
  if th2 > 4e-6 then abcTrig th2 (Real.sqrt th2) else abcTaylor th2

/-- The Jacobian of `DQuat::exp<SIDE>(wv, jac)` (dquat.h 211-270). -/
noncomputable def DQuat.expJac (side : Side) (x : V6) : M6 :=
  let k := abcDQuat x.w
  let C := SE3.c12 (¬ sqNorm x.w > 4e-6) k (sqNorm x.w)
  let A := Quat.expJac side x.w
  match side with
  | .left => fromBlocks A 0 (SE3.dBlock k C x.w x.v) A
  | .right => fromBlocks A 0 (-k.2.1 • skew x.v + k.2.2 • (vecMulVec x.w x.v + vecMulVec x.v x.w)
      + dot x.w x.v • ((k.2.2 - k.2.1) • 1 - C.1 • skew x.w + C.2 • vecMulVec x.w x.w)) A

/-- The tangent vector computed by `DQuat::log(jac)` (dquat.h 311-383): the rotation part is that of
`Quat::log(jac)`, and the branch is chosen by the length of the rotation part. -/
noncomputable def DQuat.logJ (p : DQuat) : V6 :=
  let r := p.r.bar
  let d := p.d.bar
  let r0 := p.r.w
  let d0 := p.d.w
  let s2 := sqNorm r
  let gm := dot r d
  let w := p.r.logJ
  if sqNorm w > 4e-6 then
    let s := Real.sqrt s2
    let a := atan2 s r0 / s
    let b := gm / s2
    ⟨w, (2 : ℝ) • (a • d + ((r0 - a) * b - d0) • r)⟩
  else
    let r02 := r0 * r0
    let r03 := r02 * r0
    let r05 := r03 * r02
    let s4 := s2 * s2
    let s6 := s4 * s2
    let a := 1 - 1 / (3 * r03) * s2 + 1 / (5 * r05) * s4
    let c := 5 / 24 - 379 / 1920 * s2 + 46073 / 322560 * s4 - 127431 / 1146880 * s6
    ⟨w, (2 : ℝ) • (a • d + (gm * c - d0) • r)⟩

/-- The Jacobian of `DQuat::log<SIDE>(jac)` (dquat.h 323, 327-380); `none` where the rotation block
`Ainv` of `Quat::log` is 0/0. -/
noncomputable def DQuat.logJac (side : Side) (p : DQuat) : Option M6 :=
  let x := p.logJ
  let k := abcDQuat x.w
  let C := SE3.c12 (¬ sqNorm x.w > 4e-6) k (sqNorm x.w)
  (Quat.logJac side p.r).map fun E =>
    let D := match side with
      | .left => SE3.dBlock k C x.w x.v
      | .right => -k.2.1 • skew x.v + k.2.2 • (vecMulVec x.w x.v + vecMulVec x.v x.w)
          + dot x.w x.v • ((k.2.2 - k.2.1) • 1 - C.1 • skew x.w + C.2 • vecMulVec x.w x.w)
    fromBlocks E 0 (-(E * D * E)) E

end Verif.Model.Lie
