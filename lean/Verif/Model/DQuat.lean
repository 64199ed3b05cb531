import Verif.Model.Quat
import Mathlib.Data.Matrix.Block

/-!
Model of `common/math/dquat.h`, with doubles read as real numbers.  A dual quaternion is its real and
its dual part; in the C++ class these are two `Quat`s mapped onto the eight elements `arr_`
(dquat.h 64-66, 73).  The one constructor that does not set up the mapping is modelled separately
(`eightArg`).
-/

namespace Verif.Model.Lie

/-- `r_` and `d_` (dquat.h 65-66). -/
@[ext]
structure DQuat where
  r : Quat
  d : Quat

/-- A tangent vector `Vec6`: rotation part first (`head<3>`), then translation part (`tail<3>`). -/
@[ext]
structure V6 where
  w : V3
  v : V3

/-- `Mat6` as two by two blocks of 3×3 matrices. -/
abbrev M6 := Matrix (Fin 3 ⊕ Fin 3) (Fin 3 ⊕ Fin 3) ℝ

/-- The product of a `Mat6` with a `Vec6`, block by block. -/
def M6.apply (A : M6) (x : V6) : V6 :=
  ⟨A.toBlocks₁₁.mulVec x.w + A.toBlocks₁₂.mulVec x.v,
   A.toBlocks₂₁.mulVec x.w + A.toBlocks₂₂.mulVec x.v⟩

namespace DQuat

/-- `DQuat::identity`, the default constructor (dquat.h 68-72, 154-155). -/
def identity : DQuat := ⟨Quat.identity, ⟨0, 0, 0, 0⟩⟩

/-- `DQuat(const Quat& q, const Vec3& t)` (dquat.h 95-99). -/
noncomputable def ofQT (q : Quat) (t : V3) : DQuat :=
  ⟨q, Quat.smul 0.5 ((Quat.pure t).otimes q)⟩

/-- The constructor from eight numbers (dquat.h 76-86).  Its initialiser list sets `buf_` and `arr_`
but not `r_` and `d_`, which are therefore default-constructed identity quaternions in their own
memory.  The pair is (what `arr_` holds, what `real()` and `dual()` return). -/
def eightArg (r d : Quat) : DQuat × DQuat := (⟨r, d⟩, ⟨Quat.identity, Quat.identity⟩)

/-- `DQuat::otimes` (dquat.h 129-135) and `operator*` (113). -/
def otimes (p q : DQuat) : DQuat :=
  ⟨p.r.otimes q.r, (p.r.otimes q.d).add (p.d.otimes q.r)⟩

/-- `DQuat::translation` (dquat.h 137). -/
def translation (p : DQuat) : V3 := (2 : ℝ) • (p.d.otimes p.r.inverse).bar

/-- `DQuat::inverse` (dquat.h 162). -/
def inverse (p : DQuat) : DQuat := ⟨p.r.inverse, p.d.inverse⟩

/-- `DQuat::transformp` (dquat.h 140-145). -/
def transformp (p : DQuat) (v : V3) : V3 := p.r.rotp (v - p.translation)

/-- `DQuat::transforma` (dquat.h 146-151). -/
def transforma (p : DQuat) (v : V3) : V3 := p.r.rota v + p.translation

/-- `DQuat::from_4x4` (dquat.h 156-160) of the matrix with the blocks `m` and `t` in its first three
rows. -/
noncomputable def from4x4 (m : M3) (t : V3) : DQuat :=
  let q := Quat.fromR m
  ofQT q (q.rota t)

/-- The factors `sinct` and `gross / gm` of `DQuat::exp` (dquat.h 179-192). -/
noncomputable def expCoeffs (th2 th ct : ℝ) : ℝ × ℝ :=
  if th2 > 4e-6 then
    let s := Real.sin (th / 2) / th
    (s, (0.5 * ct - s) / th2)
  else
    let th4 := th2 * th2
    (0.5 - 1 / 48 * th2 + 1 / 3840 * th4, -1 / 24 + 1 / 960 * th2 - 1 / 107520 * th4)

/-- `DQuat::exp` (dquat.h 170-198). -/
noncomputable def exp (x : V6) : DQuat :=
  let th2 := sqNorm x.w
  let th := Real.sqrt th2
  let gm := dot x.w x.v
  let ct := Real.cos (th / 2)
  let s := (expCoeffs th2 th ct).1
  let g := gm * (expCoeffs th2 th ct).2
  ⟨⟨ct, s * x.w 0, s * x.w 1, s * x.w 2⟩,
   ⟨-gm / 2 * s, g * x.w 0 + s * x.v 0, g * x.w 1 + s * x.v 1, g * x.w 2 + s * x.v 2⟩⟩

/-- `DQuat::log` (dquat.h 272-309). -/
noncomputable def log (p : DQuat) : V6 :=
  let r := p.r.bar
  let d := p.d.bar
  let r0 := p.r.w
  let d0 := p.d.w
  let th2 := sqNorm r
  let gm := dot r d
  if th2 > 1e-8 then
    let th := Real.sqrt th2
    let a := atan2 th r0 / th
    let b := gm / th2
    ⟨(2 * a) • r, (2 : ℝ) • (a • d + ((r0 - a) * b - d0) • r)⟩
  else
    let r02 := r0 * r0
    let r03 := r02 * r0
    let r05 := r03 * r02
    let th4 := th2 * th2
    let th6 := th4 * th2
    let a := 1 - 1 / (3 * r03) * th2 + 1 / (5 * r05) * th4
    let c := 5 / 24 - 379 / 1920 * th2 + 46073 / 322560 * th4 - 127431 / 1146880 * th6
    ⟨(2 * a) • r, (2 : ℝ) • (a • d + (gm * c - d0) • r)⟩

/-- `DQuat::Ad` (dquat.h 385-394). -/
def Ad (p : DQuat) : M6 :=
  Matrix.fromBlocks p.r.R.transpose 0 (skew p.translation * p.r.R.transpose) p.r.R.transpose

/-- `DQuat::dParamDGen` (dquat.h 398-410). -/
noncomputable def dParamDGen (p : DQuat) : Matrix (Fin 4 ⊕ Fin 4) (Fin 3 ⊕ Fin 3) ℝ :=
  Matrix.fromBlocks p.r.dParamDGen 0 p.d.dParamDGen p.r.dParamDGen

/-- `DQuat::dGenDParam` (dquat.h 412-424). -/
def dGenDParam (p : DQuat) : Matrix (Fin 3 ⊕ Fin 3) (Fin 4 ⊕ Fin 4) ℝ :=
  Matrix.fromBlocks p.r.dGenDParam 0 p.d.dGenDParam p.r.dGenDParam

/-- What `serialize` writes for a `DQuat` (serialize.cxx 87-90): rotation and translation. -/
def toLog (p : DQuat) : Quat × V3 := (p.r, p.translation)

/-- What `deserialize` makes of it (serialize.cxx 91-97). -/
noncomputable def ofLog (x : Quat × V3) : DQuat := ofQT x.1 x.2

end DQuat

end Verif.Model.Lie
