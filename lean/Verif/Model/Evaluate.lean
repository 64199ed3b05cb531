import Verif.Model.Factor
import Verif.Model.Imu
import Verif.Model.QuatMem

/-!
# Model of `Evaluate` of the factors as functions on memory

models/gnss_dynamics_model.cxx 13-77, models/relative_carrier_phase_model.cxx 62-200, models/prange_model.cxx 55-180,
models/pose_error_model.cxx 10-38, models/imu_model.cxx 135-265, and the members of the classes in the headers.

Memory is that of `Model/QuatMem.lean`: addresses to numbers, access to an address without number is undefined behaviour
(`none`).  `parameters` are addresses, `jacobians` is null or an array of addresses some of which are null.  Members declared
as references are addresses too, and poses made of `parameters[i]` are maps onto the parameters (dquat.h 74), so that every
statement reads the parameters and the objects referred to again.

Simplifications: a statement computes its values before it stores the first one; local variables (`jac` of the class
`PoseJacobian` in two of the files) are values; the array `jacobians` has one entry for every parameter.  The numbers
themselves are those of `Model/Factor.lean` and `Model/Imu.lean`.
-/

namespace Verif.Model.Evaluate

open Verif.Model.Lie Verif.Model.Ekf Verif.Model.Factor Verif.Model.Imu Verif.QuatMem Matrix

/-- `n` consecutive numbers, `Eigen::Map<const VecN>`. -/
def rdV (n : ℕ) (m : Mem) (a : ℕ) : Option (Fin n → ℝ) :=
  if h : ∀ i : Fin n, (m (a + i)).isSome then some fun i => (m (a + i)).get (h i) else none

/-- The numbers a map of `n` elements at `a` can reach. -/
def blk (m : Mem) (a n : ℕ) : Mem := fun i => if i < n then m (a + i) else none

/-- One statement that assigns to a rectangle of a row-major map.  The map is the residual (`none`) or `jacobians[i]`. -/
structure Stmt (X : Type) where
  block : Option ℕ
  stride : ℕ
  r0 : ℕ
  c0 : ℕ
  rows : ℕ
  cols : ℕ
  val : X → Mem → Option (ℕ → ℕ → ℝ)

/-- Whether the element `i` of the map is in the rectangle. -/
def Stmt.has {X : Type} (s : Stmt X) (i : ℕ) : Prop :=
  s.r0 ≤ i / s.stride ∧ i / s.stride < s.r0 + s.rows ∧ s.c0 ≤ i % s.stride ∧ i % s.stride < s.c0 + s.cols

instance {X : Type} (s : Stmt X) (i : ℕ) : Decidable (s.has i) :=
  inferInstanceAs (Decidable (s.r0 ≤ i / s.stride ∧ i / s.stride < s.r0 + s.rows ∧ s.c0 ≤ i % s.stride ∧
    i % s.stride < s.c0 + s.cols))

/-- Storing the values `M` in the rectangle of the map at `a`. -/
def put {X : Type} (s : Stmt X) (m : Mem) (a : ℕ) (M : ℕ → ℕ → ℝ) : Option Mem :=
  open Classical in
  if ∀ i < s.rows, ∀ j < s.cols, (m (a + ((s.r0 + i) * s.stride + (s.c0 + j)))).isSome then
    some fun y => if a ≤ y ∧ s.has (y - a) then
      some (M ((y - a) / s.stride - s.r0) ((y - a) % s.stride - s.c0)) else m y
  else none

/-- Where the maps are: the residual, and `jacobians[i]` unless it or `jacobians` is null. -/
def addr (res : ℕ) (jac : Option (ℕ → Option ℕ)) : Option ℕ → Option ℕ
  | none => some res
  | some i => jac.bind fun f => f i

/-- One statement after the other; those for a null pointer are skipped. -/
def exec {X : Type} (read : Mem → Option X) (sz : Option ℕ → ℕ) (at_ : Option ℕ → Option ℕ) :
    List (Stmt X) → Mem → Option Mem
  | [], m => some m
  | s :: ss, m =>
    match at_ s.block with
    | none => exec read sz at_ ss m
    | some a => (read m).bind fun x => (s.val x (blk m a (sz s.block))).bind fun M =>
        (put s m a M).bind fun m => exec read sz at_ ss m

/-- A statement whose values do not depend on the map it assigns to. -/
def st {X : Type} (b : Option ℕ) (stride r0 c0 rows cols : ℕ) (v : X → ℕ → ℕ → ℝ) : Stmt X :=
  ⟨b, stride, r0, c0, rows, cols, fun x _ => some (v x)⟩

/-- Elements of vectors and matrices by number. -/
def ofVec {n : ℕ} (v : Fin (n + 1) → ℝ) (i : ℕ) : ℝ := v (Fin.ofNat (n + 1) i)
def ofMat {n k : ℕ} (M : Matrix (Fin (n + 1)) (Fin (k + 1)) ℝ) (i j : ℕ) : ℝ := M (Fin.ofNat (n + 1) i) (Fin.ofNat (k + 1) j)

/-- The rows and columns of `dGenDParam` by number. -/
def six (i : ℕ) : Fin 3 ⊕ Fin 3 := if i < 3 then .inl (Fin.ofNat 3 i) else .inr (Fin.ofNat 3 (i - 3))
def eight (i : ℕ) : Fin 4 ⊕ Fin 4 := if i < 4 then .inl (Fin.ofNat 4 i) else .inr (Fin.ofNat 4 (i - 4))

/-! ### GnssDynamics -/

/-- The object (gnss_dynamics_model.h 19-20): `Xi_` is a reference. -/
structure DynObj where
  dt : ℝ
  xi : ℕ

/-- The constructor (gnss_dynamics_model.cxx 8-11): the reference is bound to the argument. -/
def DynObj.new (dt : ℝ) (xi : ℕ) : DynObj := ⟨dt, xi⟩

/-- What `Evaluate` reads (gnss_dynamics_model.cxx 26-31). -/
structure DynX where
  f : Dyn
  c1 : V2
  c2 : V2
  s1 : Fin 1 → ℝ
  s2 : Fin 1 → ℝ

def DynObj.read (o : DynObj) (p : Fin 4 → ℕ) (m : Mem) : Option DynX :=
  (rdV 3 m o.xi).bind fun xi => (rdV 2 m (p 0)).bind fun c1 => (rdV 2 m (p 1)).bind fun c2 =>
    (rdV 1 m (p 2)).bind fun s1 => (rdV 1 m (p 3)).map fun s2 => ⟨⟨o.dt, xi⟩, c1, c2, s1, s2⟩

/-- The sizes of the maps. -/
def dynSize : Option ℕ → ℕ
  | none => 3
  | some 0 => 6
  | some 1 => 6
  | some 2 => 3
  | some 3 => 3
  | some _ => 0

/-- The statements (gnss_dynamics_model.cxx 33-73). -/
noncomputable def dynStmts : List (Stmt DynX) := [
  st none 1 0 0 1 1 fun x _ _ => x.f.residual x.c1 x.c2 (x.s1 0) (x.s2 0) 0,
  st none 1 1 0 1 1 fun x _ _ => x.f.residual x.c1 x.c2 (x.s1 0) (x.s2 0) 1,
  st none 1 2 0 1 1 fun x _ _ => x.f.residual x.c1 x.c2 (x.s1 0) (x.s2 0) 2,
  st (some 0) 2 0 0 1 2 fun x _ => ofVec ![-x.f.Xi 0, -x.f.Xi 0 * x.f.dt / 2],
  st (some 0) 2 1 0 1 2 fun x _ => ofVec ![0, -x.f.Xi 1],
  st (some 0) 2 2 0 1 2 fun _ _ _ => 0,
  st (some 1) 2 0 0 1 2 fun x _ => ofVec ![x.f.Xi 0, -x.f.Xi 0 * x.f.dt / 2],
  st (some 1) 2 1 0 1 2 fun x _ => ofVec ![0, x.f.Xi 1],
  st (some 1) 2 2 0 1 2 fun _ _ _ => 0,
  st (some 2) 1 0 0 1 1 fun _ _ _ => 0,
  st (some 2) 1 1 0 1 1 fun _ _ _ => 0,
  st (some 2) 1 2 0 1 1 fun x _ _ => -x.f.Xi 2,
  st (some 3) 1 0 0 1 1 fun _ _ _ => 0,
  st (some 3) 1 1 0 1 1 fun _ _ _ => 0,
  st (some 3) 1 2 0 1 1 fun x _ _ => x.f.Xi 2]

/-- `GnssDynamics::Evaluate`; it always returns true. -/
noncomputable def DynObj.evaluate (o : DynObj) (p : Fin 4 → ℕ) (res : ℕ) (jac : Option (ℕ → Option ℕ)) (m : Mem) :
    Option Mem := exec (o.read p) dynSize (addr res jac) dynStmts m

/-! ### RelativeCarrierPhase -/

/-- The object (relative_carrier_phase_model.h 32-38): `T_e2r_` is a reference. -/
structure RelObj where
  dPhi : ℝ
  lambda : ℝ
  Xi : ℝ
  sat1 : SatState
  sat2 : SatState
  te2r : ℕ

/-- What `Evaluate` reads (relative_carrier_phase_model.cxx 78-89). -/
def RelObj.read (o : RelObj) (p : Fin 8 → ℕ) (m : Mem) : Option (RelCP × RelArg) :=
  (rd8 m o.te2r).bind fun T => (rd8 m (p 0)).bind fun t1 => (rd8 m (p 1)).bind fun t2 =>
    (rdV 2 m (p 2)).bind fun c1 => (rdV 2 m (p 3)).bind fun c2 => (rdV 1 m (p 4)).bind fun s1 =>
      (rdV 1 m (p 5)).bind fun s2 => (rd8 m (p 6)).bind fun tr => (rdV 3 m (p 7)).map fun g =>
        (⟨o.dPhi, o.lambda, o.Xi, T, o.sat1, o.sat2⟩, ⟨t1, t2, c1, c2, s1 0, s2 0, tr, g⟩)

def relSize : Option ℕ → ℕ
  | none => 1
  | some 0 => 8
  | some 1 => 8
  | some 2 => 2
  | some 3 => 2
  | some 4 => 1
  | some 5 => 1
  | some 6 => 8
  | some 7 => 3
  | some _ => 0

/-- `PoseJacobian::by_elements` (relative_carrier_phase_model.cxx 70): a row times `dGenDParam`. -/
noncomputable def byElements (v : V6) (Q : DQuat) (j : ℕ) : ℝ :=
  ∑ k, Sum.elim v.w v.v k * Q.dGenDParam k (eight j)

/-- The statements (relative_carrier_phase_model.cxx 122-197). -/
noncomputable def relStmts : List (Stmt (RelCP × RelArg)) := [
  st none 1 0 0 1 1 fun x _ _ => x.1.residual x.2,
  st (some 0) 8 0 0 1 8 fun x _ j => byElements (x.1.jacT1 x.2) x.2.T1 j,
  st (some 1) 8 0 0 1 8 fun x _ j => byElements (x.1.jacT2 x.2) x.2.T2 j,
  st (some 2) 1 0 0 1 1 fun x _ _ => x.1.gain x.2 * x.1.lambda * cLight / 1e9,
  st (some 2) 1 1 0 1 1 fun _ _ _ => 0,
  st (some 3) 1 0 0 1 1 fun x _ _ => -x.1.gain x.2 * x.1.lambda * cLight / 1e9,
  st (some 3) 1 1 0 1 1 fun _ _ _ => 0,
  st (some 4) 1 0 0 1 1 fun x _ _ => x.1.jacSw1 x.2,
  st (some 5) 1 0 0 1 1 fun x _ _ => x.1.jacSw2 x.2,
  st (some 6) 8 0 0 1 8 fun x _ j => byElements (x.1.jacTr2n x.2) x.2.Tr2n j,
  st (some 7) 3 0 0 1 3 fun x _ => ofVec (x.1.jacP x.2)]

/-- `RelativeCarrierPhase::Evaluate`. -/
noncomputable def RelObj.evaluate (o : RelObj) (p : Fin 8 → ℕ) (res : ℕ) (jac : Option (ℕ → Option ℕ)) (m : Mem) :
    Option Mem := exec (o.read p) relSize (addr res jac) relStmts m

/-! ### PseudorangeModel -/

/-- The object (prange_model.h 26-33): `T_e2r_` is a reference; `Evaluate` does not use the reference `sat_`. -/
structure PrObj where
  sat : SatCache
  pseudorange : ℝ
  doppler : ℝ
  W : M3
  te2r : ℕ

/-- What `Evaluate` reads (prange_model.cxx 79-85). -/
def PrObj.read (o : PrObj) (p : Fin 6 → ℕ) (m : Mem) : Option (Prange × PrArg) :=
  (rd8 m o.te2r).bind fun T => (rd8 m (p 0)).bind fun t => (rdV 3 m (p 1)).bind fun v =>
    (rdV 2 m (p 2)).bind fun c => (rd8 m (p 3)).bind fun tr => (rdV 1 m (p 4)).bind fun s =>
      (rdV 3 m (p 5)).map fun g => (⟨o.sat, o.pseudorange, o.doppler, T, o.W⟩, ⟨t, v, c, tr, s 0, g⟩)

def prSize : Option ℕ → ℕ
  | none => 3
  | some 0 => 24
  | some 1 => 9
  | some 2 => 6
  | some 3 => 24
  | some 4 => 3
  | some 5 => 9
  | some _ => 0

/-- The rows of the local `jac` for `T_n2b` (prange_model.cxx 119-124). -/
noncomputable def prRowsT (f : Prange) (x : PrArg) : Fin 3 → V6 :=
  ![⟨x.sw • vecMul (f.e x) ((f.RE2n x)ᵀ * x.T.r.Rᵀ * skew x.p), x.sw • vecMul (-f.e x) ((f.RE2n x)ᵀ * x.T.r.Rᵀ)⟩,
    ⟨x.sw • vecMul (f.e x) ((f.RE2n x)ᵀ * x.T.r.Rᵀ * skew x.vel), 0⟩, ⟨0, 0⟩]

/-- The rows of the local `jac` for `T_r2n` (prange_model.cxx 150-156). -/
noncomputable def prRowsTr (f : Prange) (x : PrArg) : Fin 3 → V6 :=
  ![⟨x.sw • vecMul (f.e x) (f.Te2r.r.Rᵀ * x.Tr2n.r.Rᵀ * skew (x.T.translation + x.T.r.rota x.p)),
      x.sw • vecMul (-f.e x) (f.RE2n x)ᵀ⟩,
    ⟨x.sw • vecMul (f.e x) ((f.RE2n x)ᵀ * skew (x.T.r.Rᵀ.mulVec x.vel)), 0⟩, ⟨0, 0⟩]

/-- `sqrt_inv_cov_ * jac.by_elements(Q)` (prange_model.cxx 63, 126, 158). -/
noncomputable def weighted (W : M3) (rows : Fin 3 → V6) (Q : DQuat) (i j : ℕ) : ℝ :=
  ∑ l, W (Fin.ofNat 3 i) l * byElements (rows l) Q j

/-- The statements (prange_model.cxx 107-176). -/
noncomputable def prStmts : List (Stmt (Prange × PrArg)) := [
  st none 1 0 0 3 1 fun x i _ => ofVec (x.1.residual x.2) i,
  st (some 0) 8 0 0 3 8 fun x => weighted x.1.W (prRowsT x.1 x.2) x.2.T,
  st (some 1) 3 0 0 1 3 fun _ _ _ => 0,
  st (some 1) 3 1 0 1 3 fun x _ =>
    ofVec (x.2.sw • vecMul (-x.1.e x.2) (x.1.W 1 1 • ((x.1.RE2n x.2)ᵀ * x.2.T.r.Rᵀ))),
  st (some 1) 3 2 0 1 3 fun _ _ _ => 0,
  st (some 2) 2 0 0 1 2 fun x _ => ofVec ![x.2.sw * cLight / 1e9 * x.1.W 0 0, 0],
  st (some 2) 2 1 0 1 2 fun x _ => ofVec ![0, x.2.sw * cLight / 1e9 * x.1.W 1 1],
  st (some 2) 2 2 0 1 2 fun _ _ _ => 0,
  st (some 3) 8 0 0 3 8 fun x => weighted x.1.W (prRowsTr x.1 x.2) x.2.Tr2n,
  st (some 4) 1 0 0 1 1 fun x _ _ => x.1.W 0 0 * (x.1.estP x.2 - x.1.pseudorange),
  st (some 4) 1 1 0 1 1 fun x _ _ => x.1.W 1 1 * (x.1.estD x.2 - x.1.doppler),
  st (some 4) 1 2 0 1 1 fun x _ _ => -x.1.W 2 2,
  st (some 5) 3 0 0 1 3 fun x _ =>
    ofVec ((-x.2.sw * x.1.W 0 0) • vecMul (x.1.e x.2) (x.1.Te2r.r.Rᵀ * x.2.Tr2n.r.Rᵀ * x.2.T.r.Rᵀ)),
  st (some 5) 3 1 0 1 3 fun _ _ _ => 0,
  st (some 5) 3 2 0 1 3 fun _ _ _ => 0]

/-- `PseudorangeModel::Evaluate`. -/
noncomputable def PrObj.evaluate (o : PrObj) (p : Fin 6 → ℕ) (res : ℕ) (jac : Option (ℕ → Option ℕ)) (m : Mem) :
    Option Mem := exec (o.read p) prSize (addr res jac) prStmts m

/-! ### PoseError -/

def peSize : Option ℕ → ℕ
  | none => 6
  | some 0 => 48
  | some _ => 0

/-- The statements (pose_error_model.cxx 24-37); `D` is `dlog`.  The residual is computed by one logarithm or the other. -/
noncomputable def peStmts (f : PoseErr) (D : DQuat → M6) (asked : Bool) : List (Stmt DQuat) :=
  if asked then [
    st none 1 0 0 6 1 fun T i _ => Sum.elim (f.withJac T).w (f.withJac T).v (six i),
    st (some 0) 8 0 0 6 8 fun T i j => ∑ k, Sum.elim f.Xi.w f.Xi.v (six i) * D T (six i) k * T.dGenDParam k (eight j)]
  else [st none 1 0 0 6 1 fun T i _ => Sum.elim (f.plain T).w (f.plain T).v (six i)]

/-- `PoseError::Evaluate`. -/
noncomputable def peEvaluate (f : PoseErr) (D : DQuat → M6) (p : ℕ) (res : ℕ) (jac : Option (ℕ → Option ℕ)) (m : Mem) :
    Option Mem :=
  exec (fun m => rd8 m p) peSize (addr res jac) (peStmts f D (addr res jac (some 0)).isSome) m

/-! ### ImuModel -/

/-- What `Evaluate` reads (imu_model.cxx 158-164). -/
structure ImuX where
  start : DQuat
  fin : DQuat
  v : V3
  v' : V3
  b : Bias

def imuRead (p : Fin 5 → ℕ) (m : Mem) : Option ImuX :=
  (rd8 m (p 0)).bind fun s => (rd8 m (p 1)).bind fun f => (rdV 3 m (p 2)).bind fun v =>
    (rdV 3 m (p 3)).bind fun v' => (rdV 3 m (p 4)).bind fun a => (rdV 3 m (p 4 + 3)).map fun g =>
      ⟨s, f, v, v', ⟨a, g⟩⟩

def imuSize : Option ℕ → ℕ
  | none => 9
  | some 0 => 72
  | some 1 => 72
  | some 2 => 27
  | some 3 => 27
  | some 4 => 54
  | some _ => 0

/-- The six blocks assigned through a `PoseJacobian` (imu_model.cxx 139-145, 188-198, 207-213). -/
def poseStmts (b : ℕ) (J : ImuX → PoseJac) : List (Stmt ImuX) := [
  st (some b) 8 0 0 3 3 fun x => ofMat ((J x).rot 0),
  st (some b) 8 3 0 3 3 fun x => ofMat ((J x).rot 1),
  st (some b) 8 6 0 3 3 fun x => ofMat ((J x).rot 2),
  st (some b) 8 0 3 3 3 fun x => ofMat ((J x).pos 0),
  st (some b) 8 3 3 3 3 fun x => ofMat ((J x).pos 1),
  st (some b) 8 6 3 3 3 fun x => ofMat ((J x).pos 2)]

/-- `linearize_local_param` (imu_model.cxx 147-150): the first six columns of the map are read, and the product is assigned
to all eight. -/
noncomputable def linearize (b : ℕ) (Q : ImuX → DQuat) : Stmt ImuX :=
  ⟨some b, 8, 0, 0, 9, 8, fun x c =>
    open Classical in
    if ∀ i < 9, ∀ k < 6, (c (i * 8 + k)).isSome then
      some fun i j => ∑ k : Fin 6, (c (i * 8 + k)).getD 0 * (Q x).dGenDParam (six k) (eight j)
    else none⟩

/-- The numbers of an element of the nine and of the six coordinates. -/
def nine (i : ℕ) : I9 := (Fin.ofNat 3 (i / 3), Fin.ofNat 3 i)
def twoThree (i : ℕ) : I6 := (Fin.ofNat 2 (i / 3), Fin.ofNat 3 i)

/-- The statements (imu_model.cxx 173-264); `L` is `log_jac`. -/
noncomputable def imuStmts (p : Pre) (L : ImuX → M3) : List (Stmt ImuX) := [
  st none 1 0 0 3 1 fun x i _ => ofVec (p.residual x.start x.fin x.v x.v' x.b).alpha i,
  st none 1 3 0 3 1 fun x i _ => ofVec (p.residual x.start x.fin x.v x.v' x.b).beta i,
  st none 1 6 0 3 1 fun x i _ => ofVec (p.residual x.start x.fin x.v x.v' x.b).gamma i] ++
  poseStmts 0 (fun x => p.startJac x.start x.fin x.b (L x)) ++ [linearize 0 ImuX.start] ++
  poseStmts 1 (fun x => p.endJac x.start x.b (L x)) ++ [linearize 1 ImuX.fin] ++ [
  st (some 2) 3 0 0 3 3 fun _ => ofMat (p.startVelJac 0),
  st (some 2) 3 3 0 3 3 fun _ => ofMat (p.startVelJac 1),
  st (some 2) 3 6 0 3 3 fun _ => ofMat (p.startVelJac 2),
  st (some 3) 3 0 0 3 3 fun x => ofMat (p.endVelJac x.b 0),
  st (some 3) 3 3 0 3 3 fun x => ofMat (p.endVelJac x.b 1),
  st (some 3) 3 6 0 3 3 fun x => ofMat (p.endVelJac x.b 2),
  st (some 4) 6 0 0 9 6 fun x i j => p.biasJac x.start x.fin x.v' x.b (L x) (nine i) (twoThree j)]

/-- `ImuModel::Evaluate`. -/
noncomputable def imuEvaluate (f : Pre) (L : ImuX → M3) (p : Fin 5 → ℕ) (res : ℕ) (jac : Option (ℕ → Option ℕ)) (m : Mem) :
    Option Mem := exec (imuRead p) imuSize (addr res jac) (imuStmts f L) m

end Verif.Model.Evaluate
