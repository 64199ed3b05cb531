import Verif.Model.Symb
import Mathlib.Data.Nat.Pairing
import Mathlib.Data.List.FinRange
import Mathlib.Data.List.ProdSigma
import Mathlib.Data.Fin.VecNotation

/-!
Model of the part of the filter generator that writes the covariance code: `core/ekf/ekf_gen/ekf_gen_matrix_manip.py`, with
the configurations `core/ekf/rtk_ekf.yaml` and `core/ekf/ekf_gen/example_ekf.yaml`.

Simplifications: a symbol is a number made of its kind, row and column, so that equal texts for different symbols are left
out; the generated text is the list of its assignments, and the names of the C++ members they go to are the symbols; the
checks of sizes in `SymBlockMatrix.__init__` are left out (the blocks have the sizes of their row and column, see the
proofs); `reduce` changes blocks in place, and the sharing of such blocks between entries is left out as in `Model.Symb`.
-/

namespace Verif.Model.EkfGen

open Verif.Model.Symb Verif.Model.Symb.Blk

/-- The kinds of symbols (ekf_gen_matrix_manip.py 31-36, 49, 66, 98, 115, 137, 233, 306-308, 343, 378-380). -/
inductive Kind
  | dxdx | dxdu | cov | covOut | qu | qx | dt | half | abar | bbar | dzdx | res | noise | sinv | pht | hpht | gain | dx
  deriving DecidableEq

def Kind.code : Kind → ℕ
  | dxdx => 0 | dxdu => 1 | cov => 2 | covOut => 3 | qu => 4 | qx => 5 | dt => 6 | half => 7 | abar => 8 | bbar => 9
  | dzdx => 10 | res => 11 | noise => 12 | sinv => 13 | pht => 14 | hpht => 15 | gain => 16 | dx => 17

/-- The symbol of a block, such as `Abar_0_3`. -/
def sy (k : Kind) (r c : ℕ) : ℕ := Nat.pair k.code (Nat.pair r c)

/-- A symbol as a block. -/
def symb (k : Kind) (r c : ℕ) (a b : Dim) : Blk := .const false (.sym (sy k r c)) a b

/-- A configuration: the sizes of states and inputs (`dim`, ekf_gen_matrix_manip.py 11-15) and the states and inputs that the
derivative of a state depends on. There is at least one state and one input. -/
structure Cfg where
  n : ℕ
  m : ℕ
  dim : Fin (n + 1) → Dim
  inp : Fin (m + 1) → Dim
  fx : Fin (n + 1) → Fin (n + 1) → Bool
  fu : Fin (n + 1) → Fin (m + 1) → Bool

/-- A measurement: its size and the states it depends on. -/
structure MCfg (C : Cfg) where
  dim : Dim
  used : Fin (C.n + 1) → Bool

/-- A matrix of blocks whose computation may raise. -/
abbrev OMat (m n : ℕ) := Fin m → Fin n → Option Blk

/-- `__add__` (symb_block_matrix.py 60-86). -/
def addM {m n : ℕ} (A B : OMat m n) : OMat m n := fun r c => do
  let a ← A r c
  let b ← B r c
  plus a b

/-- `scalar_multiply` (symb_block_matrix.py 91-98): the scalar comes first. -/
def scaleM {m n : ℕ} (s : Blk) (A : OMat m n) : OMat m n := fun r c => do
  let a ← A r c
  times s a

/-- The sum of products of a row and a column (symb_block_matrix.py 121-122). -/
def dotO (acc : Blk) : List (Option Blk × Option Blk) → Option Blk
  | [] => some acc
  | (x, y) :: l => do
    let a ← x
    let b ← y
    let p ← times a b
    let acc ← plus acc p
    dotO acc l

/-- `__mul__` (symb_block_matrix.py 100-125). -/
def mulM {m k n : ℕ} (A : OMat m (k + 1)) (B : OMat (k + 1) n) : OMat m n := fun r c => do
  let a ← A r 0
  let b ← B 0 c
  dotO (c0 a.rows b.cols) ((List.finRange (k + 1)).map fun i => (A r i, B i c))

/-- `T` (symb_block_matrix.py 133-141). -/
def trM {m n : ℕ} (A : OMat m n) : OMat n m := fun c r => do
  let a ← A r c
  some a.transpose

variable (C : Cfg)

/-- `create_symbolic_dynamics_jacobian` (ekf_gen_matrix_manip.py 40-77). -/
def stateJac : OMat (C.n + 1) (C.n + 1) := fun r c =>
  some (if C.fx r c then symb .dxdx r c (C.dim r) (C.dim c) else c0 (C.dim r) (C.dim c))
def inputJac : OMat (C.n + 1) (C.m + 1) := fun r c =>
  some (if C.fu r c then symb .dxdu r c (C.dim r) (C.inp c) else c0 (C.dim r) (C.inp c))

/-- `create_symbolic_covariance` (ekf_gen_matrix_manip.py 80-103). -/
def covM (k : Kind) : OMat (C.n + 1) (C.n + 1) := fun r c => some (symb k r c (C.dim r) (C.dim c))

/-- `create_symbolic_input_cov` (ekf_gen_matrix_manip.py 106-124). -/
def inputCov : OMat (C.m + 1) (C.m + 1) := fun r c =>
  some (if c = r then symb .qu r c (C.inp r) (C.inp c) else c0 (C.inp r) (C.inp c))

/-- `create_symbolic_process_cov` (ekf_gen_matrix_manip.py 127-151). -/
def processCov : OMat (C.n + 1) (C.n + 1) := fun r c =>
  some (if c = r then symb .qx r c (C.dim r) (C.dim c) else c0 (C.dim r) (C.dim c))

/-- `create_symbolic_identity` (ekf_gen_matrix_manip.py 154-176). -/
def identM : OMat (C.n + 1) (C.n + 1) := fun r c =>
  some (if c = r then .const false .ident (C.dim r) (C.dim c) else c0 (C.dim r) (C.dim c))

/-- The scalars (ekf_gen_matrix_manip.py 306-308). -/
def dtB : Blk := symb .dt 0 0 (.num 1) (.num 1)
def halfB : Blk := symb .half 0 0 (.num 1) (.num 1)

/-- An assignment of the generated code to the block named by a symbol: `=`, `+=` or `-=` an expression, or `=` the inverse
of another block. -/
inductive Stmt
  | set (k : ℕ) (r c : Dim) (e : Blk)
  | upd (minus : Bool) (k : ℕ) (r c : Dim) (e : Blk)
  | inv (k : ℕ) (d : Dim) (e : Blk)

/-- The symbol that stands for a block after `commit_mat` (ekf_gen_matrix_manip.py 234-246). -/
def newBlk (k : Kind) (r c : ℕ) (e : Blk) : Blk :=
  if e.isZero then c0 e.rows e.cols
  else if e.isIdent then .const false .ident e.rows e.cols
  else symb k r c e.rows e.cols

/-- The matrix that `commit_mat` returns for a name (ekf_gen_matrix_manip.py 225-274). -/
def newM {m n : ℕ} (k : Kind) (X : OMat m n) : OMat m n := fun r c => do
  let e ← X r c
  some (newBlk k r c e)

/-- The assignment for one block of a new matrix (ekf_gen_matrix_manip.py 231-272). -/
def commit1 (R : Rules) (n : ℕ) (k : Kind) (r c : ℕ) (e : Blk) : Option (List Stmt) :=
  if e.isZero || e.isIdent then some [] else do
    let e' ← reduce R n e
    some [.set (sy k r c) e.rows e.cols e']

/-- `commit_mat` with a name (ekf_gen_matrix_manip.py 225-274), for a list of places. -/
def commitNew {m n : ℕ} (R : Rules) (f : ℕ) (k : Kind) (X : OMat m n) : List (Fin m × Fin n) → Option (List Stmt)
  | [] => some []
  | (r, c) :: l => do
    let e ← X r c
    let s ← commit1 R f k r c e
    let t ← commitNew R f k X l
    some (s ++ t)

/-- The symbol that a block to be assigned to stands for. -/
def target : Blk → Option (ℕ × Dim × Dim)
  | .const false (.sym k) r c => some (k, r, c)
  | _ => none

/-- `commit_mat` into a matrix (ekf_gen_matrix_manip.py 210-224), for a list of places. A zero block raises: its text, such as
`0_3x1`, holds what the next step takes for a name. -/
def commitTo {m n : ℕ} (R : Rules) (f : ℕ) (T X : OMat m n) : List (Fin m × Fin n) → Option (List Stmt)
  | [] => some []
  | (r, c) :: l => do
    let t ← T r c
    let (k, a, b) ← target t
    let e ← X r c
    if e.isZero then none else do
      let e' ← reduce R f e
      let p ← commitTo R f T X l
      some (.set k a b e' :: p)

/-- `commit_mat_inplace_modify` (ekf_gen_matrix_manip.py 183-202), for a list of places. -/
def adjust {m n : ℕ} (R : Rules) (f : ℕ) (minus : Bool) (T X : OMat m n) : List (Fin m × Fin n) → Option (List Stmt)
  | [] => some []
  | (r, c) :: l => do
    let e ← X r c
    let p ← adjust R f minus T X l
    if e.isZero then some p else do
      let t ← T r c
      let (k, a, b) ← target t
      let e' ← reduce R f e
      some (.upd minus k a b e' :: p)

/-- All places, and those on and above the diagonal (`symmetric`, ekf_gen_matrix_manip.py 190-191, 213-214). -/
def places (m n : ℕ) : List (Fin m × Fin n) := List.finRange m ×ˢ List.finRange n
def upper (m n : ℕ) : List (Fin m × Fin n) := (places m n).filter fun p => decide (p.1.val ≤ p.2.val)

/-- `Abar`, `Bbar` (ekf_gen_matrix_manip.py 309-310). -/
def abarM : OMat (C.n + 1) (C.n + 1) :=
  addM (addM (identM C) (scaleM dtB (stateJac C)))
    (scaleM halfB (scaleM dtB (scaleM dtB (mulM (stateJac C) (stateJac C)))))
def bbarM : OMat (C.n + 1) (C.m + 1) :=
  scaleM dtB (mulM (addM (identM C) (scaleM halfB (scaleM dtB (stateJac C)))) (inputJac C))

/-- The covariance without process noise (ekf_gen_matrix_manip.py 320), from the committed matrices. -/
def poutM (F : OMat (C.n + 1) (C.n + 1)) (G : OMat (C.n + 1) (C.m + 1)) : OMat (C.n + 1) (C.n + 1) :=
  addM (mulM (mulM F (covM C .cov)) (trM F)) (mulM (mulM G (inputCov C)) (trM G))

/-- `block_sparse_propagate_covariance` (ekf_gen_matrix_manip.py 298-331). -/
def propagate (R : Rules) (f : ℕ) : Option (List Stmt) := do
  let s1 ← commitNew R f .abar (abarM C) (places _ _)
  let s2 ← commitNew R f .bbar (bbarM C) (places _ _)
  let s3 ← commitTo R f (covM C .covOut) (poutM C (newM .abar (abarM C)) (newM .bbar (bbarM C))) (upper _ _)
  let s4 ← adjust R f false (covM C .covOut) (processCov C) (upper _ _)
  some (s1 ++ s2 ++ s3 ++ s4)

variable {C}

/-- `create_symbolic_measurement_jacobian` (ekf_gen_matrix_manip.py 334-353). -/
def measJac (D : MCfg C) : OMat 1 (C.n + 1) := fun r c =>
  some (if D.used c then symb .dzdx r c D.dim (C.dim c) else c0 D.dim (C.dim c))

/-- The residual, the noise and the inverse of the innovation (ekf_gen_matrix_manip.py 378-380), and the error state (25-37). -/
def resM (D : MCfg C) : OMat 1 1 := fun r c => some (symb .res r c D.dim (.num 1))
def noiseM (D : MCfg C) : OMat 1 1 := fun r c => some (symb .noise r c D.dim D.dim)
def sinvM (D : MCfg C) : OMat 1 1 := fun r c => some (symb .sinv r c D.dim D.dim)
def errM (C : Cfg) : OMat (C.n + 1) 1 := fun r c => some (symb .dx r c (C.dim r) (.num 1))

/-- `P ⋅ Hᵀ`, `H ⋅ P ⋅ Hᵀ`, the gain, the correction and the reduction of the covariance (ekf_gen_matrix_manip.py 389, 393, 411,
416, 421). -/
def phtM (D : MCfg C) : OMat (C.n + 1) 1 := mulM (covM C .cov) (trM (measJac D))
def hphtM (D : MCfg C) : OMat 1 1 := mulM (measJac D) (newM .pht (phtM D))
def gainM (D : MCfg C) : OMat (C.n + 1) 1 := mulM (newM .pht (phtM D)) (sinvM D)
def corrM (D : MCfg C) : OMat (C.n + 1) 1 := mulM (newM .gain (gainM D)) (resM D)
def lessM (D : MCfg C) : OMat (C.n + 1) (C.n + 1) := mulM (newM .gain (gainM D)) (trM (newM .pht (phtM D)))

/-- The assignment of the inverse (ekf_gen_matrix_manip.py 397-406). -/
def invert (D : MCfg C) : Option (List Stmt) := do
  let e ← newM .hpht (hphtM D) 0 0
  some [.inv (sy .sinv 0 0) D.dim e]

/-- `sparse_meas_update` (ekf_gen_matrix_manip.py 371-431). -/
def measUpdate (R : Rules) (f : ℕ) (D : MCfg C) : Option (List Stmt) := do
  let s1 ← commitNew R f .pht (phtM D) (places _ _)
  let s2 ← commitNew R f .hpht (hphtM D) (places _ _)
  let s3 ← adjust R f false (newM .hpht (hphtM D)) (noiseM D) (upper _ _)
  let s4 ← invert D
  let s5 ← commitNew R f .gain (gainM D) (places _ _)
  let s6 ← commitTo R f (errM C) (corrM D) (places _ _)
  let s7 ← adjust R f true (covM C .cov) (lessM D) (upper _ _)
  some (s1 ++ s2 ++ s3 ++ s4 ++ s5 ++ s6 ++ s7)

/-! ### The configurations of the project -/

/-- A table of truth values. -/
def table (l : List (List ℕ)) (r c : ℕ) : Bool := (l.getD r []).contains c

/-- `core/ekf/rtk_ekf.yaml` (state_composition 15-25, input 57-59, dynamics 61-72) after `organize_states` (ekf_gen.py 623-628):
pose, vel, acc_bias, gyro_bias, gps_clk, gal_clk, glo_clk, p_b2g, T_I2e, sd; accel, gyro. -/
def rtk : Cfg where
  n := 9
  m := 1
  dim := ![.num 6, .num 3, .num 3, .num 3, .num 2, .num 2, .num 2, .num 3, .num 6, .var 0]
  inp := ![.num 3, .num 3]
  fx r c := table [[0, 1, 3], [0, 2], [], [], [4], [5], [6], [], [], []] r c
  fu r c := table [[1], [0], [], [], [], [], [], [], [], []] r c

/-- Its measurements (rtk_ekf.yaml 27-55). -/
def rtkPointPos : MCfg rtk := ⟨.num 6, fun c => [0, 8, 7, 1].contains c.val⟩
def rtkObs : MCfg rtk := ⟨.var 1, fun c => [0, 1, 7, 8, 4, 5, 6].contains c.val⟩
def rtkFixAndHold : MCfg rtk := ⟨.var 2, fun c => [9].contains c.val⟩

/-- `core/ekf/ekf_gen/example_ekf.yaml`: pose, pose_se3, vec3, vec5, variable_quat, variable_vec3; vector_input,
rotation_input. -/
def sample : Cfg where
  n := 5
  m := 1
  dim := ![.num 6, .num 6, .num 3, .num 5, .var 0, .var 1]
  inp := ![.num 5, .num 3]
  fx r c := table [[0, 1, 5], [], [2], [3], [4], [5]] r c
  fu r c := table [[0], [], [0, 1], [], [], [0]] r c

def sampleVector : MCfg sample := ⟨.num 3, fun c => [0, 1, 2, 3].contains c.val⟩
def sampleVarState : MCfg sample := ⟨.num 4, fun c => [3, 2, 0, 4, 5].contains c.val⟩
def sampleVariable : MCfg sample := ⟨.var 2, fun c => [4, 5, 0].contains c.val⟩

end Verif.Model.EkfGen
