import Mathlib.Data.List.FinRange
import Mathlib.Algebra.BigOperators.Group.List.Basic
import Mathlib.Data.Nat.Notation
/-!
# Model of the dense forms of the generated filter classes

`core/ekf/ekf_gen/ekf_gen_state.py` (`make_dense_vector`, `make_dense_matrix`, `from_dense`, `state_size`,
`covariance_members`, `covariance_from_process_cov`), `ekf_gen.py` (`make_jacobian_dense_impl`, `organize_states`),
`ekf_gen_utils.py` (`accumulate_expr`, `State`), and of the C++ code that they write.

The generated text is a list of assignments to parts of a vector or matrix; running it gives the entries, where `none` is an
entry that was never written.  A failed Eigen assertion (a part that does not fit, sizes that differ) and a Python exception
give `none` for the whole.

Simplifications: a state is known by its position in the list, so that names do not collide; offsets are sums of numbers and
of products of a size and a counter, kept as functions of the counters once they are text; a Python `set` is enumerated in an
order that depends on the hashes of its texts, which is a parameter.
-/

namespace Verif.Model.EkfDense

/-- `State` (ekf_gen_utils.py 132-158): whether the size is variable, the size of the error of one element (`dx` or
`base_dx`), and `bundle_size`. -/
structure St where
  var : Bool
  base : ℕ
  bundle : ℕ

/-- `dx`. -/
def St.dx (s : St) : ℕ := if s.var then s.bundle * s.base else s.base

/-- `organize_states` (ekf_gen.py 623-628). -/
def organize (l : List St) : List St := l.filter (fun s => !s.var) ++ l.filter fun s => s.var

/-- The counters (`num_...`) by position of their state. -/
abbrev Env := ℕ → ℕ

/-- A number or a text that is evaluated in C++. -/
inductive PyNum
  | int (n : ℕ)
  | text (f : Env → ℕ)

def PyNum.eval (v : Env) : PyNum → ℕ
  | int n => n
  | text f => f v

/-- `accumulate_expr` (ekf_gen_utils.py 4-8): a text plus a number raises. -/
def accumulate : PyNum → PyNum → Option PyNum
  | e, .text g => some (.text fun v => e.eval v + g v)
  | .int n, .int m => some (.int (n + m))
  | .text _, .int _ => none

/-- `dim` (ekf_gen_state.py 684-685, 717-721, ekf_gen.py 180-184) for the state at position `i`. -/
def dim (s : St) (i : ℕ) : PyNum := if s.var then .text fun v => v i * s.base else .int s.base

/-- The offsets of a list of states and the offset after them. -/
def scan : List (St × ℕ) → PyNum → Option (List PyNum × PyNum)
  | [], acc => some ([], acc)
  | (s, i) :: l, acc => do
    let acc' ← accumulate acc (dim s i)
    let r ← scan l acc'
    return (acc :: r.1, r.2)

/-! ### Vectors -/

/-- `out.segment(off, len) = source`. -/
structure VStmt where
  i : ℕ
  off : PyNum
  len : PyNum

/-- `make_dense_vector` (ekf_gen_state.py 667-690): the fixed states, then the variable ones; the size of the vector. -/
def denseVector (sts : List St) : Option (List VStmt × PyNum) := do
  let l := (sts.zipIdx.filter fun s => !s.1.var) ++ sts.zipIdx.filter fun s => s.1.var
  let r ← scan l (.int 0)
  return ((l.zip r.1).map fun p => ⟨p.1.2, p.2, dim p.1.1 p.1.2⟩, r.2)

variable {α : Type}

/-- One assignment on a vector of size `n`.  `{name}_vec(num)` is the head of a buffer with `dx` entries. -/
def runV (sts : List St) (v : Env) (e : ℕ → ℕ → Option α) (n : ℕ) (m : ℕ → Option α) (s : VStmt) :
    Option (ℕ → Option α) :=
  if s.off.eval v + s.len.eval v ≤ n ∧ s.len.eval v ≤ ((sts[s.i]?.map St.dx).getD 0) then
    some fun p => if s.off.eval v ≤ p ∧ p < s.off.eval v + s.len.eval v then e s.i (p - s.off.eval v) else m p
  else none

/-- `ErrorState::dense(...)`: the size of the result and its entries. -/
def errorDense (sts : List St) (v : Env) (e : ℕ → ℕ → Option α) : Option (ℕ × (ℕ → Option α)) := do
  let c ← denseVector sts
  let m ← c.1.foldlM (fun m s => runV sts v e (c.2.eval v) m s) fun _ => none
  return (c.2.eval v, m)

/-- `ErrorState::fromDense` (ekf_gen_state.py 693-700): `out.x = x.segment<dx>(accum)` for the states in order. -/
def fromDense (sts : List St) (x : ℕ → Option α) : ℕ → ℕ → Option α := fun i k =>
  x (((sts.take i).map St.dx).sum + k)

/-! ### Matrices -/

/-- Where a block of a dense matrix comes from. -/
inductive Src
  | zero
  | block
  | diag
  deriving DecidableEq

/-- `out.block(ro, co, rl, cl) = source`. -/
structure MStmt where
  r : ℕ
  c : ℕ
  ro : PyNum
  co : PyNum
  rl : PyNum
  cl : PyNum
  src : Src

/-- `make_dense_matrix` (ekf_gen_state.py 703-758) and `make_jacobian_dense_impl` (ekf_gen.py 163-217): the blocks of all
pairs that are not skipped.  The offset of a column starts again with every row. -/
def denseMatrix (rows cols : List St) (skip : ℕ → ℕ → Bool) (src : ℕ → ℕ → Src) : Option (List MStmt × PyNum × PyNum) := do
  if rows = [] then none else
  let r ← scan rows.zipIdx (.int 0)
  let c ← scan cols.zipIdx (.int 0)
  return ((rows.zipIdx.zip r.1).flatMap fun p => ((cols.zipIdx.zip c.1).filter fun q => !skip p.1.2 q.1.2).map fun q =>
    ⟨p.1.2, q.1.2, p.2, q.2, dim p.1.1 p.1.2, dim q.1.1 q.1.2, src p.1.2 q.1.2⟩, r.2, c.2)

/-- How the sets of arguments of the block getters come out: `swap r c` says that the getter of the block of two different
variable states is declared with one order of its two counters (ekf_gen_state.py 152, ekf_gen.py 93) and called with the other
(ekf_gen_state.py 732, ekf_gen.py 199). -/
abbrev Orders := ℕ → ℕ → Bool

/-- The sizes of the block that a getter returns when called with the counters `a` of the row and `b` of the column. -/
def getterSize (rs cs : St) (swapped : Bool) (a b : ℕ) : ℕ × ℕ :=
  let a' := if swapped && rs.var && cs.var then b else a
  let b' := if swapped && rs.var && cs.var then a else b
  (if rs.var then rs.base * a' else rs.base, if cs.var then cs.base * b' else cs.base)

/-- A block assignment on a matrix with `R` rows and `C` columns.  `vr` and `vc` are the counters of the rows and columns, `P r c`
are the entries of the stored blocks, `q` those of a diagonal. -/
def runM (rows cols : List St) (sw : Orders) (vr vc : Env) (P : ℕ → ℕ → ℕ → ℕ → Option α) (q : ℕ → ℕ → Option α) (z : α)
    (R C : ℕ) (m : ℕ → ℕ → Option α) (s : MStmt) : Option (ℕ → ℕ → Option α) := do
  let rs ← rows[s.r]?
  let cs ← cols[s.c]?
  let ro := s.ro.eval vr
  let rl := s.rl.eval vr
  let co := s.co.eval vc
  let cl := s.cl.eval vc
  if ¬ (ro + rl ≤ R ∧ co + cl ≤ C) then none else
  let put := fun f : ℕ → ℕ → Option α => some fun i j =>
    if (ro ≤ i ∧ i < ro + rl) ∧ co ≤ j ∧ j < co + cl then f (i - ro) (j - co) else m i j
  match s.src with
  | .zero => put fun _ _ => some z
  | .block =>
    let g := getterSize rs cs (sw s.r s.c && s.r != s.c) (vr s.r) (vc s.c)
    if g = (rl, cl) ∧ g.1 ≤ rs.dx ∧ g.2 ≤ cs.dx then put (P s.r s.c) else none
  | .diag =>
    if rl = cl then put fun a b => if a = b then q s.r (a % rs.base) else some z else none

/-- The matrix before the last line. -/
def fillM (rows cols : List St) (skip : ℕ → ℕ → Bool) (src : ℕ → ℕ → Src) (sw : Orders) (vr vc : Env)
    (P : ℕ → ℕ → ℕ → ℕ → Option α) (q : ℕ → ℕ → Option α) (z : α) : Option (ℕ × ℕ × (ℕ → ℕ → Option α)) := do
  let c ← denseMatrix rows cols skip src
  let R := c.2.1.eval vr
  let C := c.2.2.eval vc
  let m ← c.1.foldlM (fun m s => runM rows cols sw vr vc P q z R C m s) fun _ _ => none
  return (R, C, m)

/-- `Covariance::dense(...)`: the upper blocks, then `out.triangularView<Eigen::Lower>() = out.transpose()`. -/
def covDense (sts : List St) (sw : Orders) (v : Env) (P : ℕ → ℕ → ℕ → ℕ → Option α) (z : α) :
    Option (ℕ × ℕ × (ℕ → ℕ → Option α)) := do
  let r ← fillM sts sts (fun r c => decide (c < r)) (fun _ _ => .block) sw v v P (fun _ _ => none) z
  return (r.1, r.2.1, fun i j => if j ≤ i then r.2.2 j i else r.2.2 i j)

/-- `ProcessCovariance::dense(...)`, `InputCovariance::dense(...)`. -/
def diagDense (sts : List St) (v : Env) (q : ℕ → ℕ → Option α) (z : α) : Option (ℕ × ℕ × (ℕ → ℕ → Option α)) :=
  fillM sts sts (fun _ _ => false) (fun r c => if c = r then .diag else .zero) (fun _ _ => false) v v (fun _ _ _ _ => none) q z

/-- `StateJac::dense(...)`, `InputJac::dense(...)`, `Jac::dense(...)`; `used` says which blocks there are. -/
def jacDense (rows cols : List St) (used : ℕ → ℕ → Bool) (sw : Orders) (vr vc : Env) (J : ℕ → ℕ → ℕ → ℕ → Option α) (z : α) :
    Option (ℕ × ℕ × (ℕ → ℕ → Option α)) :=
  fillM rows cols (fun _ _ => false) (fun r c => if used r c then .block else .zero) sw vr vc J (fun _ _ => none) z

/-! ### Sizes and constructors -/

/-- `State::size()` (ekf_gen_state.py 97-103; `compute_current_size`, 364-372, adds the same): the counters are added, whatever the size of one element. -/
def stateSize (sts : List St) : Option PyNum :=
  sts.zipIdx.foldlM (fun acc s => accumulate acc (if s.1.var then .text fun v => v s.2 else .int s.1.dx)) (.int 0)

/-- matrix_defs.h 128-139: `tile` names the blocks of its result and writes nothing into them. -/
def tile (_ : ℕ → ℕ → Option α) : ℕ → ℕ → Option α := fun _ _ => none

/-- `Covariance::Covariance(const ProcessCovariance&)` (ekf_gen_state.py 777-789) on fresh memory. -/
def fromProcess (sts : List St) (q : ℕ → ℕ → Option α) (z : α) : ℕ → ℕ → ℕ → ℕ → Option α := fun r c a b =>
  if r = c then
    let d : ℕ → ℕ → Option α := fun a b => if a = b then q r a else some z
    if ((sts[r]?.map St.var).getD false) then tile d a b else d a b
  else none

end Verif.Model.EkfDense
