import Mathlib.Data.List.Basic

/-!
Model of the symbolic block algebra of the filter generator: `core/ekf/ekf_gen/symb_matrix.py`, `symb_algebra.py`,
`symb_block_matrix.py`.

Simplifications: names of symbols and of variable dimensions are numbers; the text of an expression (`__repr__`), which is
compared by `ConstBlock.__eq__` and `Transpose.__eq__`, is a list of tokens, so that names holding operators are left out;
the largest dimensions (`max_rows`, `max_cols`) are left out, except that a block of variable size made without them raises
(symb_matrix.py 14-17). `is_scalar` is computed from the dimensions at every use, while the code computes it once and
`pop_front`/`pop_back` do not renew it; no step of `reduce` reads the flag of a product that was shortened. Blocks are
values: an operation that changes a block in place returns the changed block, and the sharing of one block between several
expressions is left out. Outcome `none`: an exception, an endless loop, or fuel that has run out. The endless loop is that
`Transpose.__getitem__` returns a block for every index, so that Python's iteration over a `Transpose` does not end.
-/

namespace Verif.Model.Symb

/-- A dimension: a number or the name of a variable. -/
inductive Dim
  | num (n : ℕ)
  | var (k : ℕ)
  deriving DecidableEq

/-- The name of a constant block: `"0"`, `"I"`, a number, any other name. -/
inductive Name
  | zero
  | ident
  | num (n : ℕ)
  | sym (k : ℕ)
  deriving DecidableEq

/-- Blocks (symb_matrix.py 4-23, 95-103, 135-138, 167-205, 259-275); `neg` is `is_negative`, `comm` is `commutative`. -/
inductive Blk
  | const (neg : Bool) (nm : Name) (r c : Dim)
  | tr (neg : Bool) (b : Blk)
  | mul (neg comm : Bool) (r c : Dim) (ts : List Blk)
  | add (neg : Bool) (r c : Dim) (ts : List Blk)

namespace Blk

/-- `shape` (symb_matrix.py 67-69; `Transpose.__init__` 136-138). -/
def shape : Blk → Dim × Dim
  | const _ _ r c => (r, c)
  | tr _ b => b.shape.swap
  | mul _ _ r c _ => (r, c)
  | add _ r c _ => (r, c)

abbrev rows (b : Blk) : Dim := b.shape.1
abbrev cols (b : Blk) : Dim := b.shape.2

/-- `is_scalar` (symb_matrix.py 10). -/
def isScalar (b : Blk) : Bool := b.shape = (.num 1, .num 1)

/-- `is_zero`, `is_identity` (symb_matrix.py 11-12, 99-101). -/
def isZero : Blk → Bool
  | const _ .zero _ _ => true
  | _ => false
def isIdent : Blk → Bool
  | const _ .ident _ _ => true
  | _ => false
def isAdd : Blk → Bool
  | add .. => true
  | _ => false

def isMul : Blk → Bool
  | mul .. => true
  | _ => false

/-- `set_negative` (symb_matrix.py 58-59) of a copy (39). -/
def setNeg : Blk → Blk
  | const _ nm r c => const true nm r c
  | tr _ b => tr true b
  | mul _ cm r c ts => mul true cm r c ts
  | add _ r c ts => add true r c ts

/-- The terms that `Add` and `Mult` take over from their operands (symb_matrix.py 191-200, 266-275). -/
def addTerms : Blk → List Blk
  | add _ _ _ ts => ts
  | b => [b]
def mulTerms : Blk → List Blk
  | mul _ _ _ _ ts => ts
  | b => [b]

/-- Iteration over a block with `__getitem__` (symb_matrix.py 122-125, 160-161, 234-235, 297-298). -/
def iter : Blk → Option (List Blk)
  | const neg nm r c => some [const neg nm r c]
  | tr _ _ => none
  | mul _ _ _ _ ts => some ts
  | add _ _ _ ts => some ts

/-- The terms that are not scalars. -/
def nonScalar (ts : List Blk) : List Blk := ts.filter fun t => !t.isScalar

/-- A constant block. -/
def c0 (r c : Dim) : Blk := const false .zero r c
def cI (r : Dim) : Blk := const false .ident r r

/-- `Add(a, b)` (symb_matrix.py 260-275). -/
def mkAdd (a b : Blk) : Option Blk :=
  if a.shape = b.shape then some (add false a.rows a.cols (a.addTerms ++ b.addTerms)) else none

/-- The shape of a product (symb_matrix.py 169-188). -/
def mulShape (a b : Blk) : Option (Dim × Dim) :=
  if a.isScalar then some b.shape
  else if b.isScalar then some a.shape
  else if a.cols = b.rows then some (a.rows, b.cols)
  else none

/-- `Mult(a, b)` (symb_matrix.py 168-205), with its assertions. -/
def mkMul (a b : Blk) : Option Blk := do
  let s ← mulShape a b
  let ts := a.mulTerms ++ b.mulTerms
  let f ← (nonScalar ts).head?
  let l ← ts.getLast?
  if s.1 = f.rows ∧ s.2 = l.cols then some (mul false (a.isScalar || b.isScalar) s.1 s.2 ts) else none

/-- `__add__` (symb_matrix.py 28-36) and `__sub__` (38-41). -/
def plus (a b : Blk) : Option Blk :=
  if a.shape ≠ b.shape then none
  else if a.isZero then some b
  else if b.isZero then some a
  else mkAdd a b
def minus (a b : Blk) : Option Blk := plus a b.setNeg

/-- `__mul__` (symb_matrix.py 43-56). -/
def times (a b : Blk) : Option Blk :=
  if a.isZero || b.isZero then
    some (c0 (if !a.isScalar then a.rows else b.rows) (if !b.isScalar then b.cols else a.cols))
  else if a.isIdent && !b.isScalar then some b
  else if b.isIdent && !a.isScalar then some a
  else mkMul a b

/-- `T` (symb_matrix.py 85-92). -/
def transpose (a : Blk) : Blk :=
  if a.isZero then c0 a.cols a.rows
  else if a.isIdent || a.isScalar then a
  else tr false a

end Blk

open Blk

/-! ### Comparison -/

/-- The tokens of the text of a block. -/
inductive Tok
  | minus | times | plus | sub | lpar | rpar | dotT
  | name (n : Name)
  deriving DecidableEq

/-- Texts joined by a separator. -/
def join (sep : Tok) : List (List Tok) → List Tok
  | [] => []
  | [a] => a
  | a :: l => a ++ sep :: join sep l

mutual
/-- `__repr__` (symb_matrix.py 105-106, 140-144, 210-213, 277-278). -/
def text : Blk → List Tok
  | const neg nm _ _ => (if neg then [.minus] else []) ++ [.name nm]
  | tr _ b => match b with
    | const .. => text b ++ [.dotT]
    | _ => .lpar :: text b ++ [.rpar, .dotT]
  | mul neg _ _ _ ts => (if neg then [.minus] else []) ++ join .times (texts true ts)
  | add neg _ _ ts => join (if neg then .sub else .plus) (texts false ts)
/-- The texts of terms, sums in parentheses or not. -/
def texts (par : Bool) : List Blk → List (List Tok)
  | [] => []
  | t :: ts => (if par && t.isAdd then .lpar :: text t ++ [.rpar] else text t) :: texts par ts
end

/-- `any` and `all`, which do not end if a test does not. -/
def anyM (f : Blk → Option Bool) : List Blk → Option Bool
  | [] => some false
  | t :: ts => do if ← f t then some true else anyM f ts
def allM (f : Blk → Option Bool) : List Blk → Option Bool
  | [] => some true
  | t :: ts => do if ← f t then allM f ts else some false

/-- Comparison of lists. -/
def itemsEq (eq : Blk → Blk → Option Bool) : List Blk → List Blk → Option Bool
  | a :: l, b :: m => do if ← eq a b then itemsEq eq l m else some false
  | _, _ => some true
def listEq (eq : Blk → Blk → Option Bool) (l m : List Blk) : Option Bool :=
  if l.length = m.length then itemsEq eq l m else some false

/-- `__eq__` (symb_matrix.py 117-120, 152-155, 220-232, 283-292), with fuel for the depth. -/
def pyEq : ℕ → Blk → Blk → Option Bool
  | 0, _, _ => none
  | n + 1, a, b =>
    match a with
    | const .. => some (a.shape = b.shape ∧ text a = text b)
    | tr .. => some (a.shape = b.shape ∧ text a = text b)
    | mul _ true _ _ ts => do
      let us ← b.iter
      let sc := ts.filter fun t => t.isScalar
      let oc := us.filter fun t => t.isScalar
      if sc.length ≠ oc.length then some false else do
        let p ← allM (fun t => anyM (fun u => pyEq n u t) oc) sc
        let q ← allM (fun t => anyM (fun u => pyEq n u t) sc) oc
        if p && q then listEq (pyEq n) (nonScalar ts) (nonScalar us) else some false
    | mul _ false _ _ ts =>
      match b with
      | mul _ _ _ _ us => listEq (pyEq n) ts us
      | _ => some false
    | add _ _ _ ts =>
      match b with
      | add _ _ _ us => do
        let p ← allM (fun t => anyM (fun u => pyEq n u t) ts) us
        let q ← allM (fun t => anyM (fun u => pyEq n u t) us) ts
        some (p && q)
      | _ => some false

/-! ### Factoring

The factoring steps are parametrised by the comparison and by the two functions that split a term, so that the steps and
these three can be judged separately; `code` below has the functions of the code. -/

structure Rules where
  eq : Blk → Blk → Option Bool
  stripFirst : Blk → Option (Blk × Blk)
  stripLast : Blk → Option (Blk × Blk)

/-- The terms equal to `t` are counted and removed. -/
def gather (eq : Blk → Blk → Option Bool) (t : Blk) : List Blk → Option (ℕ × List Blk)
  | [] => some (0, [])
  | u :: us => do
    let e ← eq t u
    let (k, l) ← gather eq t us
    some (if e then (k + 1, l) else (k, u :: l))

/-- One turn of the loop of `factor` (symb_algebra.py 6-16). -/
def factorAt (eq : Blk → Blk → Option Bool) (i : ℕ) (ts : List Blk) : Option (List Blk) := do
  let t ← ts[i]?
  let (k, pre) ← gather eq t (ts.take i)
  let (m, post) ← gather eq t (ts.drop (i + 1))
  if k + m = 0 then some ts else do
    let x ← times (const false (.num (k + m + 1)) (.num 1) (.num 1)) t
    some (pre ++ x :: post)

/-- `factor` (symb_algebra.py 4-17). -/
def factorLoop (eq : Blk → Blk → Option Bool) : ℕ → ℕ → List Blk → Option (List Blk)
  | 0, _, _ => none
  | n + 1, i, ts => if i < ts.length then do factorLoop eq n (i + 1) (← factorAt eq i ts) else some ts

def factor (eq : Blk → Blk → Option Bool) (ts : List Blk) : Option (List Blk) := factorLoop eq (ts.length + 1) 0 ts

/-- What the loops have made of a sum: a sum, or the one product that is left (`expr = expr.terms[0]`). -/
inductive St
  | sum (ts : List Blk)
  | one (b : Blk)

/-- `same_scalar_term` (symb_algebra.py 34-39). -/
def sameScalar (eq : Blk → Blk → Option Bool) (sc : List Blk) : List Blk → Option (Option Blk)
  | [] => some none
  | u :: us => do if ← anyM (fun t => eq t u) sc then some (some u) else sameScalar eq sc us

/-- The place of the first term equal to `s`. -/
def split (eq : Blk → Blk → Option Bool) (s : Blk) : List Blk → Option (List Blk × Blk × List Blk)
  | [] => none
  | t :: ts => do
    if ← eq t s then some ([], t, ts) else do
      let (pre, x, post) ← split eq s ts
      some (t :: pre, x, post)

/-- `strip_scalar` (symb_algebra.py 21-32): the scalar and the rest. -/
def stripScalar (eq : Blk → Blk → Option Bool) (s : Blk) : Blk → Option (Blk × Blk)
  | mul neg cm r c ts => do
    let (pre, x, post) ← split eq s ts
    if x.isAdd then none else
      match pre ++ post with
      | [] => some (mul neg cm r c ts, const false .ident x.rows x.cols)
      | [y] => some (x, y)
      | l => some (x, mul neg cm r c l)
  | _ => none

/-- The inner loop of `factor_scalars` (symb_algebra.py 46-63). When one product is left, the loops go on over its factors;
nothing more happens if no factor is a product itself, and the other case is left out (`none`). -/
def fsJ (eq : Blk → Blk → Option Bool) (rec : Blk → Option Blk) (i : ℕ) :
    ℕ → ℕ → Blk → List Blk → Bool → Option (St × Bool)
  | 0, _, _, _, _ => none
  | n + 1, j, ti, ts, md =>
    match ts[j]? with
    | none => some (.sum ts, md)
    | some tj =>
      match ti, tj with
      | mul _ _ _ _ us, mul _ _ _ _ ws => do
        match ← sameScalar eq (us.filter fun t => t.isScalar) ws with
        | none => fsJ eq rec i n (j + 1) ti ts md
        | some s => do
          let (f, ri) ← stripScalar eq s ti
          let (_, rj) ← stripScalar eq s tj
          let m ← mkMul f (← rec (← mkAdd ri rj))
          let ts' := (ts.set i m).eraseIdx j
          if ts'.length = 1 then (if m.mulTerms.any isMul then none else some (.one m, true)) else fsJ eq rec i n j m ts' true
      | _, _ => fsJ eq rec i n (j + 1) ti ts md

/-- The outer loop (symb_algebra.py 42-64). -/
def fsI (eq : Blk → Blk → Option Bool) (rec : Blk → Option Blk) (m : ℕ) : ℕ → ℕ → List Blk → Bool → Option (St × Bool)
  | 0, _, _, _ => none
  | n + 1, i, ts, md =>
    match ts[i]? with
    | none => some (.sum ts, md)
    | some ti => do
      match ← fsJ eq rec i m (i + 1) ti ts md with
      | (.one b, md) => some (.one b, md)
      | (.sum ts, md) => fsI eq rec m n (i + 1) ts md

/-- `factor_scalars` (symb_algebra.py 20-67). -/
def factorScalars (eq : Blk → Blk → Option Bool) : ℕ → Blk → Option Blk
  | 0, _ => none
  | n + 1, add neg r c ts => do
    match ← fsI eq (factorScalars eq n) n n 0 ts false with
    | (.one b, _) => some b
    | (.sum ts, true) => factorScalars eq n (add neg r c ts)
    | (.sum ts, false) => some (add neg r c ts)
  | _, e => some e

/-- `same_first_term` (symb_algebra.py 83-88) and `same_last_term` (128-133). -/
def sameFirst (eq : Blk → Blk → Option Bool) (a b : Blk) : Option Bool := do
  let l ← a.iter
  let m ← b.iter
  eq (← (nonScalar l).head?) (← (nonScalar m).head?)
def sameLast (eq : Blk → Blk → Option Bool) (a b : Blk) : Option Bool := do
  let l ← a.iter
  let m ← b.iter
  eq (← (nonScalar l).getLast?) (← (nonScalar m).getLast?)

/-- The loops over the factors of a product, which they take for a sum: no pair of factors may be alike. With a pair that
is, the product would become a part of itself or lose a factor; the outcome is `none`. -/
def noPair (same : Blk → Blk → Option Bool) (a : Blk) : List Blk → Option Unit
  | [] => some ()
  | b :: l => do
    if a.isAdd || b.isAdd then noPair same a l
    else if ← same a b then none else noPair same a l
def noPairs (same : Blk → Blk → Option Bool) : List Blk → Option Unit
  | [] => some ()
  | a :: l => do
    noPair same a l
    noPairs same l

/-- The inner loop of `factor_first_term` (symb_algebra.py 93-108). -/
def ffJ (R : Rules) (rec : Blk → Option Blk) (i : ℕ) : ℕ → ℕ → Blk → List Blk → Option St
  | 0, _, _, _ => none
  | n + 1, j, ti, ts =>
    match ts[j]? with
    | none => some (.sum ts)
    | some tj =>
      if ti.isAdd || tj.isAdd then ffJ R rec i n (j + 1) ti ts
      else do
        if ← sameFirst R.eq ti tj then do
          let (f, ri) ← R.stripFirst ti
          let (_, rj) ← R.stripFirst tj
          let m ← mkMul f (← rec (← mkAdd ri rj))
          let ts' := (ts.set i m).eraseIdx j
          if ts'.length = 1 then some (.one m) else ffJ R rec i n j m ts'
        else ffJ R rec i n (j + 1) ti ts

def ffI (R : Rules) (rec : Blk → Option Blk) (m : ℕ) : ℕ → ℕ → List Blk → Option St
  | 0, _, _ => none
  | n + 1, i, ts =>
    match ts[i]? with
    | none => some (.sum ts)
    | some ti => do
      match ← ffJ R rec i m (i + 1) ti ts with
      | .one b => some (.one b)
      | .sum ts => ffI R rec m n (i + 1) ts

/-- `factor_first_term` (symb_algebra.py 70-112). When one product is left, the loop goes on over its factors, comparing
them with the product itself and then with each other. -/
def factorFirst (R : Rules) : ℕ → Blk → Option Blk
  | 0, _ => none
  | n + 1, add neg r c ts => do
    match ← ffI R (factorFirst R n) n n 0 ts with
    | .one b => do
      noPair (sameFirst R.eq) b b.mulTerms.tail
      noPairs (sameFirst R.eq) b.mulTerms.tail
      some b
    | .sum ts => some (add neg r c ts)
  | _ + 1, e => do
    noPairs (sameFirst R.eq) e.mulTerms
    some e

/-- The inner loop of `factor_last_term` (symb_algebra.py 138-154). -/
def flJ (R : Rules) (i : ℕ) : ℕ → ℕ → Blk → List Blk → Option St
  | 0, _, _, _ => none
  | n + 1, j, ti, ts =>
    match ts[j]? with
    | none => some (.sum ts)
    | some tj =>
      if ti.isAdd || tj.isAdd then flJ R i n (j + 1) ti ts
      else do
        if ← sameLast R.eq ti tj then do
          let (ri, f) ← R.stripLast ti
          let (rj, _) ← R.stripLast tj
          let m ← mkMul (← mkAdd ri rj) f
          let ts' := (ts.set i m).eraseIdx j
          if ts'.length = 1 then some (.one m) else flJ R i n j m ts'
        else flJ R i n (j + 1) ti ts

def flI (R : Rules) (m : ℕ) : ℕ → ℕ → List Blk → Option St
  | 0, _, _ => none
  | n + 1, i, ts =>
    match ts[i]? with
    | none => some (.sum ts)
    | some ti => do
      match ← flJ R i m (i + 1) ti ts with
      | .one b => some (.one b)
      | .sum ts => flI R m n (i + 1) ts

/-- `factor_last_term` (symb_algebra.py 115-158). -/
def factorLast (R : Rules) (n : ℕ) : Blk → Option Blk
  | add neg r c ts => do
    match ← flI R n n 0 ts with
    | .one b => some b
    | .sum ts => some (add neg r c ts)
  | e => do
    noPairs (sameLast R.eq) e.mulTerms
    some e

/-- `combine_factors` (symb_algebra.py 165-169). -/
def combine (R : Rules) (n : ℕ) (e : Blk) : Option Blk := do
  factorLast R n (← factorFirst R n (← factorScalars R.eq n e))

/-- Every term replaced. -/
def mapM (f : Blk → Option Blk) : List Blk → Option (List Blk)
  | [] => some []
  | t :: ts => do
    let t' ← f t
    let l ← mapM f ts
    some (t' :: l)

/-- A factor of a product (symb_algebra.py 181-183). -/
def reduceFactor (rec : Blk → Option Blk) (t : Blk) : Option Blk := if t.isAdd then rec t else some t

/-- A term of the result (symb_algebra.py 176-183). -/
def reduceTerm (rec : Blk → Option Blk) : Blk → Option Blk
  | add neg r c us => rec (add neg r c us)
  | mul neg cm r c us => do some (mul neg cm r c (← mapM (reduceFactor rec) us))
  | t => some t

/-- `reduce` (symb_algebra.py 172-185). -/
def reduce (R : Rules) : ℕ → Blk → Option Blk
  | 0, _ => none
  | n + 1, add neg r c ts => do
    match ← combine R n (add neg r c (← factor R.eq ts)) with
    | add neg r c us => do some (add neg r c (← mapM (reduceTerm (reduce R n)) us))
    | mul neg cm r c us => do some (mul neg cm r c (← mapM (reduceTerm (reduce R n)) us))
    | e => some e
  | _ + 1, e => some e

/-! ### The functions of the code -/

/-- A list with its first or last term that is not a scalar taken out. -/
def popFirst : List Blk → Option (Blk × List Blk)
  | [] => none
  | t :: ts => if t.isScalar then do let (f, l) ← popFirst ts; some (f, t :: l) else some (t, ts)
def popLast : List Blk → Option (List Blk × Blk)
  | [] => none
  | t :: ts =>
    match popLast ts with
    | some (l, f) => some (t :: l, f)
    | none => if t.isScalar then none else some (ts, t)

/-- `strip_first_term` (symb_algebra.py 71-81) with `pop_front` (symb_matrix.py 240-247). -/
def stripFirst : Blk → Option (Blk × Blk)
  | mul neg cm r c ts =>
    match ts with
    | [] => none
    | [_] => some (mul neg cm r c ts, cI c)
    | [a, b] => some (a, b)
    | ts => do let (f, l) ← popFirst ts; some (f, mul neg cm f.cols c l)
  | add neg r c ts => if ts.length = 1 then some (add neg r c ts, cI c) else none
  | b => some (b, cI b.cols)

/-- `ConstBlock("I", d, d)` without largest dimensions, which raises for a variable. -/
def newI : Dim → Option Blk
  | .num n => some (cI (.num n))
  | .var _ => none

/-- `strip_last_term` (symb_algebra.py 116-126) with `pop_back` (symb_matrix.py 249-256). -/
def stripLast : Blk → Option (Blk × Blk)
  | mul neg cm r c ts =>
    match ts with
    | [] => none
    | [_] => do some (← newI r, mul neg cm r c ts)
    | [a, b] => some (a, b)
    | ts => do let (l, f) ← popLast ts; some (mul neg cm r f.rows l, f)
  | add neg r c ts => if ts.length = 1 then do some (← newI r, add neg r c ts) else none
  | b => do some (← newI b.rows, b)

/-- The functions of the code, with fuel for the depth of comparisons. -/
def code (n : ℕ) : Rules := ⟨pyEq n, stripFirst, stripLast⟩

/-! ### Matrices of blocks -/

/-- A matrix of blocks (symb_block_matrix.py 8-27). -/
abbrev BlkMat (m n : ℕ) := Fin m → Fin n → Blk

/-- The sum of products of a row and a column (symb_block_matrix.py 121-122). -/
def dotM (acc : Blk) : List (Blk × Blk) → Option Blk
  | [] => some acc
  | (a, b) :: l => do dotM (← plus acc (← times a b)) l

/-- A block of a product (symb_block_matrix.py 103-125). -/
def blockTimes {m k n : ℕ} (A : BlkMat m (k + 1)) (B : BlkMat (k + 1) n) (r : Fin m) (c : Fin n) : Option Blk :=
  dotM (c0 (A r 0).rows (B 0 c).cols) ((List.finRange (k + 1)).map fun i => (A r i, B i c))

/-- A block of a transpose (symb_block_matrix.py 133-141). -/
def blockTr {m n : ℕ} (A : BlkMat m n) (c : Fin n) (r : Fin m) : Blk := (A r c).transpose

end Verif.Model.Symb
