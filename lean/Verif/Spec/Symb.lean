import Verif.Model.Symb
import Mathlib.Data.Matrix.Basic
import Mathlib.Data.Matrix.Mul
import Mathlib.Data.Matrix.Diagonal
import Mathlib.Data.Real.Basic

/-!
What a symbolic block means. A block of size r by c is a matrix with r rows and c columns; here all matrices are stored in the
top left corner of square matrices with N + 1 rows, with zeros elsewhere, so that blocks of all sizes can be multiplied. A
block of size 1 by 1 is a scalar, which multiplies matrices of every size: it is stored as a multiple of the identity.
-/

namespace Verif.Spec.Symb

open Verif.Model.Symb Verif.Model.Symb.Blk

/-- Storage for matrices. -/
abbrev M (N : ℕ) := Matrix (Fin (N + 1)) (Fin (N + 1)) ℝ

/-- A valuation: sizes for the variable dimensions and matrices for the named blocks of all sizes. -/
structure Val (N : ℕ) where
  dim : ℕ → ℕ
  mat : ℕ → Dim → Dim → M N

variable {N : ℕ} (V : Val N)

/-- The size of a dimension. -/
def Val.size : Dim → ℕ
  | .num n => n
  | .var k => V.dim k

/-- The identity matrix of a size. -/
def proj (d : Dim) : M N := Matrix.diagonal fun i => if i.val < V.size d then 1 else 0

/-- The dimensions of a scalar. -/
abbrev one1 : Dim × Dim := (.num 1, .num 1)

/-- A product of size 1 by 1 is a scalar. -/
def norm (s : Dim × Dim) (X : M N) : M N := if s = one1 then X 0 0 • 1 else X

/-- The sign that is printed before a block. -/
def sgn (neg : Bool) : ℝ := if neg then -1 else 1

/-- The meaning of a name. -/
def denName (r c : Dim) : Name → M N
  | .zero => 0
  | .ident => if (r, c) = one1 then 1 else proj V r
  | .num n => (n : ℝ) • 1
  | .sym k => if (r, c) = one1 then V.mat k r c 0 0 • 1 else proj V r * V.mat k r c * proj V c

mutual
/-- The meaning of a block as `render` prints it (symb_matrix.py 108-112, 146-150, 215-218, 280-281): `-A`, `A.transpose()`,
`-A*B*C`, `A + B + C`, `A-B-C`. The flag of a `Transpose` is not printed. -/
def den : Blk → M N
  | .const neg nm r c => sgn neg • denName V r c nm
  | .tr _ b => (den b).transpose
  | .mul neg _ r c ts => sgn neg • norm (r, c) (prods ts)
  | .add neg _ _ ts => sums (sgn neg) ts
/-- A product. -/
def prods : List Blk → M N
  | [] => 1
  | t :: ts => den t * prods ts
/-- A sum, in which all terms but the first have a sign. -/
def sums (s : ℝ) : List Blk → M N
  | [] => 0
  | t :: ts => den t + s • tot ts
/-- A sum. -/
def tot : List Blk → M N
  | [] => 0
  | t :: ts => den t + tot ts
end

/-- Factors that can be multiplied, with `d` rows and `e` columns; scalars may stand anywhere. -/
def chain (d : Dim) : List Blk → Dim → Prop
  | [], e => d = e
  | t :: ts, e => if t.isScalar then chain d ts e else t.rows = d ∧ chain t.cols ts e

mutual
/-- Expressions that mean what they show: sizes fit, and only named blocks have a sign. -/
def good : Blk → Prop
  | .const neg nm r c => (neg = true → nm ≠ .zero ∧ nm ≠ .ident) ∧ (nm = .ident → r = c) ∧
      ((∃ n, nm = .num n) → (r, c) = one1)
  | .tr neg b => neg = false ∧ good b ∧ b.isScalar = false
  | .mul neg _ r c ts => neg = false ∧ goods ts ∧ nonScalar ts ≠ [] ∧ chain r ts c
  | .add neg r c ts => neg = false ∧ goods ts ∧ ts ≠ [] ∧ ∀ t ∈ ts, t.shape = (r, c)
def goods : List Blk → Prop
  | [] => True
  | t :: ts => good t ∧ goods ts
end

/-- Blocks that may be multiplied. -/
def Conform (a b : Blk) : Prop := a.isScalar = true ∨ b.isScalar = true ∨ a.cols = b.rows

/-- An element of a matrix. -/
def entry (X : M N) (i j : ℕ) : ℝ := if h : i < N + 1 ∧ j < N + 1 then X ⟨i, h.1⟩ ⟨j, h.2⟩ else 0

end Verif.Spec.Symb
