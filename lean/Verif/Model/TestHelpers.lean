import Verif.Model.DQuat
import Mathlib.Data.List.FinRange

/-!
# Model of the comparisons of the tests: common/test_helpers.h, and of common/random.h

A double is a real number, an infinity or a NaN: arithmetic on finite numbers is exact and does not overflow.  The texts of the
reports are left out but for the cells they show.  The sequences of random numbers are given (as in `Model/SimRun.lean`).
-/

namespace Verif.Model.TestHelpers

open Verif.Model.Lie

/-- A double. -/
inductive Fl where
  | fin (x : ℝ)
  | pinf
  | ninf
  | nan

namespace Fl

/-- `a < b`. -/
def Lt : Fl → Fl → Prop
  | .fin x, .fin y => x < y
  | .fin _, .pinf => True
  | .ninf, .fin _ => True
  | .ninf, .pinf => True
  | _, _ => False

/-- `a - b`. -/
def sub : Fl → Fl → Fl
  | .fin x, .fin y => .fin (x - y)
  | .fin _, .pinf => .ninf
  | .fin _, .ninf => .pinf
  | .pinf, .fin _ => .pinf
  | .pinf, .ninf => .pinf
  | .ninf, .fin _ => .ninf
  | .ninf, .pinf => .ninf
  | _, _ => .nan

/-- `std::abs`. -/
noncomputable def abs : Fl → Fl
  | .fin x => .fin |x|
  | .pinf => .pinf
  | .ninf => .pinf
  | .nan => .nan

open scoped Classical in
/-- A number times an infinity. -/
noncomputable def inf (x : ℝ) : Fl := if x = 0 then .nan else if 0 < x then .pinf else .ninf

/-- `a * b`. -/
noncomputable def mul : Fl → Fl → Fl
  | .fin x, .fin y => .fin (x * y)
  | .fin x, .pinf => inf x
  | .fin x, .ninf => inf (-x)
  | .pinf, .fin y => inf y
  | .ninf, .fin y => inf (-y)
  | .pinf, .pinf => .pinf
  | .ninf, .ninf => .pinf
  | .pinf, .ninf => .ninf
  | .ninf, .pinf => .ninf
  | _, _ => .nan

open scoped Classical in
/-- `a / b`; a zero divisor is taken to be positive. -/
noncomputable def div : Fl → Fl → Fl
  | .fin x, .fin y => if y = 0 then inf x else .fin (x / y)
  | .fin _, .pinf => .fin 0
  | .fin _, .ninf => .fin 0
  | .pinf, .fin y => if y < 0 then .ninf else .pinf
  | .ninf, .fin y => if y < 0 then .pinf else .ninf
  | _, _ => .nan

open scoped Classical in
/-- One step of `std::max` of a list: the first greatest. -/
noncomputable def max (a b : Fl) : Fl := if Lt a b then b else a

open scoped Classical in
/-- `sign` (common/defs.h 33-37): `(in >= 0) - (in < 0)`. -/
noncomputable def sign (x : Fl) : Fl :=
  .fin ((if Lt (.fin 0) x ∨ x = .fin 0 then 1 else 0) - (if Lt x (.fin 0) then 1 else 0))

end Fl

open Fl

/-- `rel_err` (test_helpers.h 12-15). -/
noncomputable def relErr (a b : Fl) : Fl := (a.sub b).abs.div ((a.abs.max b.abs).max (.fin 1))

/-- A matrix and its size. -/
structure Mat where
  rows : ℕ
  cols : ℕ
  at' : ℕ → ℕ → Fl

/-- The colours of the cells (test_helpers.h 60-71, 98-109). -/
inductive Style where
  | red | blue | plain
deriving DecidableEq

/-- `ss << … << mat(row, col)`. -/
structure Cell where
  style : Style
  value : Fl

open scoped Classical in
/-- A cell (test_helpers.h 60-71): red if the numbers are not close, blue if the first is not zero. -/
noncomputable def cell (a b mat : Mat) (tol : Fl) (r c : ℕ) : Cell :=
  if Lt tol (relErr (a.at' r c) (b.at' r c)) then ⟨.red, mat.at' r c⟩
  else if a.at' r c ≠ .fin 0 then ⟨.blue, mat.at' r c⟩ else ⟨.plain, mat.at' r c⟩

/-- A row of cells (test_helpers.h 53-73). -/
noncomputable def cells (a b mat : Mat) (tol : Fl) (r : ℕ) : List Cell :=
  (List.range mat.cols).map (cell a b mat tol r)

/-- `print_side_by_side` (test_helpers.h 46-82): the rows of the first, each followed by that of the second. -/
noncomputable def sideBySide (a b : Mat) (tol : Fl) : List (List Cell) :=
  (List.range a.rows).map fun r => cells a b a tol r ++ cells a b b tol r

/-- `print_after_one_another` (test_helpers.h 84-127): all rows of the first, then all of the second. -/
noncomputable def oneAfterAnother (a b : Mat) (tol : Fl) : List (List Cell) :=
  (List.range a.rows).map (cells a b a tol) ++ (List.range b.rows).map (cells a b b tol)

/-- `::testing::AssertionResult` of `matrixClose`. -/
inductive Verdict where
  | success
  | sizes
  | failure (maxError : Fl) (report : List (List Cell))

open scoped Classical in
/-- The body of the loops (test_helpers.h 150-155) on `error` and `max_error`. -/
noncomputable def step (tol : Fl) (s : Bool × Fl) (err : Fl) : Bool × Fl :=
  if Lt tol err then (true, if Lt s.2 err then err else s.2) else s

/-- `matrixClose` (test_helpers.h 129-171). -/
noncomputable def matrixClose (a b : Mat) (tol : Fl) : Verdict :=
  if a.rows ≠ b.rows ∨ a.cols ≠ b.cols then .sizes
  else
    let s := (List.range a.rows).foldl (fun s r =>
      (List.range b.cols).foldl (fun s c => step tol s (relErr (a.at' r c) (b.at' r c))) s) (false, .fin 0)
    if s.1 = false then .success
    else .failure s.2 (if a.cols > 6 then oneAfterAnother a b tol else sideBySide a b tol)

open scoped Classical in
/-- The loop of `quatClose` and `dquatClose` (test_helpers.h 181-193, 204-216): the first element that is not close. -/
noncomputable def elements {n : ℕ} (a b : Fin n → Fl) (sgn tol : Fl) : Option (Fin n) :=
  (List.finRange n).find? fun i => decide (Lt tol ((sgn.mul (a i)).sub (b i)).abs)

/-- `quatClose` (test_helpers.h 196-217); `w()` is element 0. -/
noncomputable def quatClose (a b : Fin 4 → Fl) (tol : Fl) : Option (Fin 4) :=
  elements a b (sign ((a 0).mul (b 0))) tol

/-- `dquatClose` (test_helpers.h 173-194); `real().w()` is element 0. -/
noncomputable def dquatClose (a b : Fin 8 → Fl) (tol : Fl) : Option (Fin 8) :=
  elements a b (sign ((a 0).mul (b 0))) tol

/-! ### common/random.h -/

/-- Conversion of a finite double to `int`: towards zero, undefined if it does not fit. -/
noncomputable def toInt (x : ℝ) : Option ℤ :=
  let z := if 0 ≤ x then ⌊x⌋ else ⌈x⌉
  if -2 ^ 31 ≤ z ∧ z < 2 ^ 31 then some z else none

/-- The loops (random.h 16-22, 33-39, 48-54, 65-71): `u` is the sequence of the distribution, `k` its place; row after row, the numbers
are stored in `out`. -/
noncomputable def fill (f : ℝ → ℝ) (u : ℕ → ℝ) (cols : ℕ) (out : ℕ → ℕ → ℝ) (k : ℕ) (rows : ℕ) : (ℕ → ℕ → ℝ) × ℕ :=
  (List.range rows).foldl (fun s i => (List.range cols).foldl (fun s j =>
    (fun r c => if r = i ∧ c = j then f (u s.2) else s.1 r c, s.2 + 1)) s) (out, k)

/-- `randomNormal` (random.h 10-24, 43-56); `out` is uninitialised. -/
noncomputable def randomNormal (n : ℕ → ℝ) (rows cols : ℕ) (out : ℕ → ℕ → ℝ) (k : ℕ) : (ℕ → ℕ → ℝ) × ℕ :=
  fill id n cols out k rows

/-- `randomUniformat` and `randomUniform` (random.h 26-41, 58-72): `width` is an `int`. -/
noncomputable def randomUniform (u : ℕ → ℝ) (lo hi : ℝ) (rows cols : ℕ) (out : ℕ → ℕ → ℝ) (k : ℕ) :
    Option ((ℕ → ℕ → ℝ) × ℕ) :=
  (toInt (hi - lo)).map fun (w : ℤ) => fill (fun x => (w : ℝ) * x + lo) u cols out k rows

end Verif.Model.TestHelpers
