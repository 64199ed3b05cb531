import Mathlib.Algebra.Order.Floor.Ring
import Mathlib.Algebra.Order.Field.Basic
import Mathlib.Data.List.Sort
import Mathlib.Analysis.Real.Sqrt
import Mathlib.LinearAlgebra.Matrix.NonsingularInverse
/-!
# Model of core/solver/lambda.cxx: LTDL, reduction, search

Doubles are elements of an ordered field `K` with a floor (the reals, or the rationals for running
examples); rounding is not modelled.  Matrices and vectors are functions of natural indices, of
which the entries below the size are meaningful.  `while` loops take a fuel argument; running out
of it is `none`.
-/
namespace Verif.Lambda

section Generic
variable {K : Type} [Field K] [LinearOrder K] [IsStrictOrderedRing K] [FloorRing K]

abbrev Vec (K : Type) := Nat → K
abbrev Mat (K : Type) := Nat → Nat → K

/-- `std::round`: to nearest, halfway cases away from zero. -/
def round (x : K) : K := if 0 ≤ x then (⌊x + 1 / 2⌋ : Int) else (⌈x - 1 / 2⌉ : Int)

/-- common/defs.h 33-37: never zero. -/
def sign (x : K) : K := if 0 ≤ x then 1 else -1

/-- Assignment to an entry. -/
def setV (v : Vec K) (i : Nat) (x : K) : Vec K := fun j => if j = i then x else v j

/-! ### Reduction -/

/-- The matrices `reduction` works on. -/
structure Red (K : Type) where
  L : Mat K
  D : Vec K
  a : Vec K
  Z : Mat K

/-- lambda.cxx 74-91, `integerGaussTransformations(i, j, L, a, Z)`, `i > j`; the block of `L` covers the
rows from `i` on. -/
def gauss (i j : Nat) (s : Red K) : Red K :=
  let mu := round (s.L i j)
  if mu ≠ 0 then
    { L := fun r c => if c = j ∧ i ≤ r then s.L r c - mu * s.L r i else s.L r c
      D := s.D
      a := setV s.a j (s.a j - mu * s.a i)
      Z := fun r c => if c = j then s.Z r c - mu * s.Z r i else s.Z r c }
  else s

/-- lambda.cxx 93-119, `permute(k, delta, a, L, D, Z)`. -/
def permute (k : Nat) (delta : K) (s : Red K) : Red K :=
  let lambda := s.D (k + 1) * s.L (k + 1) k / delta
  let eta := s.D k / delta
  { D := setV (setV s.D k (eta * s.D (k + 1))) (k + 1) delta
    L := fun r c =>
      if r = k ∧ c < k then -s.L (k + 1) k * s.L k c + s.L (k + 1) c
      else if r = k + 1 ∧ c < k then eta * s.L k c + lambda * s.L (k + 1) c
      else if r = k + 1 ∧ c = k then lambda
      else if k + 2 ≤ r ∧ c = k then s.L r (k + 1)
      else if k + 2 ≤ r ∧ c = k + 1 then s.L r k
      else s.L r c
    Z := fun r c => if c = k then s.Z r (k + 1) else if c = k + 1 then s.Z r k else s.Z r c
    a := setV (setV s.a k (s.a (k + 1))) (k + 1) (s.a k) }

/-- lambda.cxx 148-151: the loop `for (j = k + 1; j < N; ++j)`. -/
def gaussColumn (N k : Nat) (s : Red K) : Red K :=
  (List.range (N - (k + 1))).foldl (fun s i => gauss (k + 1 + i) k s) s

/-- lambda.cxx 143-161, the inner loop from a given `k` (the value before `k -= 1`); the result tells
whether a swap was made and where. -/
def sweep (N k1 : Nat) : Nat → Red K → Option Nat × Red K
  | 0, s => (none, s)
  | k + 1, s =>
    let s := if k ≤ k1 then gaussColumn N k s else s
    let delta := s.D k + s.L (k + 1) k * s.L (k + 1) k * s.D (k + 1)
    if delta < s.D (k + 1) then (some k, permute k delta s) else sweep N k1 k s

/-- lambda.cxx 138-162, the outer loop. -/
def reduceLoop (N : Nat) : Nat → Nat → Red K → Option (Red K)
  | 0, _, _ => none
  | fuel + 1, k1, s =>
    match sweep N k1 (N - 1) s with
    | (none, s') => some s'
    | (some k, s') => reduceLoop N fuel k s'

/-- lambda.cxx 121-166 after the call of `LTDL`; `N - 2` may be negative in C++, then the loop makes no
iteration, as here. -/
def reduceFrom (N fuel : Nat) (L : Mat K) (D a : Vec K) : Option (Red K) :=
  reduceLoop N fuel (N - 2) ⟨L, D, a, fun r c => if r = c then 1 else 0⟩

/-! ### Search -/

/-- lambda.cxx 187-212: the local variables; `count` is one more than in the code. -/
structure Search (K : Type) where
  k : Nat
  left : K
  chi2 : K
  count : Nat
  imax : Nat
  dist : Vec K
  acond : Vec K
  zcond : Vec K
  step : Vec K
  S : Mat K
  cands : Mat K
  norms : Vec K

/-- Eigen `maxCoeff(&i)`: the first index of a largest entry. -/
def argmax (v : Vec K) : Nat → Nat
  | 0 => 0
  | n + 1 => if n = 0 then 0 else if v (argmax v n) < v n then n else argmax v n

/-- lambda.cxx 188-212. -/
def searchInit (n m : Nat) (ahat : Vec K) : Search K :=
  let e := n - 1
  let z := round (ahat e)
  let left := ahat e - z
  { k := e, left := left, chi2 := 10 ^ 18, count := 0, imax := m - 1
    dist := fun _ => 0, acond := setV (fun _ => 0) e (ahat e), zcond := setV (fun _ => 0) e z
    step := setV (fun _ => 0) e (if sign left = 0 then 1 else sign left)
    S := fun _ _ => 0, cands := fun _ _ => 0, norms := fun _ => 0 }

/-- lambda.cxx 219-236: move down. -/
def goDown (L : Mat K) (ahat : Vec K) (newdist : K) (s : Search K) : Search K :=
  let k := s.k - 1
  let S : Mat K := fun r c => if r = k ∧ c ≤ k then
    s.S (k + 1) c + (s.zcond (k + 1) - s.acond (k + 1)) * L (k + 1) c else s.S r c
  let ac := ahat k + S k k
  let z := round ac
  let left := ac - z
  { s with k := k, dist := setV s.dist k newdist, S := S, acond := setV s.acond k ac, zcond := setV s.zcond k z
           left := left, step := setV s.step k (if sign left = 0 then 1 else sign left) }

/-- lambda.cxx 241-256: store the candidate. -/
def store (m : Nat) (newdist : K) (s : Search K) : Search K :=
  if s.count < m - 1 then
    { s with count := s.count + 1
             cands := fun c r => if c = s.count then s.zcond r else s.cands c r
             norms := setV s.norms s.count newdist }
  else
    let norms := setV s.norms s.imax newdist
    let imax := argmax norms m
    { s with cands := fun c r => if c = s.imax then s.zcond r else s.cands c r
             norms := norms, imax := imax, chi2 := norms imax }

/-- lambda.cxx 257-259 (with `k` = 0) and 270-273: the next integer on level `k`. -/
def nextInt (k : Nat) (s : Search K) : Search K :=
  let z := s.zcond k + s.step k
  { s with k := k, zcond := setV s.zcond k z, left := s.acond k - z
           step := setV s.step k (-s.step k - sign (s.step k)) }

/-- lambda.cxx 213-275, the loop. -/
def searchLoop (n m : Nat) (L : Mat K) (D ahat : Vec K) : Nat → Search K → Option (Search K)
  | 0, _ => none
  | fuel + 1, s =>
    let newdist := s.dist s.k + s.left * s.left / D s.k
    if newdist < s.chi2 then
      if s.k ≠ 0 then searchLoop n m L D ahat fuel (goDown L ahat newdist s)
      else searchLoop n m L D ahat fuel (nextInt 0 (store m newdist s))
    else if s.k = n - 1 then some s
    else searchLoop n m L D ahat fuel (nextInt (s.k + 1) s)

/-- lambda.cxx 168-283: the candidates with their distances, sorted by distance (matrix_defs.h 170-187;
`std::sort` leaves the order of equal distances open, the model keeps the order of storage). -/
def search (n m : Nat) (L : Mat K) (D ahat : Vec K) (fuel : Nat) : Option (List (K × Vec K)) :=
  (searchLoop n m L D ahat fuel (searchInit n m ahat)).map fun s =>
    ((List.range m).insertionSort fun i j => s.norms i ≤ s.norms j).map fun c => (s.norms c, s.cands c)

end Generic

/-! ### LTDL -/

/-- lambda.cxx 31-39: one pass of the loop, at row `i`, on the working copy of `Q`, `L` and `D`. -/
noncomputable def ltdlRow (i : Nat) (Q L : Mat ℝ) (D : Vec ℝ) : Mat ℝ × Mat ℝ × Vec ℝ :=
  let row : Vec ℝ := fun c => Q i c / Real.sqrt (Q i i)
  (fun j c => if j < i ∧ c ≤ j then Q j c - row c * row j else Q j c,
   fun r c => if r = i ∧ c ≤ i then row c / row i else L r c,
   setV D i (Q i i))

/-- lambda.cxx 31-39: rows `m - 1` down to 0. -/
noncomputable def ltdlLoop : Nat → Mat ℝ → Mat ℝ → Vec ℝ → Mat ℝ × Vec ℝ
  | 0, _, L, D => (L, D)
  | i + 1, Q, L, D =>
    let r := ltdlRow i Q L D
    ltdlLoop i r.1 r.2.1 r.2.2

open Classical in
/-- lambda.cxx 14-42; `L0`, `D0` are the matrices passed in, whose contents do not matter except that
the upper triangle of `L` is cleared first. -/
noncomputable def ltdl (N : Nat) (Q L0 : Mat ℝ) (D0 : Vec ℝ) : Option (Mat ℝ × Vec ℝ) :=
  let L : Mat ℝ := fun r c => if r < c then 0 else L0 r c
  let p := ltdlLoop N Q L D0
  if ∀ i < N, 0 < p.2 i then some p else none

/-- lambda.cxx 121-166. -/
noncomputable def reduction (N fuel : Nat) (Q : Mat ℝ) (a : Vec ℝ) (L0 : Mat ℝ) (D0 : Vec ℝ) : Option (Red ℝ) := do
  let p ← ltdl N Q L0 D0
  reduceFrom N fuel p.1 p.2 a

/-- matrix_defs.h 189-196 with `cast<int>`: truncation towards zero; a value that does not fit an `int` is
undefined behaviour (`none`). -/
noncomputable def modf (n : Nat) (a : Vec ℝ) : Option (Vec ℝ × Vec ℝ) :=
  let t : Nat → Int := fun i => if 0 ≤ a i then ⌊a i⌋ else ⌈a i⌉
  if ∀ i < n, -2 ^ 31 ≤ t i ∧ t i < 2 ^ 31 then some (fun i => a i - t i, fun i => t i) else none

/-- The `n` by `n` matrix stored in `M`. -/
def toMat {K : Type} (n : Nat) (M : Mat K) : Matrix (Fin n) (Fin n) K := Matrix.of fun i j => M i j

/-- lambda.cxx 44-72; `L`, `D` are uninitialised when `reduction` is called (`L0`, `D0`), `Z.inverse()` is the
exact inverse, reading `sqrd_norms(1)` with fewer than two candidates is undefined (`none`). -/
noncomputable def lambda (n m fuel : Nat) (a : Vec ℝ) (Q L0 : Mat ℝ) (D0 : Vec ℝ) : Option ((Fin n → ℝ) × ℝ) := do
  let p ← modf n a
  let r ← reduction n fuel Q p.1 L0 D0
  let c ← search n m r.L r.D r.a fuel
  match c with
  | c0 :: c1 :: _ =>
    let zinv : Matrix (Fin n) (Fin n) ℝ := ((toMat n r.Z)⁻¹).map round
    some (fun i => (zinv.transpose.mulVec fun j => c0.2 j) i + p.2 i, c0.1 / c1.1)
  | _ => none

end Verif.Lambda
