import Verif.Model.Lambda
import Verif.Model.FloatTime
/-!
# Model of core/solver/lambda.cxx in arithmetic with rounding

`Model/Lambda` has exact numbers; here the value of each expression of the code is whatever the arithmetic makes of its
operands: `Ops` has one operation for each expression, which may be rounded once, after each operation, with or without
fused multiplication and addition, and may give infinities and NaNs.  The entries of `L`, `D` and the ambiguities are of
type `V`, those of the transformation `Z` of type `W`, so that the same loops can be run with `Z` in integers.

Simplifications: an expression has the same value for the same operands wherever it stands; sizes are right (the
`check`s of sizes pass); `while` loops take a fuel argument, running out of it is `none`.
-/
namespace Verif.FLambda

abbrev Vec (K : Type) := Nat → K
abbrev Mat (K : Type) := Nat → Nat → K

/-- Assignment to an entry. -/
def put {K : Type} (v : Vec K) (i : Nat) (x : K) : Vec K := fun j => if j = i then x else v j

/-! ### Reduction -/

/-- The arithmetic of the reduction. -/
structure Ops (V W : Type) where
  /-- `a < b` -/
  lt : V → V → Bool
  /-- `std::round(x)` -/
  round : V → V
  /-- `mu != 0` -/
  ne0 : V → Bool
  /-- `x - mu * y` in `V` (lines 87, 89) -/
  mulSub : V → V → V → V
  /-- `z - mu * y` in `Z` (line 88), the arguments in the order `mu z y` -/
  col : V → W → W → W
  /-- `d + l * l * e` (line 153) -/
  delta : V → V → V → V
  /-- `e * l / delta` (line 108) -/
  lambda : V → V → V → V
  /-- `d / delta` (line 109) -/
  eta : V → V → V
  /-- `eta * e` (line 110) -/
  mul : V → V → V
  /-- `-l * x + 1 * y` (lines 112-113) -/
  row0 : V → V → V → V
  /-- `eta * x + lambda * y` (lines 112-113) -/
  row1 : V → V → V → V → V

/-- The matrices `reduction` works on. -/
structure Red (V W : Type) where
  L : Mat V
  D : Vec V
  a : Vec V
  Z : Mat W

variable {V W : Type}

/-- lambda.cxx 74-91, `integerGaussTransformations(i, j, L, a, Z)`. -/
def gauss (o : Ops V W) (i j : Nat) (s : Red V W) : Red V W :=
  let mu := o.round (s.L i j)
  if o.ne0 mu then
    { L := fun r c => if c = j ∧ i ≤ r then o.mulSub (s.L r c) mu (s.L r i) else s.L r c
      D := s.D
      a := put s.a j (o.mulSub (s.a j) mu (s.a i))
      Z := fun r c => if c = j then o.col mu (s.Z r c) (s.Z r i) else s.Z r c }
  else s

/-- lambda.cxx 93-119, `permute(k, delta, a, L, D, Z)`. -/
def permute (o : Ops V W) (k : Nat) (delta : V) (s : Red V W) : Red V W :=
  let lambda := o.lambda (s.D (k + 1)) (s.L (k + 1) k) delta
  let eta := o.eta (s.D k) delta
  { D := put (put s.D k (o.mul eta (s.D (k + 1)))) (k + 1) delta
    L := fun r c =>
      if r = k ∧ c < k then o.row0 (s.L (k + 1) k) (s.L k c) (s.L (k + 1) c)
      else if r = k + 1 ∧ c < k then o.row1 eta (s.L k c) lambda (s.L (k + 1) c)
      else if r = k + 1 ∧ c = k then lambda
      else if k + 2 ≤ r ∧ c = k then s.L r (k + 1)
      else if k + 2 ≤ r ∧ c = k + 1 then s.L r k
      else s.L r c
    Z := fun r c => if c = k then s.Z r (k + 1) else if c = k + 1 then s.Z r k else s.Z r c
    a := put (put s.a k (s.a (k + 1))) (k + 1) (s.a k) }

/-- lambda.cxx 148-151: the loop `for (j = k + 1; j < N; ++j)`. -/
def gaussColumn (o : Ops V W) (N k : Nat) (s : Red V W) : Red V W :=
  (List.range (N - (k + 1))).foldl (fun s i => gauss o (k + 1 + i) k s) s

/-- The value compared with `D(k + 1)` (lambda.cxx 153). -/
def deltaAt (o : Ops V W) (k : Nat) (s : Red V W) : V := o.delta (s.D k) (s.L (k + 1) k) (s.D (k + 1))

/-- lambda.cxx 143-161, the inner loop from a given `k` (the value before `k -= 1`). -/
def sweep (o : Ops V W) (N k1 : Nat) : Nat → Red V W → Option Nat × Red V W
  | 0, s => (none, s)
  | k + 1, s =>
    let s := if k ≤ k1 then gaussColumn o N k s else s
    if o.lt (deltaAt o k s) (s.D (k + 1)) then (some k, permute o k (deltaAt o k s) s) else sweep o N k1 k s

/-- lambda.cxx 138-162, the outer loop. -/
def reduceLoop (o : Ops V W) (N : Nat) : Nat → Nat → Red V W → Option (Red V W)
  | 0, _, _ => none
  | fuel + 1, k1, s =>
    match sweep o N k1 (N - 1) s with
    | (none, s') => some s'
    | (some k, s') => reduceLoop o N fuel k s'

/-! ### Search -/

/-- The arithmetic of the search. -/
structure SOps (V : Type) where
  /-- `a < b` -/
  lt : V → V → Bool
  /-- `std::round(x)` -/
  round : V → V
  /-- `sign(x)` (common/defs.h 33-37) -/
  sign : V → V
  /-- `x == 0` (lines 202, 233) -/
  eq0 : V → Bool
  zero : V
  one : V
  /-- `1e18` (line 184) -/
  big : V
  add : V → V → V
  sub : V → V → V
  /-- `dist + left * left / D` (line 216) -/
  dist : V → V → V → V
  /-- `s + (z - a) * l` (lines 223-225) -/
  cond : V → V → V → V → V
  /-- `-step - sign(step)` (lines 260, 274) -/
  turn : V → V

/-- lambda.cxx 184-212: the local variables; `count` is one more than in the code. -/
structure Search (V : Type) where
  k : Nat
  left : V
  chi2 : V
  count : Nat
  imax : Nat
  dist : Vec V
  acond : Vec V
  zcond : Vec V
  step : Vec V
  S : Mat V
  cands : Mat V
  norms : Vec V

/-- Eigen `maxCoeff(&i)`: some index below `n`, found by comparisons. -/
def argmax (o : SOps V) (v : Vec V) : Nat → Nat
  | 0 => 0
  | n + 1 => if n = 0 then 0 else if o.lt (v (argmax o v n)) (v n) then n else argmax o v n

/-- lambda.cxx 196-204, 230-236: the first step. -/
def firstStep (o : SOps V) (left : V) : V := if o.eq0 (o.sign left) then o.one else o.sign left

/-- lambda.cxx 178-212. -/
def searchInit (o : SOps V) (n m : Nat) (ahat : Vec V) : Search V :=
  let e := n - 1
  let z := o.round (ahat e)
  let left := o.sub (ahat e) z
  { k := e, left := left, chi2 := o.big, count := 0, imax := m - 1
    dist := fun _ => o.zero, acond := put (fun _ => o.zero) e (ahat e), zcond := put (fun _ => o.zero) e z
    step := put (fun _ => o.zero) e (firstStep o left)
    S := fun _ _ => o.zero, cands := fun _ _ => o.zero, norms := fun _ => o.zero }

/-- lambda.cxx 219-236: move down. -/
def goDown (o : SOps V) (L : Mat V) (ahat : Vec V) (newdist : V) (s : Search V) : Search V :=
  let k := s.k - 1
  let S : Mat V := fun r c => if r = k ∧ c ≤ k then
    o.cond (s.S (k + 1) c) (s.zcond (k + 1)) (s.acond (k + 1)) (L (k + 1) c) else s.S r c
  let ac := o.add (ahat k) (S k k)
  let z := o.round ac
  let left := o.sub ac z
  { s with k := k, dist := put s.dist k newdist, S := S, acond := put s.acond k ac, zcond := put s.zcond k z
           left := left, step := put s.step k (firstStep o left) }

/-- lambda.cxx 241-256: store the candidate. -/
def store (o : SOps V) (m : Nat) (newdist : V) (s : Search V) : Search V :=
  if s.count < m - 1 then
    { s with count := s.count + 1
             cands := fun c r => if c = s.count then s.zcond r else s.cands c r
             norms := put s.norms s.count newdist }
  else
    let norms := put s.norms s.imax newdist
    let imax := argmax o norms m
    { s with cands := fun c r => if c = s.imax then s.zcond r else s.cands c r
             norms := norms, imax := imax, chi2 := norms imax }

/-- lambda.cxx 257-259 (with `k` = 0) and 270-273: the next integer on level `k`. -/
def nextInt (o : SOps V) (k : Nat) (s : Search V) : Search V :=
  let z := o.add (s.zcond k) (s.step k)
  { s with k := k, zcond := put s.zcond k z, left := o.sub (s.acond k) z
           step := put s.step k (o.turn (s.step k)) }

/-- lambda.cxx 213-275, the loop. -/
def searchLoop (o : SOps V) (n m : Nat) (L : Mat V) (D ahat : Vec V) : Nat → Search V → Option (Search V)
  | 0, _ => none
  | fuel + 1, s =>
    let newdist := o.dist (s.dist s.k) s.left (D s.k)
    if o.lt newdist s.chi2 then
      if s.k ≠ 0 then searchLoop o n m L D ahat fuel (goDown o L ahat newdist s)
      else searchLoop o n m L D ahat fuel (nextInt o 0 (store o m newdist s))
    else if s.k = n - 1 then some s
    else searchLoop o n m L D ahat fuel (nextInt o (s.k + 1) s)

/-- lambda.cxx 168-283: the candidates, in any order the sorting may give. -/
def search (o : SOps V) (n m : Nat) (L : Mat V) (D ahat : Vec V) (fuel : Nat) : Option (Mat V) :=
  (searchLoop o n m L D ahat fuel (searchInit o n m ahat)).map Search.cands

/-! ### Doubles -/

/-- `std::round` of a `double`: exact. -/
def qround (x : ℚ) : ℚ := Lambda.round x

/-- common/defs.h 33-37. -/
def qsign (x : ℚ) : ℚ := if 0 ≤ x then 1 else -1

/-- The reduction in doubles (finite ones), a rounding after each operation; `Z` in doubles. -/
def dops (r : ℚ → ℚ) : Ops ℚ ℚ where
  lt a b := decide (a < b)
  round := qround
  ne0 x := decide (x ≠ 0)
  mulSub x mu y := r (x - r (mu * y))
  col mu z y := r (z - r (mu * y))
  delta d l e := r (d + r (r (l * l) * e))
  lambda e l d := r (r (e * l) / d)
  eta d e := r (d / e)
  mul a b := r (a * b)
  row0 l x y := r (r (-l * x) + y)
  row1 e x l y := r (r (e * x) + r (l * y))

/-- The same with `Z` in integers that are lost (`none`) when a product or a difference exceeds `2^53`. -/
def iops (r : ℚ → ℚ) : Ops ℚ (Option Int) :=
  let d := dops r
  { lt := d.lt, round := d.round, ne0 := d.ne0, mulSub := d.mulSub, delta := d.delta, lambda := d.lambda
    eta := d.eta, mul := d.mul, row0 := d.row0, row1 := d.row1
    col := fun mu z y =>
      match z, y with
      | some z, some y => if |⌊mu⌋ * y| ≤ 2 ^ 53 ∧ |z - ⌊mu⌋ * y| ≤ 2 ^ 53 then some (z - ⌊mu⌋ * y) else none
      | _, _ => none }

/-- The search in doubles. -/
def dsops (r : ℚ → ℚ) : SOps ℚ where
  lt a b := decide (a < b)
  round := qround
  sign := qsign
  eq0 x := decide (x = 0)
  zero := 0
  one := 1
  big := 10 ^ 18
  add a b := r (a + b)
  sub a b := r (a - b)
  dist d l D := r (d + r (r (l * l) / D))
  cond s z a l := r (s + r (r (z - a) * l))
  turn s := r (-s - qsign s)

/-- The products of `Zinv.T * candidates.col(0)` (lambda.cxx 69) added up in some order, with or without fusing: `Dot r l x`
if `x` is a possible value of the sum of the products in `l`. -/
inductive Dot (r : ℚ → ℚ) : List (ℚ × ℚ) → ℚ → Prop
  | nil : Dot r [] 0
  | prod (a b : ℚ) : Dot r [(a, b)] (r (a * b))
  | fused (a b x : ℚ) (l : List (ℚ × ℚ)) : Dot r l x → Dot r ((a, b) :: l) (r (x + a * b))
  | add (l₁ l₂ : List (ℚ × ℚ)) (x y : ℚ) : Dot r l₁ x → Dot r l₂ y → Dot r (l₁ ++ l₂) (r (x + y))
  | perm (l₁ l₂ : List (ℚ × ℚ)) (x : ℚ) : l₁.Perm l₂ → Dot r l₁ x → Dot r l₂ x

/-- lambda.cxx 44-72 in doubles, from the covariance factors: `f`, `incr` are the two parts of the ambiguities
(`modf`), `L`, `D` what `LTDL` gave, `inv` what `Z.inverse()` gave.  The last argument is a possible result. -/
structure Fix (r : ℚ → ℚ) (n m fuel : Nat) (f incr : Vec ℚ) (L : Mat ℚ) (D : Vec ℚ) (inv : Mat ℚ) (x : Vec ℚ) where
  red : Red ℚ ℚ
  /-- `reduction` -/
  hred : reduceLoop (dops r) n fuel (n - 2) ⟨L, D, f, fun i j => if i = j then 1 else 0⟩ = some red
  cands : Mat ℚ
  /-- `search` -/
  hsearch : search (dsops r) n m red.L red.D red.a fuel = some cands
  /-- the index of the candidate sorted to the first place -/
  best : Nat
  /-- `Zinv.T * candidates.col(0)` with `Zinv` rounded -/
  y : Vec ℚ
  hy : ∀ i, Dot r ((List.range n).map fun j => (qround (inv j i), cands best j)) (y i)
  /-- `a_fixed += incr` -/
  hx : ∀ i, x i = r (y i + incr i)

end Verif.FLambda
