import Mathlib.Data.Rat.Floor
import Mathlib.Data.List.Lex
import Mathlib.Algebra.Order.Floor.Ring
import Mathlib.Algebra.Order.Round

/-!
# The JSON library

`third_party/simplejson/json.hpp`: a JSON value, its text (`dump`) and the reader of texts
(`JSON::Load`).

Simplifications: a string is the list of its bytes as natural numbers; a place in the text that is
read is what is left of it (`str[offset]` at the end is the terminating zero, reading behind it is
undefined behaviour).  `double` is the field of the rational numbers, arithmetic and `std::stod`
are exact, infinities and NaN are left out; `long` is bounded.  `isspace` of a byte from 128 on is
undefined (a negative `char`).  Pointers and copies of values are left out, as are the messages on
`std::cerr`.  Recursion and loops are bounded by a counter; `C135_ends` shows that it never runs
out.
-/

namespace Verif.Model.Json

/-- Bytes. -/
abbrev Str := List Nat

mutual
/-- `class JSON` (`third_party/simplejson/json.hpp` 63-543): `Class` and the data. -/
inductive Json where
  | null
  | obj (fields : Fields)
  | arr (elems : Elems)
  | str (s : Str)
  | flt (q : ℚ)
  | int (n : Int)
  | bool (b : Bool)
/-- `deque<JSON>` (`json.hpp` 73). -/
inductive Elems where
  | nil
  | cons (v : Json) (rest : Elems)
/-- `map<string, JSON>` (`json.hpp` 74), in the order in which it is walked. -/
inductive Fields where
  | nil
  | cons (k : Str) (v : Json) (rest : Fields)
end

/-- `List->resize(index + 1)` and the assignment (`json.hpp` 313-319, 638): an element at the
end. -/
def Elems.snoc : Elems → Json → Elems
  | .nil, x => .cons x .nil
  | .cons v r, x => .cons v (r.snoc x)

/-- `Internal.Map->operator[](key) = value` (`json.hpp` 307-311): a map keeps its keys in the order
of their bytes; the value of a key that is there is replaced. -/
def Fields.insert : Fields → Str → Json → Fields
  | .nil, k, v => .cons k v .nil
  | .cons k' v' r, k, v =>
    if k < k' then .cons k v (.cons k' v' r)
    else if k = k' then .cons k v r
    else .cons k' v' (r.insert k v)

/-- One character of `json_escape` (`json.hpp` 32-58). -/
def esc (c : Nat) : Str :=
  if c = 34 then [92, 34] else if c = 92 then [92, 92] else if c = 8 then [92, 98]
  else if c = 12 then [92, 102] else if c = 10 then [92, 110] else if c = 13 then [92, 114]
  else if c = 9 then [92, 116] else [c]

/-- `json_escape` (`json.hpp` 29-60). -/
def escape (s : Str) : Str := s.flatMap esc

/-- `ToString()` (`json.hpp` 359-368): the escaped string, the empty string for other values. -/
def Json.toStr : Json → Str
  | .str s => escape s
  | _ => []

/-- The decimal digits of a natural number, as `std::to_string` and `%f` write them. -/
def dec (n : Nat) : Str := if n < 10 then [48 + n] else dec (n / 10) ++ [48 + n % 10]
decreasing_by omega

/-- `std::to_string(long)` (`json.hpp` 472). -/
def showInt (n : Int) : Str := if n < 0 then 45 :: dec n.natAbs else dec n.natAbs

/-- The nearest whole number, the even one of two: the rounding of `%f`. -/
def nearest (q : ℚ) : Int :=
  if q - ⌊q⌋ < 1 / 2 then ⌊q⌋ else if 1 / 2 < q - ⌊q⌋ then ⌊q⌋ + 1
  else if ⌊q⌋ % 2 = 0 then ⌊q⌋ else ⌊q⌋ + 1

/-- Six digits. -/
def six (n : Nat) : Str :=
  [48 + n / 100000 % 10, 48 + n / 10000 % 10, 48 + n / 1000 % 10, 48 + n / 100 % 10,
    48 + n / 10 % 10, 48 + n % 10]

/-- `std::to_string(double)` (`json.hpp` 470): `%f`, six digits after the point. -/
def showFlt (q : ℚ) : Str :=
  let n := (nearest (|q| * 1000000)).toNat
  (if q < 0 then [45] else []) ++ dec (n / 1000000) ++ [46] ++ six n

/-- `pad` (`json.hpp` 433-435): `depth` times the tabulator. -/
def pad (depth : Nat) (tab : Str) : Str := (List.replicate depth tab).flatten

mutual
/-- `dump` (`json.hpp` 431-479) with a depth that is not negative. -/
def dump (depth : Nat) (tab : Str) : Json → Str
  | .null => [110, 117, 108, 108]
  | .obj fs =>
    [123, 10] ++ dumpFields depth tab true fs ++ [10] ++ (pad depth tab).drop 2 ++ [125]
  | .arr es => [91] ++ dumpElems depth tab true es ++ [93]
  | .str s => [34] ++ escape s ++ [34]
  | .flt q => showFlt q
  | .int n => showInt n
  | .bool b => if b then [116, 114, 117, 101] else [102, 97, 108, 115, 101]
/-- The loop over the elements (`json.hpp` 457-463); `skip` is the variable. -/
def dumpElems (depth : Nat) (tab : Str) (skip : Bool) : Elems → Str
  | .nil => []
  | .cons v r =>
    (if skip then [] else [44, 32]) ++ dump (depth + 1) tab v ++ dumpElems depth tab false r
/-- The loop over the fields (`json.hpp` 444-450). -/
def dumpFields (depth : Nat) (tab : Str) (skip : Bool) : Fields → Str
  | .nil => []
  | .cons k v r =>
    (if skip then [] else [44, 10]) ++ pad depth tab ++ [34] ++ k ++ [34, 32, 58, 32] ++
      dump (depth + 1) tab v ++ dumpFields depth tab false r
end

/-! ## Reading -/

/-- What a reader gives: a value and what is left of the text (`none`: the offset is behind the
terminating zero), undefined behaviour, an exception of `std::stol` or `std::stod`, or the counter
has run out. -/
inductive Res where
  | ok (v : Json) (rest : Option Str)
  | ub
  | throw
  | fuel

/-- `isspace` in the C locale; `none` for a negative `char`. -/
def isspace (c : Nat) : Option Bool :=
  if c < 128 then some (decide (c = 32 ∨ 9 ≤ c ∧ c ≤ 13)) else none

/-- `consume_ws` (`json.hpp` 572-575). -/
def ws : Str → Option Str
  | [] => some []
  | c :: r =>
    match isspace c with
    | none => none
    | some true => ws r
    | some false => some (c :: r)

/-- A digit. -/
def digit (c : Nat) : Bool := decide (48 ≤ c ∧ c ≤ 57)

/-- A hexadecimal digit (`json.hpp` 700). -/
def hex (c : Nat) : Bool :=
  decide (48 ≤ c ∧ c ≤ 57 ∨ 97 ≤ c ∧ c ≤ 102 ∨ 65 ≤ c ∧ c ≤ 70)

/-- `parse_string` (`json.hpp` 661-724) behind the opening quote; `val` is the variable.  An error
in `\u` gives the empty string and leaves the offset at the `u`. -/
def chars : Str → Str → Res
  | [], _ => .ub
  | 34 :: r, val => .ok (.str val) (some r)
  | 92 :: [], _ => .ub
  | 92 :: 34 :: r, val => chars r (val ++ [34])
  | 92 :: 92 :: r, val => chars r (val ++ [92])
  | 92 :: 47 :: r, val => chars r (val ++ [47])
  | 92 :: 98 :: r, val => chars r (val ++ [8])
  | 92 :: 102 :: r, val => chars r (val ++ [12])
  | 92 :: 110 :: r, val => chars r (val ++ [10])
  | 92 :: 114 :: r, val => chars r (val ++ [13])
  | 92 :: 116 :: r, val => chars r (val ++ [9])
  | 92 :: 117 :: a :: b :: c :: d :: r, val =>
    if hex a && hex b && hex c && hex d then chars r (val ++ [92, 117, a, b, c, d])
    else .ok (.str []) (some (117 :: a :: b :: c :: d :: r))
  | 92 :: 117 :: r, _ => .ok (.str []) (some (117 :: r))
  | 92 :: _ :: r, val => chars r (val ++ [92])
  | c :: r, val => chars r (val ++ [c])

/-- The value of digits. -/
def value (s : Str) : Nat := s.foldl (fun a c => 10 * a + (c - 48)) 0

/-- `std::stol`: a sign and digits, what follows is ignored; `none` is an exception.  (`val` and
`exp_str` hold no spaces and no plus sign.) -/
def stol (s : Str) : Option Int :=
  let t := if s.head? = some 45 then s.tail else s
  let d := t.takeWhile digit
  let n : Int := if s.head? = some 45 then -value d else value d
  if d = [] then none
  else if -9223372036854775808 ≤ n ∧ n ≤ 9223372036854775807 then some n else none

/-- `std::stod` on minus signs, digits and points: a sign, digits, a point and digits. -/
def stod (s : Str) : Option ℚ :=
  let t := if s.head? = some 45 then s.tail else s
  let d := t.takeWhile digit
  let u := t.dropWhile digit
  let f := if u.head? = some 46 then u.tail.takeWhile digit else []
  let x : ℚ := (value d : ℚ) + (value f : ℚ) / 10 ^ f.length
  if d = [] ∧ f = [] then none else some (if s.head? = some 45 then -x else x)

/-- The characters of the first loop of `parse_number` (`json.hpp` 733-745). -/
def numCh (c : Nat) : Bool := decide (c = 45 ∨ 48 ≤ c ∧ c ≤ 57 ∨ c = 46)

/-- `isspace(c) || c == ',' || c == ']' || c == '}'` (`json.hpp` 759, 769). -/
def term (c : Nat) : Option Bool :=
  match isspace c with
  | none => none
  | some b => some (b || decide (c = 44 ∨ c = 93 ∨ c = 125))

/-- The end of `parse_number` (`json.hpp` 774-785): `Number = …`. -/
def finish (val : Str) (expStr : Str) (exp : Int) (rest : Str) : Res :=
  if val.contains 46 then
    match stod val with
    | none => .throw
    | some x => .ok (.flt (x * (10 : ℚ) ^ exp)) (some rest)
  else
    match stol val with
    | none => .throw
    | some n =>
      if expStr = [] then .ok (.int n) (some rest)
      else .ok (.flt (n * (10 : ℚ) ^ exp)) (some rest)

/-- The exponent (`json.hpp` 754-767): the loop over its digits. -/
def expo (val : Str) (sign : Str) (s : Str) : Res :=
  let e := sign ++ s.takeWhile digit
  match s.dropWhile digit with
  | [] => .ok .null none
  | c :: r =>
    match term c with
    | none => .ub
    | some false => .ok .null (some r)
    | some true =>
      match stol e with
      | none => .throw
      | some x => finish val e x (c :: r)

/-- `parse_number` (`json.hpp` 726-786).  After the `e` one character is read and, if it is a
minus sign, one more is skipped (`json.hpp` 747-753). -/
def number (s : Str) : Res :=
  let val := s.takeWhile numCh
  match s.dropWhile numCh with
  | [] => .ok .null none
  | c :: r =>
    if c = 69 ∨ c = 101 then
      match r with
      | [] => .ub
      | c2 :: r2 =>
        if c2 = 45 then
          match r2 with
          | [] => .ub
          | _ :: r3 => expo val [45] r3
        else expo val [] r2
    else
      match term c with
      | none => .ub
      | some false => .ok .null (some r)
      | some true => finish val [] 0 (c :: r)

/-- `parse_bool` (`json.hpp` 788-803). -/
def boolean (s : Str) : Res :=
  if s.take 4 = [116, 114, 117, 101] then .ok (.bool true) (some (s.drop 4))
  else if s.take 5 = [102, 97, 108, 115, 101] then .ok (.bool false) (some (s.drop 5))
  else .ok .null (some s)

/-- `parse_null` (`json.hpp` 805-815). -/
def nothing (s : Str) : Res :=
  if s.take 4 = [110, 117, 108, 108] then .ok .null (some (s.drop 4)) else .ok .null (some s)

mutual
/-- `parse_next` (`json.hpp` 817-841). -/
def next : Nat → Str → Res
  | 0, _ => .fuel
  | n + 1, s =>
    match ws s with
    | none => .ub
    | some [] => .ok .null (some [])
    | some (c :: r) =>
      if c = 91 then
        match ws r with
        | none => .ub
        | some r' =>
          if r'.head? = some 93 then .ok (.arr .nil) (some r'.tail) else elems n r' .nil
      else if c = 123 then
        match ws r with
        | none => .ub
        | some r' =>
          if r'.head? = some 125 then .ok (.obj .nil) (some r'.tail) else fields n r' .nil
      else if c = 34 then chars r []
      else if c = 116 ∨ c = 102 then boolean (c :: r)
      else if c = 110 then nothing (c :: r)
      else if digit c ∨ c = 45 then number (c :: r)
      else .ok .null (some (c :: r))
/-- The loop of `parse_array` (`json.hpp` 623-659). -/
def elems : Nat → Str → Elems → Res
  | 0, _, _ => .fuel
  | n + 1, s, acc =>
    match next n s with
    | .ok v (some r) =>
      match ws r with
      | none => .ub
      | some r' =>
        if r'.head? = some 44 then elems n r'.tail (acc.snoc v)
        else if r'.head? = some 93 then .ok (.arr (acc.snoc v)) (some r'.tail)
        else .ok (.arr .nil) (some r')
    | .ok _ none => .ub
    | x => x
/-- The loop of `parse_object` (`json.hpp` 577-621). -/
def fields : Nat → Str → Fields → Res
  | 0, _, _ => .fuel
  | n + 1, s, acc =>
    match next n s with
    | .ok key (some r) =>
      match ws r with
      | none => .ub
      | some r1 =>
        if r1.head? = some 58 then
          match ws r1.tail with
          | none => .ub
          | some r2 =>
            match next n r2 with
            | .ok v (some r3) =>
              match ws r3 with
              | none => .ub
              | some r4 =>
                if r4.head? = some 44 then fields n r4.tail (acc.insert key.toStr v)
                else if r4.head? = some 125 then
                  .ok (.obj (acc.insert key.toStr v)) (some r4.tail)
                else .ok (.obj (acc.insert key.toStr v)) (some r4)
            | .ok _ none => .ub
            | x => x
        else .ok (.obj acc) (some r1)
    | .ok _ none => .ub
    | x => x
end

/-- `JSON::Load` (`json.hpp` 844-848). -/
def load (s : Str) : Res := next (2 * s.length + 1) s

end Verif.Model.Json
