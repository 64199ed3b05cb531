import Verif.Model.Json

/-!
# Specification of the JSON round trip

What a value is allowed to lose, and which values can be read back.
-/

namespace Verif.Spec.Json

open Model.Json

/-- A number with six digits after the point: a sign and a whole number of millionths. -/
def round6 (q : ℚ) : ℚ :=
  if q < 0 then -((nearest (|q| * 1000000) : ℚ) / 1000000)
  else (nearest (|q| * 1000000) : ℚ) / 1000000

mutual
/-- The value with every `double` rounded to six digits after the point. -/
def rounded : Json → Json
  | .null => .null
  | .obj fs => .obj (roundedF fs)
  | .arr es => .arr (roundedE es)
  | .str s => .str s
  | .flt q => .flt (round6 q)
  | .int n => .int n
  | .bool b => .bool b
def roundedE : Elems → Elems
  | .nil => .nil
  | .cons v r => .cons (rounded v) (roundedE r)
def roundedF : Fields → Fields
  | .nil => .nil
  | .cons k v r => .cons k (rounded v) (roundedF r)
end

mutual
/-- The values that can be: every `long` in range, every map in order; and every key the escaped
form of a string (as `parse_object` and the constructor from a list make them). -/
def Good : Json → Prop
  | .null => True
  | .obj fs => GoodF none fs
  | .arr es => GoodE es
  | .str _ => True
  | .flt _ => True
  | .int n => -9223372036854775808 ≤ n ∧ n ≤ 9223372036854775807
  | .bool _ => True
def GoodE : Elems → Prop
  | .nil => True
  | .cons v r => Good v ∧ GoodE r
/-- `lo`: the key before. -/
def GoodF : Option Str → Fields → Prop
  | _, .nil => True
  | lo, .cons k v r =>
    (∀ x, lo = some x → x < k) ∧ (∃ s, k = escape s) ∧ Good v ∧ GoodF (some k) r
end

mutual
/-- Every `double` is a whole number of millionths. -/
def Exact : Json → Prop
  | .obj fs => ExactF fs
  | .arr es => ExactE es
  | .flt q => ∃ k : Int, q = k / 1000000
  | _ => True
def ExactE : Elems → Prop
  | .nil => True
  | .cons v r => Exact v ∧ ExactE r
def ExactF : Fields → Prop
  | .nil => True
  | .cons _ v r => Exact v ∧ ExactF r
end

/-- A number. -/
def IsNumber : Json → Prop
  | .flt _ => True
  | .int _ => True
  | _ => False

/-- White space. -/
def Spaces (s : Str) : Prop := ∀ c ∈ s, isspace c = some true

end Verif.Spec.Json
