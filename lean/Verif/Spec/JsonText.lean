import Verif.Model.Json

/-!
# JSON texts

The grammar of JSON (RFC 8259) as trees of tokens and white space, with the text of a tree and the value it stands for.  Left
out: exponents, `\u` and bytes from 128 on in white space, which the grammar does not allow either.  The order and the
replacement of equal keys are those of a map; keys are kept in escaped form.
-/

namespace Verif.Spec.JsonText

open Model.Json

/-- White space: tabulator, line feed, carriage return, space. -/
def Blank (w : Str) : Prop := ∀ c ∈ w, c = 9 ∨ c = 10 ∨ c = 13 ∨ c = 32

/-- A character of a string: itself, or a backslash and a letter. -/
inductive Item where
  | plain (c : Nat)
  | quote | backslash | slash | backspace | feed | line | ret | tab

/-- What may stand unescaped: no control character, no quote and no backslash. -/
def Item.Valid : Item → Prop
  | .plain c => 32 ≤ c ∧ c ≠ 34 ∧ c ≠ 92
  | _ => True

/-- The text: `\"`, `\\`, `\/`, `\b`, `\f`, `\n`, `\r`, `\t`. -/
def Item.text : Item → Str
  | .plain c => [c]
  | .quote => [92, 34]
  | .backslash => [92, 92]
  | .slash => [92, 47]
  | .backspace => [92, 98]
  | .feed => [92, 102]
  | .line => [92, 110]
  | .ret => [92, 114]
  | .tab => [92, 116]

/-- The character. -/
def Item.char : Item → Nat
  | .plain c => c
  | .quote => 34
  | .backslash => 92
  | .slash => 47
  | .backspace => 8
  | .feed => 12
  | .line => 10
  | .ret => 13
  | .tab => 9

/-- The number written with decimal digits. -/
def decimal : List Nat → Nat
  | [] => 0
  | d :: ds => (d - 48) * 10 ^ ds.length + decimal ds

def Digits (ds : List Nat) : Prop := ds ≠ [] ∧ ∀ c ∈ ds, 48 ≤ c ∧ c ≤ 57

mutual
inductive Txt where
  | null | true | false
  | str (is : List Item)
  | int (neg : Bool) (ds : List Nat)
  | dec (neg : Bool) (ds fs : List Nat)
  | arr0 (w : Str)
  | arr (es : TxtE)
  | obj0 (w : Str)
  | obj (fs : TxtF)
/-- Elements of an array with the white space before and after each. -/
inductive TxtE where
  | last (w : Str) (v : Txt) (w' : Str)
  | cons (w : Str) (v : Txt) (w' : Str) (rest : TxtE)
/-- Members of an object with the white space before and after key and value. -/
inductive TxtF where
  | last (w : Str) (k : List Item) (w' u : Str) (v : Txt) (u' : Str)
  | cons (w : Str) (k : List Item) (w' u : Str) (v : Txt) (u' : Str) (rest : TxtF)
end

mutual
def Txt.Valid : Txt → Prop
  | .null => True
  | .true => True
  | .false => True
  | .str is => ∀ i ∈ is, i.Valid
  | .int neg ds => Digits ds ∧ decimal ds ≤ if neg then 9223372036854775808 else 9223372036854775807
  | .dec _ ds fs => Digits ds ∧ Digits fs
  | .arr0 w => Blank w
  | .arr es => es.Valid
  | .obj0 w => Blank w
  | .obj fs => fs.Valid
def TxtE.Valid : TxtE → Prop
  | .last w v w' => Blank w ∧ v.Valid ∧ Blank w'
  | .cons w v w' r => Blank w ∧ v.Valid ∧ Blank w' ∧ r.Valid
def TxtF.Valid : TxtF → Prop
  | .last w k w' u v u' => Blank w ∧ (∀ i ∈ k, i.Valid) ∧ Blank w' ∧ Blank u ∧ v.Valid ∧ Blank u'
  | .cons w k w' u v u' r => Blank w ∧ (∀ i ∈ k, i.Valid) ∧ Blank w' ∧ Blank u ∧ v.Valid ∧ Blank u' ∧ r.Valid
end

/-- A string with its quotes. -/
def quoted (is : List Item) : Str := 34 :: (is.flatMap Item.text ++ [34])

mutual
def Txt.text : Txt → Str
  | .null => [110, 117, 108, 108]
  | .true => [116, 114, 117, 101]
  | .false => [102, 97, 108, 115, 101]
  | .str is => quoted is
  | .int neg ds => (if neg then [45] else []) ++ ds
  | .dec neg ds fs => (if neg then [45] else []) ++ ds ++ 46 :: fs
  | .arr0 w => 91 :: (w ++ [93])
  | .arr es => 91 :: es.text
  | .obj0 w => 123 :: (w ++ [125])
  | .obj fs => 123 :: fs.text
def TxtE.text : TxtE → Str
  | .last w v w' => w ++ v.text ++ w' ++ [93]
  | .cons w v w' r => w ++ v.text ++ w' ++ 44 :: r.text
def TxtF.text : TxtF → Str
  | .last w k w' u v u' => w ++ quoted k ++ w' ++ 58 :: (u ++ v.text ++ u' ++ [125])
  | .cons w k w' u v u' r => w ++ quoted k ++ w' ++ 58 :: (u ++ v.text ++ u' ++ 44 :: r.text)
end

mutual
/-- The value. -/
def Txt.value : Txt → Json
  | .null => .null
  | .true => .bool Bool.true
  | .false => .bool Bool.false
  | .str is => .str (is.map Item.char)
  | .int neg ds => .int (if neg then -(decimal ds : Int) else decimal ds)
  | .dec neg ds fs =>
    let x : ℚ := decimal ds + (decimal fs : ℚ) / 10 ^ fs.length
    .flt (if neg then -x else x)
  | .arr0 _ => .arr .nil
  | .arr es => .arr es.value
  | .obj0 _ => .obj .nil
  | .obj fs => .obj (fs.value .nil)
def TxtE.value : TxtE → Elems
  | .last _ v _ => .cons v.value .nil
  | .cons _ v _ r => .cons v.value r.value
/-- The members are put into the map from the first to the last. -/
def TxtF.value : TxtF → Fields → Fields
  | .last _ k _ _ v _, m => m.insert (escape (k.map Item.char)) v.value
  | .cons _ k _ _ v _ r, m => r.value (m.insert (escape (k.map Item.char)) v.value)
end

/-- A text that is a number. -/
def Txt.IsNumber : Txt → Prop
  | .int _ _ => True
  | .dec _ _ _ => True
  | _ => False

/-- A hexadecimal digit. -/
def Hex (c : Nat) : Prop := c ∈ "0123456789abcdefABCDEF".toList.map Char.toNat

instance (c : Nat) : Decidable (Hex c) := by unfold Hex; infer_instance

end Verif.Spec.JsonText
