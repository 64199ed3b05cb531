import Verif.Model.Messages

/-!
# What messages should do

A message is a text with holes; what appears is the text with the values in the holes, and it
appears when the severity of the function is at least the level of the build.  Nothing else
happens to the program.
-/
namespace Verif.MessagesSpec
open Verif.Messages (Fn Arg)

/-- A text without braces. -/
def Plain (t : List Char) : Prop := ∀ c ∈ t, c ≠ '{' ∧ c ≠ '}'

/-- The format with a hole between consecutive pieces. -/
def template : List (List Char) → List Char
  | [] => []
  | [t] => t
  | t :: u :: ts => t ++ "{}".toList ++ template (u :: ts)

/-- The pieces with the values between them. -/
def fill : List (List Char) → List (List Char) → List Char
  | [], _ => []
  | [t], _ => t
  | t :: u :: ts, v :: vs => t ++ v ++ fill (u :: ts) vs
  | t :: _ :: _, [] => t

/-- The severities in the order of their names. -/
def severity : Fn → Nat
  | .dbg => 0
  | .info => 1
  | .warn => 2
  | .error => 3
  | .fatal => 4
  | .check => 4
  | .weak_check => 4

/-- The text a call gives: its first literal. -/
def ownText : List Arg → List Char
  | [] => []
  | .lit s :: _ => s.toList
  | _ :: as => ownText as

/-- The number of values a call gives. -/
def numVals : List Arg → Nat
  | [] => 0
  | .store n :: _ => n
  | _ :: as => numVals as

end Verif.MessagesSpec
