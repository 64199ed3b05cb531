import Mathlib.Data.Int.Init
import Mathlib.Data.Rat.Floor
import Mathlib.Data.Nat.Digits.Defs

/-!
# The calendar, told by counting days

The Gregorian calendar from the rule for leap years, the lengths of the months and the day after a day.
How numbers are read.
-/
namespace Verif.Calendar

/-- A day: year, month 1 to 12, day of the month from 1. -/
structure Date where
  y : Int
  m : Int
  d : Int
deriving DecidableEq, Repr

/-- Leap years. -/
def Leap (y : Int) : Prop := 4 ∣ y ∧ (¬ 100 ∣ y ∨ 400 ∣ y)

instance (y : Int) : Decidable (Leap y) := by unfold Leap; infer_instance

/-- The length of a month. -/
def monthLen (y m : Int) : Int :=
  if m = 2 then (if Leap y then 29 else 28) else if m = 4 ∨ m = 6 ∨ m = 9 ∨ m = 11 then 30 else 31

/-- The days there are. -/
def Date.Valid (x : Date) : Prop := 1 ≤ x.m ∧ x.m ≤ 12 ∧ 1 ≤ x.d ∧ x.d ≤ monthLen x.y x.m

instance (x : Date) : Decidable x.Valid := by unfold Date.Valid; infer_instance

/-- The day after. -/
def next (x : Date) : Date :=
  if x.d < monthLen x.y x.m then ⟨x.y, x.m, x.d + 1⟩ else if x.m < 12 then ⟨x.y, x.m + 1, 1⟩ else ⟨x.y + 1, 1, 1⟩

/-- Day 0 is 1 January 1970. -/
def epoch : Date := ⟨1970, 1, 1⟩

/-- Day number `k`: `k` days after day 0, or, if `k` is negative, a day `-k` days before it. -/
def DayNo (x : Date) (k : Int) : Prop :=
  (0 ≤ k ∧ x = next^[k.toNat] epoch) ∨ (k < 0 ∧ x.Valid ∧ next^[(-k).toNat] x = epoch)

/-- The number a decimal text stands for. -/
def readNat (l : List Char) : Nat := l.foldl (fun n c => 10 * n + (c.toNat - 48)) 0

/-- The number the digits behind a decimal point stand for. -/
def readFrac (l : List Char) : ℚ := (readNat l : ℚ) / 10 ^ l.length

end Verif.Calendar
