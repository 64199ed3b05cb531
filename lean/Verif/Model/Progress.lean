import Mathlib.Data.Rat.Floor
import Mathlib.Algebra.Order.Floor.Ring
import Verif.Model.Utils

/-!
# Model of utils/progress_bar.cxx

Finite doubles are rationals without rounding; the infinities and NaN are kept apart, because the
code divides by counts and times that may be zero.  The clock is in milliseconds and is read once
per call (the code reads it up to three times in the first call); it may run backwards.  A
conversion of a double that does not fit to `int` and an access outside the list of bars are
`none` (undefined behaviour).  The escape sequences around the cells and `%.0f`, `%.2f` are left
out: a line is given by its cells, its fraction, its two stamps and its rate.
-/
namespace Verif.Progress
open Verif.Utils (PField msToStamp)

/-- A double. -/
inductive Dbl
  | fin (q : ℚ)
  | inf
  | ninf
  | nan
deriving DecidableEq

/-- `a / b` for finite `a`, `b`; the sign of a zero divisor is taken to be positive. -/
def Dbl.div (a b : ℚ) : Dbl :=
  if b = 0 then (if a = 0 then .nan else if 0 < a then .inf else .ninf) else .fin (a / b)

/-- `a / x` for finite `a`. -/
def Dbl.divBy (a : ℚ) : Dbl → Dbl
  | .fin r => Dbl.div a r
  | .inf => .fin 0
  | .ninf => .fin 0
  | .nan => .nan

/-- `c * x` for finite `c`. -/
def Dbl.scale (c : ℚ) : Dbl → Dbl
  | .fin r => .fin (c * r)
  | .inf => if c = 0 then .nan else if 0 < c then .inf else .ninf
  | .ninf => if c = 0 then .nan else if 0 < c then .ninf else .inf
  | .nan => .nan

/-- Addition. -/
def Dbl.add : Dbl → Dbl → Dbl
  | .nan, _ => .nan
  | _, .nan => .nan
  | .fin a, .fin b => .fin (a + b)
  | .fin _, y => y
  | x, .fin _ => x
  | .inf, .inf => .inf
  | .ninf, .ninf => .ninf
  | _, _ => .nan

/-- Conversion to `int`: truncation, undefined if the result does not fit. -/
def Dbl.toInt : Dbl → Option ℤ
  | .fin q =>
    let z := Int.tdiv q.num q.den
    if -2 ^ 31 ≤ z ∧ z < 2 ^ 31 then some z else none
  | _ => none

/-- `round` of a nonnegative number. -/
def roundHalfUp (q : ℚ) : ℕ := ⌊q + 1 / 2⌋.toNat

/-- progress_bar.cxx 34-54: the themes. -/
def line : List String := ["─", "─", "─", "╾", "╾", "╾", "╾", "━", "═"]
def circle : List String := [" ", "◓", "◑", "◒", "◐", "◓", "◑", "◒", "#"]
def braille : List String := [" ", "⡀", "⡄", "⡆", "⡇", "⡏", "⡟", "⡿", "⣿"]
def brailleSpin : List String := [" ", "⠙", "⠹", "⠸", "⠼", "⠴", "⠦", "⠇", "⠿"]
def solid : List String := [" ", "▏", "▎", "▍", "▋", "▋", "▊", "▉", "▉", "█"]

/-- progress_bar.cxx 82-88: one cell. -/
def cell (bars : List String) (pos : Dbl) (i : ℕ) : Option String :=
  match pos with
  | .fin p =>
    if (i : ℤ) < ⌊p⌋ then bars.getLast?
    else if (i : ℤ) = ⌊p⌋ then bars[roundHalfUp ((p - ⌊p⌋) * ((bars.length : ℚ) - 1))]?
    else some " "
  | .inf => bars.getLast?
  | .ninf => some " "
  | .nan => some " "

/-- progress_bar.cxx 81-88: the cells between the brackets. -/
def cells (bars : List String) (width total completed : ℤ) : Option (List String) :=
  let pos := Dbl.scale width (Dbl.div completed total)
  (List.range width.toNat).mapM (cell bars pos)

/-- The data members of progress_bar.h 33-49 that matter; `started` holds `start_time_` and
`last_print_time_` once `initialized_` is set. -/
structure Bar where
  total : ℤ
  width : ℤ
  bars : List String
  started : Option (ℤ × ℤ)
  tStart : Option ℚ
  tLast : ℚ
  elapsedLast : ℚ
  rate : Dbl

/-- What one `print` shows. -/
structure Line where
  cells : List String
  fraction : Dbl
  elapsed : List PField
  left : List PField
  rate : Option Dbl

/-- progress_bar.cxx 14-18: the members that are not initialised are arbitrary. -/
def Bar.make (total width : ℤ) (tStart : Option ℚ) (tLast elapsedLast : ℚ) (rate : Dbl) : Bar :=
  ⟨total, width, solid, none, tStart, tLast, elapsedLast, rate⟩

/-- progress_bar.cxx 58-68: the first call. -/
def Bar.start (b : Bar) (now : ℤ) (t : Option ℚ) : Bar :=
  match b.started with
  | some _ => b
  | none =>
    { b with started := some (now, now), tStart := t, elapsedLast := 0, tLast := t.getD 0,
             rate := .fin 1 }

/-- progress_bar.cxx 91-92: the estimate of the remaining time in milliseconds. -/
def remaining (total completed elapsed : ℤ) : Dbl :=
  Dbl.scale 1000 (Dbl.divBy (total - completed) (Dbl.div completed (elapsed / 1000)))

/-- progress_bar.cxx 96-97: the new rate. -/
def newRate (b : Bar) (t : ℚ) (elapsed : ℚ) : Dbl :=
  Dbl.add (Dbl.scale (9 / 10) b.rate)
    (Dbl.scale (1 / 10) (Dbl.div (t - b.tLast) (elapsed - b.elapsedLast)))

/-- progress_bar.cxx 56-111: `print(completed, t)` at the time `now`; `t` is `none` if it is not
finite. -/
def print (b0 : Bar) (now completed : ℤ) (t : Option ℚ) : Option (Bar × Option Line) :=
  let b := b0.start now t
  match b.started with
  | none => none
  | some (start, last) =>
    if now - last > 33 ∨ completed = b.total then
      match cells b.bars b.width b.total completed, (remaining b.total completed (now - start)).toInt,
          (Dbl.fin ((now - start : ℤ) : ℚ)).toInt with
      | some cs, some l, some e =>
        let el : ℚ := ((now - start : ℤ) : ℚ) / 1000
        let b1 := { b with started := some (start, now) }
        match b.tStart, t with
        | some _, some t =>
          let r := newRate b t el
          some ({ b1 with rate := r, tLast := t, elapsedLast := el },
            some ⟨cs, Dbl.div completed b.total, msToStamp e, msToStamp l, some r⟩)
        | _, _ => some (b1, some ⟨cs, Dbl.div completed b.total, msToStamp e, msToStamp l, none⟩)
      | _, _, _ => none
    else some (b, none)

/-- A sequence of calls (time, completed, `t`); the lines with the times they were printed at. -/
def runBar (b : Bar) : List (ℤ × ℤ × Option ℚ) → Option (Bar × List (ℤ × ℤ × Line))
  | [] => some (b, [])
  | (now, c, t) :: cs =>
    match print b now c t with
    | none => none
    | some (b', l) =>
      match runBar b' cs with
      | none => none
      | some (b'', ls) => some (b'', (l.map fun x => (now, c, x)).toList ++ ls)

end Verif.Progress
