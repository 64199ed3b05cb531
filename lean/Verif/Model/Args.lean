import Mathlib.Data.List.Basic

/-!
# Command lines

`third_party/argparse/argparse.hpp`: the parser of the command lines of the four programs
(`sim/simulate.cxx`, `tools/post_process.cxx`, `tools/verify_ephemeris.cxx`,
`tools/gather_ephemeris.cxx`).

Simplifications: a string is the list of its bytes; an argument is known by its number in the order
of declaration; the state is a function of that number.  `std::any` holds a text, a number or
nothing.  The text of messages and the help text are left out.  Parents of parsers and the scanning
of numbers (`scan`, not used) are left out.  The loop is bounded by a counter; `C136_ends` shows
that it never runs out.
-/

namespace Verif.Model.Args

abbrev Str := List Nat

/-- `is_digit` (`third_party/argparse/argparse.hpp` 645-663). -/
def digit (c : Nat) : Bool := decide (48 ≤ c ∧ c ≤ 57)

/-- A digit and nothing but digits (`argparse.hpp` 755-763). -/
def digitsOnly : Str → Bool
  | c :: r => digit c && ((c :: r).dropWhile digit).isEmpty
  | [] => false

/-- The label `post_e` (`argparse.hpp` 749-764). -/
def postE (s : Str) : Bool :=
  digitsOnly (if s.head? = some 45 ∨ s.head? = some 43 then s.tail else s)

/-- The label `exponent_part_opt` (`argparse.hpp` 735-747). -/
def expOpt : Str → Bool
  | [] => true
  | c :: r => if c = 101 ∨ c = 69 then postE r else false

/-- The label `post_decimal_point` (`argparse.hpp` 724-733). -/
def postPoint (s : Str) : Bool :=
  match s with
  | c :: _ => if digit c then expOpt (s.dropWhile digit) else false
  | [] => false

/-- The label `integer_part_consumed` (`argparse.hpp` 705-722). -/
def intConsumed : Str → Bool
  | [] => false
  | c :: r =>
    if c = 46 then
      match r with
      | d :: _ => if digit d then postPoint r else expOpt r
      | [] => expOpt r
    else if c = 101 ∨ c = 69 then postE r
    else false

/-- `is_decimal_literal` (`argparse.hpp` 643-765); `consume_digits` takes the digits away. -/
def literal (s : Str) : Bool :=
  match s with
  | [] => false
  | c :: r =>
    if c = 48 then
      if r.isEmpty then true else intConsumed (r.dropWhile digit)
    else if digit c then
      if (s.dropWhile digit).isEmpty then true else intConsumed (s.dropWhile digit)
    else if c = 46 then postPoint r
    else false

/-- `is_positional` (`argparse.hpp` 776-792). -/
def positional : Str → Bool
  | [] => true
  | c :: r => if c = 45 then if r.isEmpty then true else literal r else true

/-- `is_optional` (`argparse.hpp` 767). -/
def isOpt (s : Str) : Bool := !positional s

/-- The contents of a `std::any`. -/
inductive Val where
  | text (s : Str)
  | num (n : Int)
  | empty
deriving DecidableEq

/-- `class Argument` as declared (`argparse.hpp` 325-859): names, `mIsRequired`, `mNumArgs`,
whether there is a default value, and the action: what it makes of a text (`none`: it throws
something that is no `std::runtime_error`) and whether it returns nothing. -/
structure Decl where
  names : List Str
  required : Bool := false
  nargs : Int := 1
  hasDefault : Bool := false
  act : Str → Option Val := fun s => some (.text s)
  void : Bool := false

/-- `mIsOptional` (`argparse.hpp` 331-332): one of the names is. -/
def Decl.isOptional (d : Decl) : Bool := d.names.any isOpt

/-- `mIsUsed` and `mValues` of every argument. -/
structure State where
  used : Nat → Bool
  values : Nat → List Val

/-- Before parsing. -/
def start : State := ⟨fun _ => false, fun _ => []⟩

/-- How parsing goes: on, `std::runtime_error` (reported, `EXIT_FAILURE`), another exception (the
program is terminated), the help text and `std::exit(0)`, the counter has run out. -/
inductive Out (α : Type) where
  | ok (a : α)
  | error
  | crash
  | help
  | fuel

def State.use (st : State) (i : Nat) : State :=
  { st with used := fun j => if j = i then true else st.used j }

def State.push (st : State) (i : Nat) (vs : List Val) : State :=
  { st with values := fun j => if j = i then st.values i ++ vs else st.values j }

/-- `mValues.resize(n)` (`argparse.hpp` 482). -/
def State.resize (st : State) (i n : Nat) : State :=
  { st with values := fun j => if j = i then
      (st.values i).take n ++ List.replicate (n - (st.values i).length) .empty
      else st.values j }

/-- `Argument::consume` (`argparse.hpp` 445-500) of the argument `i` at the arguments `rest`. -/
def consume (d : Decl) (i : Nat) (st : State) (rest : List Str) : Out (State × List Str) :=
  if st.used i then .error
  else
    let st := st.use i
    if d.nargs = 0 then .ok (st.push i [.empty], rest)
    else if d.nargs ≤ rest.length then
      let k := if d.nargs < 0 then rest.length else d.nargs.toNat
      if 0 ≤ d.nargs ∧ (rest.take k).any isOpt then .error
      else
        match (rest.take k).mapM d.act with
        | none => .crash
        | some vs =>
          if d.void then
            if !d.hasDefault ∧ 0 ≤ d.nargs then .ok (st.resize i k, rest.drop k)
            else .ok (st, rest.drop k)
          else .ok (st.push i vs, rest.drop k)
    else if d.hasDefault then .ok (st, rest)
    else .error

/-- `mArgumentMap.find` (`argparse.hpp` 1084): the last argument declared with the name
(`insert_or_assign`, 1153-1157). -/
def find (ds : List Decl) (name : Str) : Option Nat :=
  ((List.range ds.length).filter fun i => (ds[i]?.map fun d => d.names.contains name) = some true).getLast?

/-- Arguments by number; a number that is none never arises. -/
def decl (ds : List Decl) (i : Nat) : Decl := ds[i]?.getD { names := [] }

/-- The loop over the characters of a compound argument (`argparse.hpp` 1102-1116). -/
def compound (ds : List Decl) : Str → State → List Str → Out (State × List Str)
  | [], st, rest => .ok (st, rest)
  | c :: cs, st, rest =>
    match find ds [45, c] with
    | some i =>
      match consume (decl ds i) i st rest with
      | .ok (st', rest') => compound ds cs st' rest'
      | .error => .error
      | .crash => .crash
      | .help => .help
      | .fuel => .fuel
    | none => .error

/-- The loop of `parse_args_internal` (`argparse.hpp` 1062-1123); `pos` are the positional arguments
that are left.  The first optional argument declared is the help (`argparse.hpp` 1090). -/
def loop (ds : List Decl) : Nat → List Nat → List Str → State → Out State
  | 0, _, _, _ => .fuel
  | _ + 1, _, [], st => .ok st
  | n + 1, pos, a :: r, st =>
    if positional a then
      match pos with
      | [] => .error
      | i :: pos' =>
        match consume (decl ds i) i st (a :: r) with
        | .ok (st', rest') => loop ds n pos' rest' st'
        | .error => .error
        | .crash => .crash
        | .help => .help
        | .fuel => .fuel
    else
      match find ds a with
      | some i =>
        if i = 0 then .help
        else
          match consume (decl ds i) i st r with
          | .ok (st', rest') => loop ds n pos rest' st'
          | .error => .error
          | .crash => .crash
          | .help => .help
          | .fuel => .fuel
      | none =>
        if 1 < a.length ∧ a.head? = some 45 ∧ a.tail.head? ≠ some 45 then
          match compound ds a.tail st r with
          | .ok (st', rest') => loop ds n pos rest' st'
          | .error => .error
          | .crash => .crash
          | .help => .help
          | .fuel => .fuel
        else .error

/-- `Argument::validate` (`argparse.hpp` 505-546): may the argument be as it is? -/
def validate (d : Decl) (i : Nat) (st : State) : Bool :=
  if d.nargs < 0 then true
  else
    let k := d.nargs.toNat
    let size := (st.values i).length
    if d.isOptional then
      if st.used i && decide (size ≠ k) && !d.hasDefault then false
      else if !st.used i && !d.hasDefault && d.required then false
      else if st.used i && d.required && decide (size = 0) then false
      else true
    else !(decide (size ≠ k) && !d.hasDefault)

/-- The positional arguments in their order (`argparse.hpp` 899-900). -/
def positionals (ds : List Decl) : List Nat :=
  (List.range ds.length).filter fun i => !(decl ds i).isOptional

/-- `parse_args` (`argparse.hpp` 935-939) on the arguments after the name of the program; the name
is there (`argc` is not 0).  `parse_args_validate` (1128-1135) walks the map of names: an argument
all names of which belong to later arguments is not looked at. -/
def parse (ds : List Decl) (args : List Str) : Out State :=
  match loop ds (args.length + (positionals ds).length + 1) (positionals ds) args start with
  | .ok st =>
    if (List.range ds.length).all fun i =>
        !((decl ds i).names.any fun s => decide (find ds s = some i)) ||
          validate (decl ds i) i st then .ok st else .error
  | x => x

/-- The help argument every parser has first (`argparse.hpp` 866). -/
def helpDecl : Decl := { names := [[45, 104], [45, 45, 104, 101, 108, 112]], nargs := 0 }

/-! ## The programs -/

/-- The bytes of a text. -/
def str (s : String) : Str := s.toList.map Char.toNat

/-- The value of digits. -/
def number (s : Str) : Int := s.foldl (fun (a : Int) (c : Nat) => 10 * a + ((c : Int) - 48)) 0

/-- `std::stoi`: white space, a sign, digits; what follows is ignored; `std::invalid_argument` and
`std::out_of_range` are `none`. -/
def stoi (s : Str) : Option Int :=
  let s := s.dropWhile fun c => decide (c = 32 ∨ 9 ≤ c ∧ c ≤ 13)
  let t := if s.head? = some 45 ∨ s.head? = some 43 then s.tail else s
  let d := t.takeWhile digit
  let n := if s.head? = some 45 then -number d else number d
  if d = [] then none else if -2147483648 ≤ n ∧ n ≤ 2147483647 then some n else none

/-- `sim/simulate.cxx` 33, 43-46. -/
def simulate : List Decl := [helpDecl,
  { names := [str "--config_file"], required := true, void := true }]

/-- `tools/post_process.cxx` 172-180. -/
def postProcess : List Decl := [helpDecl,
  { names := [str "--config_file"], required := true, void := true },
  { names := [str "--log"], required := true, void := true }]

/-- `tools/verify_ephemeris.cxx` 40-41. -/
def verifyEphemeris : List Decl := [helpDecl, { names := [str "--log"], required := true }]

/-- The action of `--baudrate` (`tools/gather_ephemeris.cxx` 197). -/
def stoiAct (s : Str) : Option Val := (stoi s).map Val.num

/-- `tools/gather_ephemeris.cxx` 192-198. -/
def gatherEphemeris : List Decl := [helpDecl,
  { names := [str "--port"], required := true },
  { names := [str "--baudrate"], required := true, act := stoiAct },
  { names := [str "--output_directory"], required := true }]

end Verif.Model.Args
