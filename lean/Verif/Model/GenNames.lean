import Mathlib.Data.Nat.Notation
/-!
# Model of the names that the generator of the filter makes

core/ekf/ekf_gen/ekf_gen_utils.py 33-51, core/ekf/ekf_gen/ekf_gen.py 642-690, core/ekf/ekf_gen/ekf_gen_matrix_manip.py 86,
cmake/EkfRule.cmake 1-16.

A name is the list of the codes of its characters; the functions `upper`, `lower` and `capitalize` of Python are modelled on ASCII.  The
argument of the rule and of the generator is the file name without directory and extension.
-/
namespace Verif.GenNames

abbrev Name := List ℕ

/-- The codes of a string. -/
def codes (s : String) : Name := s.toList.map Char.toNat

/-- `[A-Z]` and `[a-z]`. -/
abbrev IsUp (c : ℕ) : Prop := 65 ≤ c ∧ c ≤ 90
abbrev IsLow (c : ℕ) : Prop := 97 ≤ c ∧ c ≤ 122

/-- `str.upper` and `str.lower` of a character. -/
def up (c : ℕ) : ℕ := if IsLow c then c - 32 else c
def low (c : ℕ) : ℕ := if IsUp c then c + 32 else c

/-- `str.split('_')`. -/
def split : Name → List Name
  | [] => [[]]
  | c :: t =>
    if c = 95 then [] :: split t
    else match split t with
      | [] => [[c]]
      | w :: ws => (c :: w) :: ws

/-- `str.capitalize`. -/
def capitalize : Name → Name
  | [] => []
  | c :: t => up c :: t.map low

/-- `make_camel` (ekf_gen_utils.py 40-47); `none` is the exception `IndexError` of `out[0]`. -/
def makeCamel (snake : Name) (cap : Bool) : Option Name :=
  let words := split snake
  let out := words.headD [] ++ (words.tail.map capitalize).flatten
  if cap then
    match out with
    | [] => none
    | c :: t => some (up c :: t)
  else some out

/-- `make_snake` (ekf_gen_utils.py 50-51): an underscore before every capital but at the start, then lower case. -/
def makeSnake : Name → Name
  | [] => []
  | c :: t => low c :: t.flatMap fun c => if IsUp c then [95, low c] else [low c]

/-- `jac_member_name` (ekf_gen_utils.py 33-37) of two states with names. -/
def jacMember (a b : Name) : Option Name :=
  (makeCamel a true).bind fun x => (makeCamel b true).map fun y => 100 :: x ++ 95 :: 100 :: y

/-- The name of a block of the covariance (ekf_gen_matrix_manip.py 86, ekf_gen_state.py 114). -/
def covMember (a b : Name) : Option Name :=
  (makeCamel a false).bind fun x => (makeCamel b false).map fun y => x ++ 95 :: y

/-- The files which the rule promises (EkfRule.cmake 9-16). -/
def promised (base : Name) : List Name :=
  [".h", ".cxx", "_sparse_test.cxx", "_state.cxx", "_state.h", "_types.cxx", "_types.h"].map fun s => base ++ codes s

/-- The files which the generator writes (ekf_gen.py 642-690). -/
def written (base : Name) : Option (List Name) :=
  (makeCamel base true).map fun cls =>
    ["_state.h", "_state.cxx", "_types.h", "_types.cxx", ".h", ".cxx", "_sparse_test.cxx"].map fun s => makeSnake cls ++ codes s

/-- The states and inputs of core/ekf/rtk_ekf.yaml 14-24, 57-59, and those of core/ekf/ekf_gen/example_ekf.yaml 17-27. -/
def rtkNames : List Name :=
  ["pose", "vel", "acc_bias", "gyro_bias", "gps_clk", "gal_clk", "glo_clk", "sd", "p_b2g", "T_I2e", "accel", "gyro"].map codes
def exampleNames : List Name :=
  ["pose", "pose_se3", "vec3", "vec5", "variable_quat", "variable_vec3", "vector_input", "rotation_input"].map codes

end Verif.GenNames
