import Verif.Model.Utils
import Verif.Model.Logging
/-!
# Model of the configuration files and of the values the post processor reads from them

utils/config.h, and tools/post_process.cxx 18-50, 159-165, 196-206 (which keys are read, with which
shapes).

A loaded file is a tree (`YAML::Node`): null, scalar (its text), sequence, map with scalar keys in
file order.  Keys are lists of characters.  How the text of a scalar becomes a number is a
parameter `parse` (`yaml-cpp` uses a `std::stringstream`); the theorems hold for every `parse`.
`yaml-cpp` itself is not part of the project; the model of `node[key]`, of `as<T>` and of the
exceptions they throw follows its documented behaviour.  Aliases, tags and maps with keys that are
not scalars are left out.
-/
namespace Verif.Config

abbrev Key := List Char

/-- A defined `YAML::Node`. -/
inductive Node where
  | null
  | scalar (text : List Char)
  | seq (l : List Node)
  | map (l : List (Key × Node))

/-- First entry with the key, in the order of the file. -/
def find (k : Key) : List (Key × Node) → Option Node
  | [] => none
  | (k', n) :: l => if k' = k then some n else find k l

/-- A sequence indexed by a string: `yaml-cpp` turns it into a map with the decimal indices as
keys; `i` is the index of the head. -/
def findIdx (k : Key) : List Node → Nat → Option Node
  | [], _ => none
  | n :: l, i => if Log.digits i = k then some n else findIdx k l (i + 1)

/-- `node[key]` of a defined node, for a string key: `none` is the exception `YAML::BadSubscript`,
`some none` an undefined node. -/
def Node.sub : Node → Key → Option (Option Node)
  | .null, _ => some none
  | .scalar _, _ => none
  | .seq l, k => some (findIdx k l 0)
  | .map l, k => some (find k l)

/-- Result of `as<T>()`: a value, the exception `TypedBadConversion<T>`, or an exception of another
type (from the conversion of an element). -/
inductive Conv (α : Type) where
  | ok (a : α)
  | bad
  | thrown
deriving DecidableEq

/-- `as<double>()`. -/
def asNum {K : Type} (parse : List Char → Option K) : Node → Conv K
  | .scalar s => match parse s with
    | some v => .ok v
    | none => .bad
  | _ => .bad

/-- `it->as<T>()` for the elements of a sequence in turn; any failure is an exception of the
element's type. -/
def elems {α : Type} (c : Node → Conv α) : List Node → Option (List α)
  | [] => some []
  | n :: l => match c n with
    | .ok a => match elems c l with
      | some as => some (a :: as)
      | none => none
    | _ => none

/-- `as<std::vector<T>>()`. -/
def asVec {α : Type} (c : Node → Conv α) : Node → Conv (List α)
  | .seq l => match elems c l with
    | some as => .ok as
    | none => .thrown
  | _ => .bad

/-- What a call does: return (with the value the output variable has then), end the program by a
failed `check`, let an exception escape, or read outside an array. -/
inductive Res (α : Type) where
  | ret (found : Bool) (value : α)
  | abort
  | thrown
  | ub
deriving DecidableEq

/-- config.h 90-118: the loop of `Config::get` over the key path.  `node` is the node reached so
far, `old` the value of the output variable before the call. -/
def getLoop {α : Type} (conv : Node → Conv α) (required : Bool) (old : α) : Node → List Key → Res α
  | _, [] => .ret false old
  | node, k :: ks =>
    match node.sub k with
    | none => .thrown
    | some none => if required then .abort else .ret false old
    | some (some m) =>
      match ks with
      | [] => match conv m with
        | .ok v => .ret true v
        | .bad => .ret false old
        | .thrown => .thrown
      | _ :: _ => getLoop conv required old m ks

/-- config.h 85-119: `Config::get` for a type that is not a matrix.  (`YAML::Clone` keeps the
loaded file as it is.) -/
def getVal {α : Type} (conv : Node → Conv α) (cfg : Node) (key : Key) (required : Bool) (old : α) : Res α :=
  getLoop conv required old cfg (Utils.splitString key '/')

/-- config.h 60-83: `Config::get` for a matrix or vector: the list is read with the overload above
and its storage is taken for that of a row-major matrix, without a look at its length. -/
def getMat {K : Type} (parse : List Char → Option K) (cfg : Node) (key : Key) (required : Bool) {r c : Nat}
    (old : Fin r → Fin c → K) : Res (Fin r → Fin c → K) :=
  match getVal (asVec (asNum parse)) cfg key required [] with
  | .ret true l =>
    if h : r * c ≤ l.length then
      .ret true fun i j => l[i.1 * c + j.1]'(by
        have h1 : i.1 * c + j.1 < (i.1 + 1) * c := by rw [Nat.add_mul]; omega
        exact lt_of_lt_of_le h1 (le_trans (Nat.mul_le_mul_right c i.2) h))
    else .ub
  | .ret false _ => .ret false old
  | .abort => .abort
  | .thrown => .thrown
  | .ub => .ub

/-- config.h 14-25: `convert<Matrix>::encode`; `put` writes a number. -/
def encode {K : Type} (put : K → List Char) {r c : Nat} (m : Fin r → Fin c → K) : Node :=
  .seq ((List.finRange r).flatMap fun i => (List.finRange c).map fun j => .scalar (put (m i j)))

/-- config.h 33-46: the loops of `convert<Matrix>::decode`: `it` is the rest of the sequence, `n`
the number of entries still to be read (in row-major order). -/
def decodeLoop {K : Type} (parse : List Char → Option K) : List Node → Nat → Conv (List K)
  | _, 0 => .ok []
  | [], _ + 1 => .bad
  | x :: it, n + 1 => match asNum parse x with
    | .ok v => match decodeLoop parse it n with
      | .ok vs => .ok (v :: vs)
      | e => e
    | _ => .thrown

/-- config.h 27-47: `convert<Matrix>::decode`; the entries in row-major order. -/
def decode {K : Type} (parse : List Char → Option K) (r c : Nat) : Node → Conv (List K)
  | .seq l => decodeLoop parse l (r * c)
  | _ => .bad

/-! ### tools/post_process.cxx -/

/-- A vector that is an `Eigen` column. -/
abbrev EVec (K : Type) (n : Nat) := Fin n → Fin 1 → K

/-- The generated `ProcessCovariance` for core/ekf/rtk_ekf.yaml (`process_covariance_members`,
ekf_gen_state.py 520-529), with `pose` in its two halves `head<3>()`, `tail<3>()`. -/
structure ProcCov (K : Type) where
  rot : EVec K 3
  trans : EVec K 3
  vel : EVec K 3
  accBias : EVec K 3
  gyroBias : EVec K 3
  gpsClk : EVec K 2
  galClk : EVec K 2
  gloClk : EVec K 2
  pB2g : EVec K 3
  TI2e : EVec K 6
  sd : EVec K 1

/-- Sequencing of calls whose returned flag is ignored. -/
def Res.bind {α β : Type} : Res α → (α → Res β) → Res β
  | .ret _ a, f => f a
  | .abort, _ => .abort
  | .thrown, _ => .thrown
  | .ub, _ => .ub

/-- `cwiseProduct` of a vector with itself. -/
def square {K : Type} [Mul K] {n : Nat} (v : EVec K n) : EVec K n := fun i j => v i j * v i j

/-- post_process.cxx 18-50, `getStateCovariance`; `mem` is what the uninitialised local `stdev`
holds. -/
def getStateCovariance {K : Type} [Mul K] (parse : List Char → Option K) (cfg : Node) (key : Key)
    (mem : ProcCov K) : Res (ProcCov K) :=
  (getMat parse cfg (key ++ "/rotation".toList) true mem.rot).bind fun rot =>
  (getMat parse cfg (key ++ "/translation".toList) true mem.trans).bind fun trans =>
  (getMat parse cfg (key ++ "/vel".toList) true mem.vel).bind fun vel =>
  (getMat parse cfg (key ++ "/acc_bias".toList) true mem.accBias).bind fun accBias =>
  (getMat parse cfg (key ++ "/gyro_bias".toList) true mem.gyroBias).bind fun gyroBias =>
  (getMat parse cfg (key ++ "/gps_clk".toList) true mem.gpsClk).bind fun gpsClk =>
  (getMat parse cfg (key ++ "/gal_clk".toList) true mem.galClk).bind fun galClk =>
  (getMat parse cfg (key ++ "/glo_clk".toList) true mem.gloClk).bind fun gloClk =>
  (getMat parse cfg (key ++ "/p_b2g".toList) true mem.pB2g).bind fun pB2g =>
  (getMat parse cfg (key ++ "/T_I2e".toList) true mem.TI2e).bind fun TI2e =>
  (getMat parse cfg (key ++ "/sd".toList) true mem.sd).bind fun sd =>
  .ret true ⟨square rot, square trans, square vel, square accBias, square gyroBias, square gpsClk,
    square galClk, square gloClk, square pB2g, square TI2e, square sd⟩

/-- post_process.cxx 159-165. -/
def getMeasurementCovariance {K : Type} [Mul K] (parse : List Char → Option K) (cfg : Node) (key : Key) {n : Nat}
    (mem : EVec K n) : Res (EVec K n) :=
  (getMat parse cfg key true mem).bind fun v => .ret true (square v)

/-- The noise parameters of post_process.cxx 196-206. -/
structure Noise (K : Type) where
  P0 : ProcCov K
  process : ProcCov K
  pointPos : EVec K 6
  obs : EVec K 2
  accel : EVec K 3
  gyro : EVec K 3
  fixAndHold : K

/-- post_process.cxx 196-206: what `main` reads between `getState` and the first use of the
filter; `mem` is the contents of the uninitialised variables. -/
def readNoise {K : Type} [Mul K] (parse : List Char → Option K) (cfg : Node) (mem : Noise K) : Res (Noise K) :=
  (getStateCovariance parse cfg "P0_stdev".toList mem.P0).bind fun P0 =>
  (getStateCovariance parse cfg "process_stdev".toList mem.process).bind fun process =>
  (getMeasurementCovariance parse cfg "point_pos_stdev".toList mem.pointPos).bind fun pp =>
  (getMeasurementCovariance parse cfg "obs_stdev".toList mem.obs).bind fun obs =>
  (getMeasurementCovariance parse cfg "imu_stdev/accel".toList mem.accel).bind fun accel =>
  (getMeasurementCovariance parse cfg "imu_stdev/gyro".toList mem.gyro).bind fun gyro =>
  (getVal (asNum parse) cfg "fix_and_hold_stdev".toList true mem.fixAndHold).bind fun f =>
  .ret true ⟨P0, process, pp, obs, accel, gyro, f * f⟩

/-- A list of texts as a sequence node. -/
def texts (l : List String) : Node := .seq (l.map fun s => .scalar s.toList)

/-- A map node with string keys. -/
def mapNode (l : List (String × Node)) : Node := .map (l.map fun p => (p.1.toList, p.2))

/-- config/rtk_ekf_post_process.yaml, the file delivered with the program. -/
def shipped : Node := mapNode [
  ("use_init_sim_state", .scalar "true".toList),
  ("translation0", texts ["0", "0", "0"]),
  ("rotation0", texts ["1", "0", "0", "0"]),
  ("vel0", texts ["0", "0", "0"]),
  ("p_b2g0", texts ["0", "0", "0"]),
  ("lla0_deg", texts ["40.246184", "-111.647769", "1387.997511"]),
  ("heading0_deg", .scalar "0".toList),
  ("P0_stdev", mapNode [
    ("translation", texts ["0.0", "0.0", "0.0"]),
    ("rotation", texts ["0.1", "0.1", "0.0"]),
    ("vel", texts ["0.1", "0.1", "0.1"]),
    ("acc_bias", texts ["0.1", "0.1", "1.0"]),
    ("gyro_bias", texts ["0.1", "0.1", "0.1"]),
    ("gps_clk", texts ["1.0", "1.0"]),
    ("gal_clk", texts ["1.0", "1.0"]),
    ("glo_clk", texts ["1.0", "1.0"]),
    ("p_b2g", texts ["0.01", "0.01", "0.01"]),
    ("T_I2e", texts ["1e-6", "1e-6", "3", "200", "200", "200"]),
    ("sd", .scalar "1.0".toList)]),
  ("point_pos_stdev", texts ["1", "1", "3", "0.1", "0.1", "0.3"]),
  ("gps_obs_stdev", texts ["0.01", "0.01"]),
  ("gal_obs_stdev", texts ["0.01", "0.01"]),
  ("glo_obs_stdev", texts ["0.01", "0.01"]),
  ("fix_and_hold_stdev", .scalar "0.001".toList),
  ("imu_stdev", mapNode [
    ("gyro", texts ["0.01", "0.01", "0.01"]),
    ("accel", texts ["0.1", "0.1", "0.1"])]),
  ("process_stdev", mapNode [
    ("translation", texts ["0", "0", "0"]),
    ("rotation", texts ["0", "0", "0"]),
    ("vel", texts ["0", "0", "0"]),
    ("acc_bias", texts ["0.1", "0.1", "1.0"]),
    ("gyro_bias", texts ["0.01", "0.01", "0.01"]),
    ("gps_clk", texts ["0.1", "0.1"]),
    ("gal_clk", texts ["0.1", "0.1"]),
    ("glo_clk", texts ["0.1", "0.1"]),
    ("p_b2g", texts ["0", "0", "0"]),
    ("T_I2e", texts ["0", "0", "0", "0", "0", "0"]),
    ("sd", .scalar "0.001".toList)])]

end Verif.Config
