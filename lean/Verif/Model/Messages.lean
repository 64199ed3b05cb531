import Verif.Model.Ubx

/-!
# Model of the messages the program prints

common/print.h, common/print.cxx and common/check.cxx decide which messages appear, C++ overload
resolution decides which argument of a call becomes the format, and the fmt library (version
6.1.2, cmake/External_Fmt.cmake 4) turns the format and the values into text or throws.

A format is a list of characters.  Of the replacement fields of fmt only `{}` is modelled with its
effect; a field that begins with a letter or an underscore names an argument and, as no call of
the program has named arguments, throws `format_error("argument not found")`; every other field
(`{0}`, `{:…}`) is the separate outcome `unmodelled`.  The values are given by the text fmt
renders them to.  The colours and the `file:line` prefix are left out.

The table `sites` lists every call of `dbg`, `info`, `warn`, `error`, `fatal`, `check` and
`weak_check` outside tests, benchmarks and third_party.  Of each argument only its type is kept,
and of a literal its characters.
-/
namespace Verif.Messages

/-- print.h 17-24, 35: `LoggingLevel`, as numbers; a build may also use a larger number
(cmake/CompileFlags.cmake 54 uses 10). -/
def DEBUG : Nat := 0
def INFO : Nat := 1
def WARN : Nat := 2
def ERROR : Nat := 3
def FATAL : Nat := 4

/-- The functions of print.h 52-105 and check.h 7-17. -/
inductive Fn
  | dbg | info | warn | error | fatal | check | weak_check
deriving DecidableEq, Repr

/-- print.cxx 13-72, check.cxx 12-41: the level up to which a function prints; `check` and
`weak_check` print through `fatal`. -/
def gate : Fn → Nat
  | .dbg => DEBUG
  | .info => INFO
  | .warn => WARN
  | .error => WARN
  | .fatal => WARN
  | .check => WARN
  | .weak_check => WARN

/-- print.cxx 17, 29, 40, 52, 64: `if constexpr (LOGGING_LEVEL <= …)`. -/
def shown (lvl : Nat) (f : Fn) : Bool := decide (lvl ≤ gate f)

/-! ## Formatting -/

/-- What `fmt::vprint` does. -/
inductive Out
  | ok (s : List Char)
  | throws
  | unmodelled
deriving DecidableEq, Repr

/-- Text before the rest. -/
def Out.pre (p : List Char) : Out → Out
  | .ok s => .ok (p ++ s)
  | .throws => .throws
  | .unmodelled => .unmodelled

/-- fmt 6.1.2, `is_name_start`: ASCII letters and the underscore. -/
def isNameStart (c : Char) : Bool :=
  ('a' ≤ c && c ≤ 'z') || ('A' ≤ c && c ≤ 'Z') || c = '_'

/-- fmt 6.1.2, `parse_format_string` with `format_handler`: text is copied, `{{` and `}}` are
braces, `{}` takes the next value, `{name` throws, a lone brace throws. -/
def format : List Char → List (List Char) → Out
  | [], _ => .ok []
  | '{' :: '{' :: r, vs => (format r vs).pre ['{']
  | '{' :: '}' :: r, v :: vs => (format r vs).pre v
  | '{' :: '}' :: _, [] => .throws
  | '{' :: c :: _, _ => if isNameStart c then .throws else .unmodelled
  | ['{'], _ => .throws
  | '}' :: '}' :: r, vs => (format r vs).pre ['}']
  | '}' :: _, _ => .throws
  | c :: r, vs => (format r vs).pre [c]

/-! ## Overload resolution -/

/-- The types of the arguments that occur: a string literal, a `std::string`, a condition, the
result of `fmt(…)` with `n` values (print.h 37-41). -/
inductive Arg
  | lit (s : String)
  | str
  | cond
  | store (n : Nat)
deriving DecidableEq, Repr

/-- The parameter types. -/
inductive Par
  | text | cond | args | loc
deriving DecidableEq, Repr

/-- Rank of the implicit conversion: 0 identity, 1 standard conversion (array to pointer to
`bool`), 2 user-defined conversion; `none` if there is none. -/
def conv : Arg → Par → Option Nat
  | .lit _, .text => some 2
  | .lit _, .cond => some 1
  | .str, .text => some 0
  | .cond, .cond => some 0
  | .store _, .args => some 2
  | _, _ => none

/-- A parameter list with, for each parameter, whether it has a default. -/
abbrev Sig := List (Par × Bool)

/-- print.h 52-75: `f(fmt, args = …, location = …)`. -/
def sigText : Sig := [(.text, false), (.args, true), (.loc, true)]
/-- print.h 77-105: `f(condition, fmt, args = …, location = …)`. -/
def sigCond : Sig := [(.cond, false), (.text, false), (.args, true), (.loc, true)]
/-- check.h 7-17: `check(condition, fmt = "", args = …, location = …)`. -/
def sigCheck : Sig := [(.cond, false), (.text, true), (.args, true), (.loc, true)]

/-- The candidates of a name. -/
def sigs : Fn → List Sig
  | .check => [sigCheck]
  | .weak_check => [sigCheck]
  | _ => [sigText, sigCond]

/-- The ranks of the conversions if the candidate is viable. -/
def ranks : Sig → List Arg → Option (List Nat)
  | [], [] => some []
  | [], _ :: _ => none
  | ps, [] => if ps.all (·.2) then some [] else none
  | p :: ps, a :: as =>
    match conv a p.1, ranks ps as with
    | some k, some ks => some (k :: ks)
    | _, _ => none

/-- One candidate is better: no conversion worse, one better. -/
def better (a b : List Nat) : Bool :=
  (List.zip a b).all (fun p => decide (p.1 ≤ p.2)) &&
    (List.zip a b).any (fun p => decide (p.1 < p.2))

/-- The viable candidates with their ranks. -/
def viable (cs : List Sig) (as : List Arg) : List (Sig × List Nat) :=
  cs.filterMap fun c => (ranks c as).map fun r => (c, r)

/-- The best viable candidate, if there is one (otherwise the call does not compile). -/
def resolve (f : Fn) (as : List Arg) : Option Sig :=
  match viable (sigs f) as with
  | [c] => some c.1
  | [c, d] => if better c.2 d.2 then some c.1 else if better d.2 c.2 then some d.1 else none
  | _ => none

/-- The argument bound to the first parameter of type `p`. -/
def bound (p : Par) : Sig → List Arg → Option Arg
  | q :: ps, a :: as => if q.1 = p then some a else bound p ps as
  | _, _ => none

/-- What a call does. -/
inductive Effect
  /-- the call does not compile -/
  | illFormed
  /-- returns, having printed this text (or nothing) -/
  | returns (printed : Option (List Char))
  /-- `exit(-1)`, having printed this text (or nothing) -/
  | exits (printed : Option (List Char))
  /-- an exception leaves the call -/
  | throws
  | unmodelled
deriving DecidableEq, Repr

/-- The text of the bound format; `str` is the value of a `std::string` argument. -/
def textOf (str : List Char) : Option Arg → List Char
  | some (.lit s) => s.toList
  | some .str => str
  | _ => []

/-- The truth of the bound condition; the address of a literal is not null. -/
def condOf (cond : Bool) : Option Arg → Bool
  | some (.lit _) => true
  | some .cond => cond
  | _ => true

/-- The values available to the format. -/
def valsOf (vals : List (List Char)) : Option Arg → List (List Char)
  | some (.store _) => vals
  | _ => []

/-- print.cxx 13-72 (the body of one printing function), then `k`. -/
def emit (lvl : Nat) (f : Fn) (text : List Char) (vals : List (List Char))
    (k : Option (List Char) → Effect) : Effect :=
  if shown lvl f then
    match format text vals with
    | .ok s => k (some s)
    | .throws => .throws
    | .unmodelled => .unmodelled
  else k none

/-- A call with the given argument types: print.cxx 13-142 for the printing functions, check.cxx 12-28
(`check` exits) and 30-41 (`weak_check` does not).  `cond` and `str` are the values of the
condition and of the `std::string`, `vals` the rendered values of `fmt(…)`. -/
def call (lvl : Nat) (f : Fn) (as : List Arg) (cond : Bool) (str : List Char)
    (vals : List (List Char)) : Effect :=
  match resolve f as with
  | none => .illFormed
  | some s =>
    let c := condOf cond (bound .cond s as)
    let t := textOf str (bound .text s as)
    let v := valsOf vals (bound .args s as)
    match f with
    | .check => if c then .returns none else emit lvl .fatal t v .exits
    | .weak_check => if c then .returns none else emit lvl .fatal t v .returns
    | _ => if c then emit lvl f t v .returns else .returns none

/-! ## The calls of the program -/

/-- One call. -/
structure Site where
  file : String
  line : Nat
  fn : Fn
  args : List Arg
deriving DecidableEq, Repr

/-- Every call of a message function outside tests, benchmarks and third_party. -/
def sites : List Site := [
  ⟨"common/ephemeris/galileo.cxx", 44, .check,
    [.cond, .lit "supplied invalid frequency slot for Galileo {}", .store 1]⟩,
  ⟨"common/ephemeris/galileo.cxx", 72, .dbg, [.lit "Skipping alert page"]⟩,
  ⟨"common/ephemeris/galileo.cxx", 79, .dbg, [.lit "GAL page even/odd error: sat={}", .store 1]⟩,
  ⟨"common/ephemeris/galileo.cxx", 99, .dbg, [.lit "Galileo CRC Error: sat={}", .store 1]⟩,
  ⟨"common/ephemeris/galileo.cxx", 187, .dbg,
    [.lit "Galileo word type 0 error : expected=0, got {}", .store 1]⟩,
  ⟨"common/ephemeris/galileo.cxx", 204, .dbg,
    [.lit "Galileo word type 1 error : expected=1, got {}", .store 1]⟩,
  ⟨"common/ephemeris/galileo.cxx", 221, .dbg,
    [.lit "Galileo word type 2 error : expected=2, got {}", .store 1]⟩,
  ⟨"common/ephemeris/galileo.cxx", 240, .dbg,
    [.lit "Galileo word type 3 error : expected=3, got {}", .store 1]⟩,
  ⟨"common/ephemeris/galileo.cxx", 261, .dbg,
    [.lit "Galileo word type 4 error : expected=4, got {}", .store 1]⟩,
  ⟨"common/ephemeris/galileo.cxx", 266, .dbg,
    [.lit "Galileo satellite id doesn't match: expected {}, got {}", .store 2]⟩,
  ⟨"common/ephemeris/galileo.cxx", 287, .dbg,
    [.lit "Galileo word type 5 error : expected=5, got {}", .store 1]⟩,
  ⟨"common/ephemeris/glonass.cxx", 40, .check,
    [.cond, .lit "supplied invalid frequency slot for Glonass {}", .store 1]⟩,
  ⟨"common/ephemeris/glonass.cxx", 48, .dbg, [.lit "Not enough bytes in GLONASS string"]⟩,
  ⟨"common/ephemeris/glonass.cxx", 68, .dbg, [.lit "GLONASS failed Hamming code check"]⟩,
  ⟨"common/ephemeris/gps.cxx", 35, .check,
    [.cond, .lit "supplied invalid frequency slot for GPS {}", .store 1]⟩,
  ⟨"common/ephemeris/gps.cxx", 43, .dbg, [.lit "Incomplete GPS Frame"]⟩,
  ⟨"common/ephemeris/gps.cxx", 80, .dbg, [.lit "Waiting for Subframes"]⟩,
  ⟨"common/ephemeris/gps.cxx", 87, .dbg, [.lit "mis-matched issue-of-data {}, {}, {}", .store 3]⟩,
  ⟨"common/ephemeris/gps.cxx", 91, .dbg, [.lit "Got all subframes"]⟩,
  ⟨"common/ephemeris/gps.cxx", 107, .dbg, [.lit "GPS Preamble Incorrect"]⟩,
  ⟨"common/ephemeris/gps.cxx", 110, .dbg, [.lit "GOT FRAME 1"]⟩,
  ⟨"common/ephemeris/gps.cxx", 141, .dbg, [.lit "GPS Preamble Incorrect"]⟩,
  ⟨"common/ephemeris/gps.cxx", 144, .dbg, [.lit "GOT FRAME 2"]⟩,
  ⟨"common/ephemeris/gps.cxx", 167, .dbg, [.lit "GPS Preamble Incorrect"]⟩,
  ⟨"common/ephemeris/gps.cxx", 170, .dbg, [.lit "GOT FRAME 3"]⟩,
  ⟨"common/error_result.h", 28, .check,
    [.cond, .lit "cannot form error result from Error::none()"]⟩,
  ⟨"common/logging/log_format.h", 131, .check, [.cond, .lit "Use of reserved field name 't'"]⟩,
  ⟨"common/logging/log_reader.cxx", 71, .error,
    [.lit "Unable to find log file {} for reading", .store 1]⟩,
  ⟨"common/logging/log_reader.cxx", 77, .error, [.lit "Unable to open log file {}", .store 1]⟩,
  ⟨"common/logging/log_reader.cxx", 107, .error, [.lit "unable to find base log {}", .store 1]⟩,
  ⟨"common/logging/log_reader.cxx", 108, .check,
    [.cond, .lit "Unable to find base log {}", .store 1]⟩,
  ⟨"common/logging/log_reader.cxx", 114, .error, [.lit "Unable to find {}", .store 1]⟩,
  ⟨"common/logging/log_reader.cxx", 115, .check, [.cond, .lit "Unable to find {}", .store 1]⟩,
  ⟨"common/logging/log_reader.cxx", 170, .check,
    [.cond, .lit "Cannot assign multiple callbacks to the same key"]⟩,
  ⟨"common/logging/log_reader.cxx", 231, .info,
    [.lit "exiting read early due to maintenance cb return {}", .store 1]⟩,
  ⟨"common/logging/log_reader.h", 113, .check, [.cond]⟩,
  ⟨"common/logging/log_writer.cxx", 13, .error, [.lit "writing stream {}", .store 1]⟩,
  ⟨"common/logging/log_writer.cxx", 57, .error, [.lit "writing manifest"]⟩,
  ⟨"common/logging/log_writer.h", 87, .check, [.cond, .lit "Cannot re-initialize log stream"]⟩,
  ⟨"common/logging/log_writer.h", 106, .check,
    [.cond, .lit "must initialize stream {} before logging", .store 1]⟩,
  ⟨"common/out.h", 43, .check, [.cond]⟩,
  ⟨"common/out.h", 47, .check, [.cond]⟩,
  ⟨"common/satellite/satellite.cxx", 19, .check,
    [.cond, .lit "Tried to initialize GPS Ephemeris with wrong ID"]⟩,
  ⟨"common/satellite/satellite.cxx", 25, .check,
    [.cond, .lit "Tried to initialize Galileo Ephemeris with wrong ID"]⟩,
  ⟨"common/satellite/satellite.cxx", 31, .check,
    [.cond, .lit "Tried to initialize Glonass Satellite with Kepler ID"]⟩,
  ⟨"common/satellite/satellite.h", 41, .check, [.cond, .lit "Mismatched satellite GNSS system"]⟩,
  ⟨"common/satellite/satellite.h", 42, .check, [.cond, .lit "Mismatched satellite number"]⟩,
  ⟨"common/satellite/satellite.h", 70, .check,
    [.cond, .lit "Tried to get Ephemeris from an empty almanac"]⟩,
  ⟨"common/satellite/satellite.h", 101, .check,
    [.cond, .lit "Tried to get Ephemeris from an empty almanac"]⟩,
  ⟨"common/satellite/satellite_cache.cxx", 28, .check, [.cond]⟩,
  ⟨"common/satellite/satellite_cache.cxx", 29, .check, [.cond]⟩,
  ⟨"common/satellite/satellite_cache.cxx", 41, .check,
    [.cond, .lit "Cannot update satellite cache without almanac"]⟩,
  ⟨"common/satellite/satellite_state.cxx", 23, .check,
    [.cond, .lit "Stale Ephemeris.  MAXDTOE = {}, dt = {}.  eph.toe = {}, t = {}", .store 4]⟩,
  ⟨"core/ekf/rtk_ekf_estimator.cxx", 61, .check, [.cond, .lit "cannot process empty buffer"]⟩,
  ⟨"core/ekf/rtk_ekf_estimator.cxx", 83, .check, [.cond, .lit "unable to retrieve satellite"]⟩,
  ⟨"core/ekf/rtk_ekf_estimator.cxx", 156, .check,
    [.cond, .lit "all measurement timestamps in a GNSS bundle must match"]⟩,
  ⟨"core/ekf/rtk_ekf_estimator.h", 102, .error,
    [.lit "Unable to handle measurement with time {}, oldest state in buffer time {}", .store 2]⟩,
  ⟨"core/ekf/rtk_ekf_estimator.h", 113, .warn, [.lit "Unknown {} Satellite {}", .store 2]⟩,
  ⟨"core/ekf/rtk_ekf_impl.cxx", 129, .check, [.cond]⟩,
  ⟨"core/ekf/rtk_ekf_impl.cxx", 205, .check,
    [.cond, .lit "Number of fix-and-hold measurements must equal the side of the single-differences estimate.  num_sd = {}, num_fix_and_hold = {}", .store 2]⟩,
  ⟨"core/sat_manager.cxx", 39, .dbg, [.lit "Discovered new {} satellite #{}", .store 2]⟩,
  ⟨"core/sat_manager.cxx", 42, .fatal,
    [.lit "{} satellite buffer is full, removing satellite {}", .store 2]⟩,
  ⟨"core/sat_manager.cxx", 50, .dbg, [.lit "Adding ephemeris to {} satellite {}", .store 2]⟩,
  ⟨"core/solver/lambda.cxx", 20, .check, [.cond]⟩,
  ⟨"core/solver/lambda.cxx", 21, .check, [.cond]⟩,
  ⟨"core/solver/lambda.cxx", 22, .check, [.cond]⟩,
  ⟨"core/solver/lambda.cxx", 23, .check, [.cond]⟩,
  ⟨"core/solver/lambda.cxx", 24, .check, [.cond]⟩,
  ⟨"core/solver/lambda.cxx", 41, .check, [.cond, .lit "LᵀDL Solution not positive definite"]⟩,
  ⟨"core/solver/lambda.cxx", 76, .check, [.cond]⟩,
  ⟨"core/solver/lambda.cxx", 77, .check, [.cond]⟩,
  ⟨"core/solver/lambda.cxx", 78, .check, [.cond]⟩,
  ⟨"core/solver/lambda.cxx", 79, .check, [.cond]⟩,
  ⟨"core/solver/lambda.cxx", 80, .check, [.cond]⟩,
  ⟨"core/solver/lambda.cxx", 81, .check, [.cond]⟩,
  ⟨"core/solver/lambda.cxx", 100, .check, [.cond]⟩,
  ⟨"core/solver/lambda.cxx", 101, .check, [.cond]⟩,
  ⟨"core/solver/lambda.cxx", 102, .check, [.cond]⟩,
  ⟨"core/solver/lambda.cxx", 103, .check, [.cond]⟩,
  ⟨"core/solver/lambda.cxx", 104, .check, [.cond]⟩,
  ⟨"core/solver/lambda.cxx", 105, .check, [.cond]⟩,
  ⟨"core/solver/lambda.cxx", 106, .check, [.cond]⟩,
  ⟨"core/solver/lambda.cxx", 128, .check, [.cond]⟩,
  ⟨"core/solver/lambda.cxx", 129, .check, [.cond]⟩,
  ⟨"core/solver/lambda.cxx", 130, .check, [.cond]⟩,
  ⟨"core/solver/lambda.cxx", 131, .check, [.cond]⟩,
  ⟨"core/solver/lambda.cxx", 132, .check, [.cond]⟩,
  ⟨"core/solver/lambda.cxx", 133, .check, [.cond]⟩,
  ⟨"core/solver/lambda.cxx", 176, .check, [.cond]⟩,
  ⟨"core/solver/lambda.cxx", 177, .check, [.cond]⟩,
  ⟨"core/solver/lambda.cxx", 178, .check, [.cond]⟩,
  ⟨"models/imu_model.cxx", 82, .check, [.cond, .lit "NaN detected in covariance on propagation"]⟩,
  ⟨"models/imu_model.cxx", 83, .check, [.cond, .lit "NaN detected in imu acceleration data"]⟩,
  ⟨"models/imu_model.cxx", 84, .check, [.cond, .lit "NaN detected in imu gyroscope data"]⟩,
  ⟨"models/imu_model.cxx", 87, .check,
    [.cond, .lit "IMU Samples must be in order, and spaced more than {}s apart (dt = {})", .store 2]⟩,
  ⟨"models/imu_model.cxx", 114, .check,
    [.cond, .lit "NaN detected in state transition matrix on propagation"]⟩,
  ⟨"models/imu_model.cxx", 115, .check, [.cond, .lit "NaN detected in covariance on propagation"]⟩,
  ⟨"models/imu_model.cxx", 122, .check, [.cond, .lit "finished called on empty IMU model"]⟩,
  ⟨"models/imu_model.cxx", 126, .warn, [.lit "less than two IMU measurements in integrator"]⟩,
  ⟨"models/imu_model.cxx", 131, .check, [.cond, .lit "Nan detected in IMU information matrix."]⟩,
  ⟨"models/imu_model.cxx", 272, .check, [.cond, .lit "Itegrated rotation left manifold."]⟩,
  ⟨"models/imu_model.cxx", 273, .check, [.cond, .lit "start pose rotation left manifold."]⟩,
  ⟨"models/imu_model.cxx", 274, .check, [.cond, .lit "Imu integration time going backwards."]⟩,
  ⟨"models/imu_model.cxx", 301, .check, [.cond, .lit "split time must be in interval"]⟩,
  ⟨"models/imu_state.h", 59, .check, [.cond, .lit "Tried to index ImuState with i<0"]⟩,
  ⟨"models/imu_state.h", 60, .check, [.cond, .lit "Tried to index ImuState with i>=10"]⟩,
  ⟨"models/prange_model.cxx", 29, .check, [.cond, .lit "Cannot create factor without ephemeris"]⟩,
  ⟨"models/relative_carrier_phase_model.cxx", 25, .check,
    [.cond, .lit "Cannot create factor without ephemeris"]⟩,
  ⟨"models/relative_carrier_phase_model.cxx", 26, .check,
    [.cond, .lit "Must perform relative carrier phase differencing with same GNSS constallation"]⟩,
  ⟨"models/relative_carrier_phase_model.cxx", 28, .check,
    [.cond, .lit "Must perform relative carrier phase differencing with same satellite"]⟩,
  ⟨"models/relative_carrier_phase_model.cxx", 30, .check,
    [.cond, .lit "Must perform relative carrier phase differencing with same frequency"]⟩,
  ⟨"models/relative_carrier_phase_model.cxx", 32, .check,
    [.cond, .lit "observation and satellite not from same constellation"]⟩,
  ⟨"models/relative_carrier_phase_model.cxx", 33, .check,
    [.cond, .lit "observation and satellite not the same ID"]⟩,
  ⟨"parsers/ubx/ubx.cxx", 72, .error, [.lit "Did not get requested Ubx version"]⟩,
  ⟨"parsers/ubx/ubx.cxx", 93, .error, [.lit "No Requested Ubx Response"]⟩,
  ⟨"parsers/ubx/ubx.cxx", 165, .info, [.lit "Setting nav rate to {}", .store 1]⟩,
  ⟨"parsers/ubx/ubx.cxx", 232, .warn,
    [.lit "UBX message 0x{x}-0x{x} is too long ({} > {})", .store 4]⟩,
  ⟨"parsers/ubx/ubx.cxx", 280, .warn, [.lit "Ubx failed to parse message"]⟩,
  ⟨"sim/dynamics/car.cxx", 51, .check, [.cond, .lit "Waypoints cannot be empty"]⟩,
  ⟨"sim/sensors/gnss.cxx", 94, .check,
    [.cond, .lit "Unable to find any satellites in ephemeris data"]⟩,
  ⟨"sim/simulate.cxx", 115, .info, [.lit "wrote log to {}", .str]⟩,
  ⟨"tools/gather_ephemeris.cxx", 34, .error, [.lit "Unusual Timestamp"]⟩,
  ⟨"tools/gather_ephemeris.cxx", 35, .error,
    [.lit "Type: {}, sat: {}, t: {}, TOE: {}, dt: {}", .store 5]⟩,
  ⟨"tools/gather_ephemeris.cxx", 41, .info,
    [.lit "Type: {}, sat: {}, t: {}, TOE: {}, dt: {}", .store 5]⟩,
  ⟨"tools/gather_ephemeris.cxx", 67, .warn, [.lit "finished {}: {}", .store 2]⟩,
  ⟨"tools/gather_ephemeris.cxx", 119, .dbg, [.lit "Unsupported satellite Observation"]⟩,
  ⟨"tools/gather_ephemeris.cxx", 123, .error, [.lit "unsupported sig_id {} for {}", .store 2]⟩,
  ⟨"tools/gather_ephemeris.cxx", 133, .info, [.lit "{}, Got {} observations", .store 2]⟩,
  ⟨"tools/gather_ephemeris.cxx", 229, .error, [.lit "Failed to initialize serial port"]⟩,
  ⟨"tools/gather_ephemeris.cxx", 255, .warn, [.lit "Done saving log to {}", .store 1]⟩,
  ⟨"tools/post_process.cxx", 124, .info,
    [.lit "Stale ephemeris: dt = {}.  eph.toe = {}, t = {}", .store 3]⟩,
  ⟨"tools/post_process.cxx", 128, .info, [.lit "gps_eph, {}", .store 1]⟩,
  ⟨"tools/post_process.cxx", 137, .info,
    [.lit "Stale ephemeris: dt = {}.  eph.toe = {}, t = {}", .store 3]⟩,
  ⟨"tools/post_process.cxx", 141, .info, [.lit "gal_eph, {}", .store 1]⟩,
  ⟨"tools/post_process.cxx", 150, .info,
    [.lit "Stale ephemeris: dt = {}.  eph.toe = {}, t = {}", .store 3]⟩,
  ⟨"tools/post_process.cxx", 154, .info, [.lit "glo_eph, {}", .store 1]⟩,
  ⟨"tools/verify_ephemeris.cxx", 26, .error, [.lit "Unusual Timestamp"]⟩,
  ⟨"tools/verify_ephemeris.cxx", 27, .error,
    [.lit "Type: {}, sat: {}, t: {}, TOE: {}, dt: {}", .store 5]⟩,
  ⟨"tools/verify_ephemeris.cxx", 32, .info,
    [.lit "Type: {}, sat: {}, t: {}, TOE: {}, dt: {}", .store 5]⟩,
  ⟨"utils/config.h", 103, .error, [.lit "Unable to convert {}", .store 1]⟩,
  ⟨"utils/config.h", 104, .error, [.lit "{}", .store 1]⟩,
  ⟨"utils/config.h", 114, .check, [.cond, .lit "Missing configuration {}", .store 1]⟩

]

/-! ## The receiver with its message -/

open Verif.Ubx in
/-- What happens to a call of `receive_callback`. -/
inductive Recv
  | done (s : St) (ev : List Event)
  /-- an exception left the callback; the state is the one it left behind, the remaining bytes of
  the call are lost -/
  | threw (s : St) (ev : List Event)
  /-- a write outside the receive buffer -/
  | outOfBounds

/-- The arguments of the message of ubx.cxx 232-233. -/
def overlong : List Arg := [.lit "UBX message 0x{x}-0x{x} is too long ({} > {})", .store 4]

open Verif.Ubx in
/-- ubx.cxx 195-288 with the message of line 232: the message comes before the counter and
`restart()`, and after `length_` and the parse state have been written (228-229).  `vals` is how
the four values are rendered. -/
def stepM (lvl : Nat) (vals : List (List Char)) (s : St) (b : UInt8) : Recv :=
  let len := s.len ||| (b.toNat <<< 8)
  if s.st = .GOT_LENGTH1 ∧ len > BUFFER_SIZE ∧
      call lvl .warn overlong true [] vals = .throws then
    .threw { s with len := len, st := .GOT_LENGTH2 } []
  else
    match step s b with
    | none => .outOfBounds
    | some (s', ev) => .done s' ev

open Verif.Ubx in
/-- ubx.cxx 193-289: one call of `receive_callback`. -/
def runM (lvl : Nat) (vals : List (List Char)) (s : St) : List UInt8 → Recv
  | [] => .done s []
  | b :: bs =>
    match stepM lvl vals s b with
    | .outOfBounds => .outOfBounds
    | .threw s' ev => .threw s' ev
    | .done s' ev =>
      match runM lvl vals s' bs with
      | .outOfBounds => .outOfBounds
      | .threw s'' ev' => .threw s'' (ev ++ ev')
      | .done s'' ev' => .done s'' (ev ++ ev')

end Verif.Messages
