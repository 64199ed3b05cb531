import Verif.Model.LogFormat
/-!
# Model of the streams of the programs: what is announced, written, read and plotted

tools/post_process.cxx 75-79, 208-226, sim/simulate.cxx 86-111, core/ekf/rtk_ekf_estimator.cxx 37-46,
110-170, tools/gather_ephemeris.cxx 52-88, plotting/plot_keys.py, tools/plot_post_process.py 21-27,
common/logging/log_reader.py 49-68.

Types are given by name in the tables (`Ty`); `Log` (Model.Logging, Model.LogFormat) gives their
bytes.  The generated class `Covariance` has no `data()`, so serialize.h 56 writes its object
representation: a list of bytes of a fixed length, which is left open.  Tests are left out.
-/
namespace Verif.Log.Streams

/-! ### Types announced, written and read -/

/-- The C++ types that occur. -/
inductive Ty where
  | int | vec (n : Nat) | dquat | twoJet | imu | obs | gps | gal | glo | covariance
deriving DecidableEq

/-- log_key.h 10-24. -/
inductive Key where
  | imuSample | gnssObs | gpsEph | galEph | gloEph | truthPose | gpsObsResidual | galObsResidual
  | gloObsResidual | pointPosResidual | fixAndHoldResidual | estimate
deriving DecidableEq, Repr

/-- The value of an enumerator without initialiser is its position. -/
def Key.value : Key → Nat
  | .imuSample => 0 | .gnssObs => 1 | .gpsEph => 2 | .galEph => 3 | .gloEph => 4
  | .truthPose => 5 | .gpsObsResidual => 6 | .galObsResidual => 7 | .gloObsResidual => 8
  | .pointPosResidual => 9 | .fixAndHoldResidual => 10 | .estimate => 11

/-- The programs that write or read logs. -/
inductive Program where
  | simulate | postProcess | gather | verify
deriving DecidableEq, Repr

/-- A call of `initStream`, `log`, `get` or `getNext`: program, line, key and types. -/
structure Site where
  program : Program
  line : Nat
  key : Key
  types : List Ty
deriving DecidableEq

/-- All calls of `initStream`: simulate.cxx 86, 88, 89; rtk_ekf_estimator.cxx 39, 41, 43 (called by
post_process.cxx 214; `Residual` and `ZType` of `point_pos` are `Vec6`, `Residual` of `fix_and_hold`
is `Vec<30>`); post_process.cxx 209; gather_ephemeris.cxx 52 (for each of its three kinds of
ephemeris), 88. -/
def initSites : List Site :=
  [⟨.simulate, 86, .truthPose, [.twoJet, .dquat, .vec 2]⟩,
   ⟨.simulate, 88, .imuSample, [.imu]⟩,
   ⟨.simulate, 89, .gnssObs, [.obs]⟩,
   ⟨.postProcess, 39, .gpsObsResidual, [.int, .vec 2, .vec 2, .vec 2]⟩,
   ⟨.postProcess, 41, .pointPosResidual, [.vec 6, .vec 6, .vec 6]⟩,
   ⟨.postProcess, 43, .fixAndHoldResidual, [.vec 30, .vec 30, .vec 30]⟩,
   ⟨.postProcess, 209, .estimate,
     [.dquat, .vec 3, .vec 3, .vec 3, .vec 3, .vec 2, .vec 2, .vec 2]⟩,
   ⟨.gather, 52, .gpsEph, [.gps]⟩, ⟨.gather, 52, .galEph, [.gal]⟩, ⟨.gather, 52, .gloEph, [.glo]⟩,
   ⟨.gather, 88, .gnssObs, [.obs]⟩]

/-- All calls of `log`: simulate.cxx 95, 101, 111; rtk_ekf_estimator.cxx 115, 141, 169;
post_process.cxx 223; gather_ephemeris.cxx 72, 147. -/
def logSites : List Site :=
  [⟨.simulate, 95, .gnssObs, [.obs]⟩,
   ⟨.simulate, 101, .imuSample, [.imu]⟩,
   ⟨.simulate, 111, .truthPose, [.twoJet, .dquat, .vec 2]⟩,
   ⟨.postProcess, 115, .pointPosResidual, [.vec 6, .vec 6, .vec 6]⟩,
   ⟨.postProcess, 141, .fixAndHoldResidual, [.vec 30, .vec 30, .vec 30]⟩,
   ⟨.postProcess, 169, .gpsObsResidual, [.int, .vec 2, .vec 2, .vec 2]⟩,
   ⟨.postProcess, 223, .estimate,
     [.dquat, .vec 3, .vec 3, .vec 3, .vec 3, .vec 2, .vec 2, .vec 2, .covariance]⟩,
   ⟨.gather, 72, .gpsEph, [.gps]⟩, ⟨.gather, 72, .galEph, [.gal]⟩, ⟨.gather, 72, .gloEph, [.glo]⟩,
   ⟨.gather, 147, .gnssObs, [.obs]⟩]

/-- All calls of `get` and `getNext`: sim/sensors/gnss.cxx 69, 76, 83; verify_ephemeris.cxx 48, 53,
58; post_process.cxx 76, 120, 133, 146, 233, 243. -/
def readSites : List Site :=
  [⟨.simulate, 69, .gpsEph, [.gps]⟩, ⟨.simulate, 76, .galEph, [.gal]⟩,
   ⟨.simulate, 83, .gloEph, [.glo]⟩,
   ⟨.verify, 48, .gpsEph, [.gps]⟩, ⟨.verify, 53, .galEph, [.gal]⟩, ⟨.verify, 58, .gloEph, [.glo]⟩,
   ⟨.postProcess, 76, .truthPose, [.twoJet, .dquat]⟩,
   ⟨.postProcess, 120, .gpsEph, [.gps]⟩, ⟨.postProcess, 133, .galEph, [.gal]⟩,
   ⟨.postProcess, 146, .gloEph, [.glo]⟩,
   ⟨.postProcess, 233, .imuSample, [.imu]⟩, ⟨.postProcess, 243, .gnssObs, [.obs]⟩]

/-! ### Files -/

/-- log_writer.h 102-114 when more is logged than was announced: the bytes of the values of the
announced types and the bytes of the rest. -/
def extraFile (cs : List Col) (rs : List (Stamp × Row cs × List UInt8)) : List UInt8 :=
  rs.flatMap fun r => Codec.enc r.1 ++ (rowEnc cs r.2.1 ++ r.2.2)

/-- post_process.cxx 209-211. -/
def estimateCols : List Col :=
  [{ name := "pose", α := Pose }, { name := "vel", α := Vector F64 3 },
   { name := "omg", α := Vector F64 3 }, { name := "acc", α := Vector F64 3 },
   { name := "p_ecef", α := Vector F64 3 }, { name := "gps_clk", α := Vector F64 2 },
   { name := "gal_clk", α := Vector F64 2 }, { name := "glo_clk", α := Vector F64 2 }]

/-- post_process.cxx 223-225: the file of the estimates; the list of bytes is `ekf.cov()`. -/
def estimateFile (rs : List (Stamp × Row estimateCols × List UInt8)) : List UInt8 :=
  extraFile estimateCols rs

/-- What simulate.cxx 111 logs. -/
abbrev Truth := TwoJet × Pose × Vector F64 2

/-- post_process.cxx 76, log_reader.h 83-91: `getNext<TwoJet, DQuat>`; the members of the entry are
not initialised (`old`). -/
def getTruth (old : TwoJet × Pose) (r : Reader) : (Stamp × (TwoJet × Pose)) × Reader :=
  let g := r.get old
  ((r.next, g.1), g.2)

/-! ### The residuals of the observations -/

/-- A record of `GPS_OBS_RESIDUAL`. -/
structure ObsRecord (V : Type) where
  satId : Int32
  res : V
  z : V
  zhat : V

/-- rtk_ekf_estimator.cxx 161-171: one record per observation of the bundle, all under the key
`GPS_OBS_RESIDUAL`; the observations are given by `gnss_id`, `sat_num`, measured value and
residual. -/
def logResiduals {V : Type} (sub : V → V → V) (bundle : List (UInt8 × UInt8 × V × V)) :
    List (Key × ObsRecord V) :=
  bundle.map fun o =>
    (.gpsObsResidual, ⟨Int32.ofNat o.2.1.toNat, o.2.2.2, o.2.2.1, sub o.2.2.1 o.2.2.2⟩)

/-! ### Python -/

/-- `[A-Z_0-9]`. -/
def keyChar (c : Char) : Bool :=
  (decide ('A' ≤ c) && decide (c ≤ 'Z')) || c == '_' || (decide ('0' ≤ c) && decide (c ≤ '9'))

/-- plot_keys.py 18: `re.findall(r"([A-Z_0-9]+),?", text)`: the longest runs of characters of the
class (a comma is not in the class); `w` is the run so far. -/
def findKeys : List Char → List Char → List (List Char)
  | w, [] => if w = [] then [] else [w]
  | w, c :: cs =>
    if keyChar c then findKeys (w ++ [c]) cs
    else if w = [] then findKeys [] cs else w :: findKeys [] cs

/-- plot_keys.py 20-22: a later key of the same name wins. -/
def keyDict : Nat → List (List Char) → List Char → Option Nat
  | _, [], _ => none
  | i, k :: ks, q =>
    match keyDict (i + 1) ks q with
    | some v => some v
    | none => if k = q then some i else none

/-- log_key.h 11-24: what stands between the braces. -/
def enumText : String :=
"
    IMU_SAMPLE,
    GNSS_OBS,
    GPS_EPH,
    GAL_EPH,
    GLO_EPH,
    TRUTH_POSE,
    GPS_OBS_RESIDUAL,
    GAL_OBS_RESIDUAL,
    GLO_OBS_RESIDUAL,
    POINT_POS_RESIDUAL,
    FIX_AND_HOLD_RESIDUAL,
    ESTIMATE
"

/-- plot_keys.py 27. -/
def logKeys (name : String) : Option Nat :=
  keyDict 0 (findKeys [] enumText.toList) name.toList

/-- log_reader.py 49-68: the keys of the streams of a log and of the logs it amends; a log is given
by the program that wrote it. -/
def loaded (chain : List Program) : List Nat :=
  chain.flatMap fun p => (initSites.filter fun s => s.program = p).map fun s => s.key.value

/-- `data[LOG_KEYS[name]]` for each name in turn; `none` is the `KeyError`. -/
def lookups (chain : List Program) (names : List String) : Option (List Nat) :=
  names.mapM fun n =>
    match logKeys n with
    | none => none
    | some k => if k ∈ loaded chain then some k else none

/-- plot_post_process.py 22-27. -/
def plotNames : List String :=
  ["ESTIMATE", "TRUTH_POSE", "IMU_SAMPLE", "GPS_OBS_RESIDUAL", "GAL_OBS_RESIDUAL",
   "GLO_OBS_RESIDUAL"]

end Verif.Log.Streams
