import Mathlib.Data.List.Basic

/-!
# Model of the building and running of the tests

cmake/GTestRule.cmake, script/run_tests.sh, the files CMakeLists.txt (which tests are registered).

Simplifications: names of programs have no blanks, backslashes or newlines (bash's `read` and word splitting leave them alone).  A
program is its exit status and how many characters it takes from its standard input.  `cd ..`, colours and reports are left out.
-/

namespace Verif.Model.TestRunner

/-! ### script/run_tests.sh -/

/-- What a program does when it is run: its exit status, and how much of its input it takes. -/
structure Prog where
  status : ℕ
  eats : ℕ

/-- bash's `read p`: a line without its end and what follows; at the end of the file, even after some characters, it fails. -/
def readLine : List Char → Option (List Char × List Char)
  | [] => none
  | c :: r => if c = '\n' then some ([], r) else (readLine r).map fun x => (c :: x.1, x.2)

/-- `EXIT_CODE`, `PASSED_TESTS`, `FAILED_TESTS` (run_tests.sh 10-12). -/
structure Result where
  exit : ℕ
  passed : List (List Char)
  failed : List (List Char)
deriving DecidableEq

/-- The loop (run_tests.sh 24-34); the programs share the standard input of the loop, the list.  The first number bounds the number of
rounds: a round takes at least one character. -/
def loop (prog : List Char → Prog) : ℕ → List Char → Result → Result
  | 0, _, s => s
  | n + 1, inp, s =>
    match readLine inp with
    | none => s
    | some (p, rest) =>
      let r := prog p
      let s := if r.status ≠ 0 then { s with failed := s.failed ++ [p], exit := 1 } else { s with passed := s.passed ++ [p] }
      loop prog n (rest.drop r.eats) s

/-- run_tests.sh 10-51; without the file `build/test_list` the loop is left out. -/
def runTests (prog : List Char → Prog) (list : Option (List Char)) : Result :=
  match list with
  | none => ⟨0, [], []⟩
  | some f => loop prog f.length f ⟨0, [], []⟩

/-- The last line of the report (run_tests.sh 45-49). -/
def verdict (r : Result) : String := if r.exit = 0 then "All tests passed!" else "There were failed tests"

/-! ### cmake/GTestRule.cmake -/

/-- The build directory: the programs that need not be linked again, the lines of `test_list` and those of the script `run_tests`. -/
structure Build where
  linked : List (List Char)
  list : List (List Char)
  script : List (List Char)

/-- GTestRule.cmake 1-4: what every run of cmake does (make runs it again whenever a CMakeLists.txt has changed). -/
def configure (b : Build) : Build := { b with list := [], script := [] }

/-- Sources of programs change. -/
def touch (s : List (List Char)) (b : Build) : Build := { b with linked := b.linked.filter fun t => decide (t ∉ s) }

/-- GTestRule.cmake 24-36: a program that is linked is appended to both files. -/
def link (b : Build) (t : List Char) : Build :=
  if t ∈ b.linked then b else ⟨b.linked ++ [t], b.list ++ [t], b.script ++ [t]⟩

/-- make: all targets, in an order that depends on the number of jobs. -/
def make (order : List (List Char)) (b : Build) : Build := order.foldl link b

/-- `test_list` as a file; `echo` ends lines. -/
def listFile (b : Build) : Option (List Char) :=
  if b.list = [] then none else some (b.list.flatMap fun t => t ++ ['\n'])

/-- The script `run_tests`: the programs one after the other; its exit status is that of the last command. -/
def runScript (prog : List Char → Prog) (b : Build) : ℕ := b.script.foldl (fun _ t => (prog t).status) 0

/-! ### The registered tests -/

/-- The arguments of `add_gtest` in all CMakeLists.txt (the two of cmake/EkfRule.cmake 50 are generated). -/
def registered : List String :=
  ["scratch/gitlab_ci/gitlab_ci_example.cxx", "scratch/third_party_install/test_eigen_install.cxx",
   "scratch/third_party_install/test_ceres_install.cxx", "common/math/test_so3.cxx", "common/math/test_se3.cxx",
   "common/math/test_quat.cxx", "common/math/test_dquat.cxx", "common/satellite/test_azel.cxx",
   "common/satellite/test_satellite_state.cxx", "common/satellite/test_satellite.cxx", "common/satellite/test_atm_correction.cxx",
   "common/logging/log_format_test.cxx", "common/logging/serialize_test.cxx", "common/logging/log_writer_test.cxx",
   "common/logging/log_reader_test.cxx", "common/ephemeris/test_bit_tools.cxx", "common/ephemeris/test_gps.cxx",
   "common/ephemeris/test_glonass.cxx", "common/ephemeris/test_galileo.cxx", "common/test_error.cxx", "common/test_error_result.cxx",
   "common/test_out.cxx", "common/test_utctime.cxx", "common/test_quantized_time.cxx", "common/test_print.cxx",
   "common/test_hetero_collection.cxx", "common/test_circular_buffer.cxx", "common/test_numerical_jacobian.cxx",
   "utils/test_wgs84.cxx", "utils/test_config.cxx", "models/test_imu_state.cxx", "models/test_imu_model.cxx",
   "models/test_prange_model.cxx", "models/test_gnss_dynamics_model.cxx", "models/test_pose_error_model.cxx",
   "models/test_relative_carrier_phase_model.cxx", "core/factors/test_gnss_factor.cxx", "core/factors/test_imu_factor.cxx",
   "core/factors/test_sw_factor.cxx", "core/factors/test_rel_cp_factor.cxx", "core/states/test_states.cxx",
   "core/solver/test_solver.cxx", "core/solver/test_lambda.cxx", "core/ekf/ekf_gen/example_ekf_test.cxx", "core/ekf/rtk_ekf_test.cxx",
   "core/ekf/rtk_ekf_estimator_test.cxx", "core/test_factor_graph.cxx", "core/test_estimator.cxx", "core/test_sat_manager.cxx",
   "sim/dynamics/test_car.cxx"]

/-- The files of the repository that hold tests (`TEST`, `TEST_F`, `unittest.TestCase`). -/
def testFiles : List String :=
  ["common/ephemeris/test_bit_tools.cxx", "common/ephemeris/test_galileo.cxx", "common/ephemeris/test_glonass.cxx",
   "common/ephemeris/test_gps.cxx", "common/logging/log_format_test.cxx", "common/logging/log_reader_test.cxx",
   "common/logging/log_writer_test.cxx", "common/logging/serialize_test.cxx", "common/math/test_dquat.cxx", "common/math/test_quat.cxx",
   "common/math/test_se3.cxx", "common/math/test_so3.cxx", "common/satellite/test_atm_correction.cxx", "common/satellite/test_azel.cxx",
   "common/satellite/test_satellite.cxx", "common/satellite/test_satellite_state.cxx", "common/test_circular_buffer.cxx",
   "common/test_error.cxx", "common/test_error_result.cxx", "common/test_hetero_collection.cxx", "common/test_numerical_jacobian.cxx",
   "common/test_out.cxx", "common/test_print.cxx", "common/test_quantized_time.cxx", "common/test_utctime.cxx",
   "core/ekf/ekf_gen/example_ekf_test.cxx", "core/ekf/ekf_gen/symb_matrix_test.py", "core/ekf/rtk_ekf_estimator_test.cxx",
   "core/ekf/rtk_ekf_test.cxx", "core/factors/test_gnss_factor.cxx", "core/factors/test_imu_factor.cxx",
   "core/factors/test_rel_cp_factor.cxx", "core/factors/test_sw_factor.cxx", "core/solver/test_lambda.cxx", "core/solver/test_solver.cxx",
   "core/states/test_states.cxx", "core/test_estimator.cxx", "core/test_factor_graph.cxx", "core/test_sat_manager.cxx", "models/test_gnss_dynamics_model.cxx",
   "models/test_imu_model.cxx", "models/test_imu_state.cxx", "models/test_pose_error_model.cxx", "models/test_prange_model.cxx",
   "models/test_relative_carrier_phase_model.cxx", "scratch/gitlab_ci/gitlab_ci_example.cxx",
   "scratch/third_party_install/test_ceres_install.cxx", "scratch/third_party_install/test_eigen_install.cxx",
   "sim/dynamics/test_car.cxx", "utils/test_config.cxx", "utils/test_utctime.cxx", "utils/test_wgs84.cxx"]

end Verif.Model.TestRunner
