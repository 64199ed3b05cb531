# Formal model of rtk_factor_graph (pinned commit in /repo)

Lean 4.33.0 + Mathlib. `lean/Verif/Model/*.lean` hold the model (each definition cites
the file and lines of /repo it models), `lean/Verif/Spec/*.lean` the independent
specifications, `lean/Verif/Lemmas/*.lean` helper lemmas, `lean/Verif/Props/*.lean` the
property theorems with a concrete inhabiting example next to each one.

## Conventions

* **Integers.** C++ integers are modelled by `Int`/`Nat` together with an explicit overflow
  outcome (`none` / `Res.ub`) when overflow is undefined behaviour, and by
  `UInt8/16/32`/`BitVec` when the code relies on wrap-around.
* **Floating point.** `double` is modelled by exact reals (`ℝ`) or rationals. Rounding, NaN
  and infinities are *not* modelled except in `isFinite` (C57), in the sums of C140, in the
  seconds and comparisons of times (C145, C146), in the fields of ephemerides (C147), in the resolution of
  ambiguities (C148), in three loops with floating point tests (C149) and in products of rotations (C150), which
  hold for every rounding to nearest (`Spec/Binary64.lean`). Every theorem about the
  filter, Lie groups (but for C150), LAMBDA (but for C148) and factors is a theorem about the real-number algorithm.
* **`check(cond,msg)`** (common/check.h) prints and calls `exit(-1)`: modelled as a distinct
  abort outcome.
* **Undefined behaviour** (out-of-bounds access, signed overflow, reading dead objects,
  missing precondition of a standard container) is a distinct outcome.
* When the code violates a property, the property's full statement is kept in the file, its
  negation is proved on a concrete witness (theorem name `..._violated...`), and the strongest part that holds
  is proved under the suffix `_partial`.

## Plan per property

| id | what is modelled | how it is proved |
|----|------------------|------------------|
| C01 | circular_buffer.h as slots + head/tail indices | refinement to a bounded list deque, simulation + induction over op sequences |
| C02 | same | invariant of the refinement, arithmetic mod N |
| C03 | same | violated: witness theorem; partial = C01 under the precondition |
| C04 | liveness bit per slot | violated (pop_back destroys the past-the-end slot); partial: histories with only emplace_back/pop_front/clear are clean |
| C05 | utctime.cxx comparisons | `<,>,==,!=` proved; `<=,>=` violated when seconds agree; partial for different seconds |
| C06 | utctime.cxx + - wrapNsec | Int arithmetic, omega |
| C07 | utctime.cxx +/- double, double as rational | floor/truncation lemmas |
| C08 | fromGPS, GpsWeek, GpsTow with int32 overflow outcome | violated for tow_ms % 1000 != 0 and week >= 3551; partial otherwise |
| C09 | fromGlonass..., 32-bit mixed arithmetic | same shape as C08 |
| C10 | quantized_time.cxx | Int arithmetic on nanosecond counts |
| C11 | same | violated: non-transitivity and overflow witnesses; partial bounds |
| C12 | bit_tools.h getBit loop | loop invariant, value as big-endian number; spec by bits |
| C13 | setBit loop | loop invariant; bit-wise spec |
| C14 | getBitGlo | corollary of C12 |
| C15 | crc.cxx crc24 and table | table checked by kernel against bitwise LFSR; linearity; polynomial spec; burst detection by induction |
| C16 | crc.cxx gloTest | linear code: syndrome of an error pattern; kernel-decided over the 85 positions / pairs then lifted by linearity |
| C17 | gps.cxx parse state machine | violated (IODE compare with itself, stale repeat); partial: on clean histories |
| C18 | galileo.cxx parse | violated (repeat report, week drift); partial |
| C19 | glonass.cxx parse | invariant over histories |
| C20 | ubx.cxx receive_callback/decodeMessage | induction over payload, then over frames |
| C21 | same | invariant over byte streams |
| C22 | same | violated for zero length; partial for all other states |
| C23 | sendMessage | corollary with C20 |
| C24 | serialize.h codecs | codec combinators with round-trip + prefix property |
| C25 | StreamReader on truncated bytes | see findings; partial |
| C26 | LogReader::read k-way merge | measure + invariant; sortedness and permutation |
| C27 | key formatting | violated; partial for keys below 10 digits pattern |
| C28 | satellite.h addEph | invariant by induction |
| C29 | findClosestEphemeris | uses sortedness |
| C30 | sat_manager | refinement to map while below capacity; eviction outcome |
| C31 | lambda.cxx LTDL over ℝ | induction on the outer loop |
| C32 | reduction/permute/gauss | each step preserves the invariant; termination: after a swap the later columns are short, so products of pivots take finitely many values |
| C33 | search over any ordered field with floor, lambda over ℝ | loop invariant: every point before the current one in zigzag order is stored or too far; measure for termination; violated beyond the bound 1e18 |
| C34 | argsort | permutation + sortedness |
| C35 | estimator addMeasurement/rollFilter | simulation: states buffer = snapshots of the in-order fold |
| C36 | same | violated for equal time; partial via C35 |
| C37 | same | violated for sub-quantum; partial |
| C38 | same | invariant |
| C39 | Meas::operator< | direct |
| C40 | predict/update over real matrices | Mathlib PosSemidef |
| C41 | doUpdate decision logic | direct |
| C42 | copy_state | violated; partial for all fields except t |
| C43-C48 | quat.h, dquat.h, so3.h, se3.h over ℝ | ring/linear_combination |
| C49 | imu_model Evaluate/computeEndState | algebra; violated for non-zero linearisation bias |
| C50 | imu_model split on sample time stamps | list lemmas; violated near samples |
| C51 | relative carrier phase | violated unless wavelength² = 1; partial |
| C52 | gnss dynamics | affine identity |
| C53 | symb_matrix.py, symb_algebra.py, symb_block_matrix.py | meaning of expressions as matrices stored in a larger square matrix; factoring steps proved for all sound comparisons, the code's ones related to them by a guard; violated for differences, identities of other sizes, scalars before the first factor, comparison without counting |
| C54 | pid.cxx | clamp; anti-windup dead code theorem |
| C55 | strip/split string | induction |
| C56 | ms_to_stamp | omega; violated ≥ 1 day |
| C57 | isFinite on extended values | violated for infinities |
| C58 | rk4.h | algebra |
| C59 | sampleGpsEph | violated; partial |
| C60 | rate limiting | induction |
| C61 | sat/sign | order lemmas |
| C62 | gps.cxx frame1-3 on raw integers | bit-numbered spec (IS-GPS-200), loop lemma for getBit |
| C63 | galileo.cxx frame0-5, page stitching, CRC input | bit-numbered spec (OS SIS ICD); violated for bits >= 112 and flags |
| C64 | glonass.cxx frame1-5 | bit-numbered spec (GLONASS ICD) |
| C65 | utctime conversions | violated for every second; partial: differences |
| C66 | glonass.cxx reference time | violated (almanac day); partial: exact formula |
| C67 | quat.h exp/log over ℝ | polar form of atan2; violated in the Taylor branch (overloads differ) |
| C68 | quat.h from_euler, roll, pitch, yaw | rotation matrix entries; violated at gimbal lock |
| C69 | quat.h/so3.h/se3.h/dquat.h conversions and constructors | matrix algebra; violated for opposite vectors and for from_4x4 |
| C70 | dquat.h exp/log | field algebra; violated for the representative with real part -1 |
| C71 | so3.h, se3.h exp/log | trigonometry of trace and axis; violated near half a turn |
| C72 | exp/log Jacobians of so3.h, se3.h, quat.h, dquat.h | derivatives along lines (`HasDerivAt`), matrix inverses; violated near half a turn |
| C73 | doUpdate with the residual and Jacobian of the models | linearised residual after the update; violated |
| C74 | h<...> of rtk_ekf_impl.cxx | derivative along `x ⊞ t dx` (Lemmas/LieCurve); Doppler row violated |
| C75 | dynamics, errorStateDynamics | derivative of the relative pose rate; three blocks violated |
| C76 | handleObsMeas | violated: gnss_id stays zero |
| C77 | gating of variable-size measurements | violated: depends on unused memory |
| C78 | h<obsMeas> over a bundle | violated above thirty |
| C79 | dynamics | derivative of the inertial velocity; violated |
| C80 | Jacobians of ImuModel::Evaluate | derivative of the residual along perturbations; pose blocks violated |
| C81 | dynamics, errorStateDynamics, integrate | derivatives along disturbances, induction over the samples |
| C82 | integrate | induction over the samples, closed form; violated in the position |
| C83 | dStatedBias | induction over the samples with derivatives; accelerometer columns exact, gyroscope columns violated |
| C84 | integrate, split, computeEndState | induction over the samples, composition of motions |
| C85 | finished | kernel of the covariance along the history |
| C86 | RelativeCarrierPhase::Evaluate Jacobians | derivative along perturbations; exact up to the Sagnac term |
| C87 | PseudorangeModel::Evaluate Jacobians | derivative along perturbations; exact rows for diagonal weights, violated otherwise |
| C88 | PoseError::Evaluate | zero set of the logarithm; overloads and signs violated |
| C89 | eph2Sat: Kepler's equation | quadratic convergence with explicit constants, six steps |
| C90 | eph2Sat: velocity | derivative of the position along the exact anomaly; error bound; violated by the harmonics and at perigee |
| C91 | eph2Sat: clock | exact deviation; relativistic term equals -2 r v / c^2; violated |
| C92 | eph2Sat: geometry | Kepler's laws and vis-viva for uncorrected orbits |
| C93 | glonassOrbit | Jacobi integral along solutions; symmetries, also of the RK4 step |
| C94 | eph2Sat (GLONASS) | termination and step decomposition; dependence on the previous state violated |
| C95 | light time loops | contraction; existence, uniqueness, termination, accuracy |
| C96 | antenna velocity in the simulator | derivative along the motion |
| C97 | simulated accelerometer | violated; exact condition; partial |
| C98 | integration of the simulated motion | violated; exact error; partial |
| C99 | waypoint command | violated; bounds, turn; partial |
| C100 | car controller | violated; exact result; partial |
| C101 | geodetic coordinates to positions | proved |
| C102 | positions to geodetic coordinates | proved, with bounds of the error |
| C103 | local frame | proved |
| C104 | azimuth and elevation | proved |
| C105 | tropospheric delay | range and monotonicity proved; boundedness and continuity violated |
| C106 | ionospheric delay | range above the horizon proved; violated below |
| C107 | ekf_gen_matrix_manip.py: propagation and measurement update | assignments run on block values; each commit step proved for all configurations, the whole matrices compared with the Kalman formulas; the project's two configurations instantiated by evaluation in the kernel; that the generator gets through is proved for every configuration without scalars, by the normal forms of the blocks and what their factors have in common |
| C108 | the same | violated: one-dimensional states, coupled states of variable size, measurements of no state; proved for every configuration without these three |
| C109 | the same | the matrix of blocks flattened to one of numbers and Mathlib's `PosSemidef`; prediction by congruence, update by the form of Joseph; histories by induction |
| C110 | `Model/LogFormat.lean`: the yaml header, `make_dtype`, `np.fromfile` | the list of all numbers in a value with their names and indices, written per class (`Spec/LogFormat.lean`); the stream theorem holds for every pack of described types and is instantiated for the streams of the simulator and the estimator |
| C111 | `Model/EkfDense.lean`: the assignments that the generator writes for dense forms, run on memory that starts uninitialised | blocks one after the other at the sums of the sizes before them (`Spec/EkfDense.lean`); every position lies in exactly one block |
| C112 | the exponentials and logarithms of C45, C67, C70, C71 and their coefficients | Mathlib's sine, cosine and arctangent; explicit remainders (`Lemmas/TrigSeries.lean`); `log(exp(x))` compared with `x` for every angle down to zero |
| C113 | `Model/Config.lean`: a yaml node as a tree; `get`, `encode`, `decode`, the functions of the post processor that read deviations | the node at the end of a path (`Spec/Config.lean`), independent of the loop; the text of a number is read by an arbitrary partial function |
| C114 | `Model/PostProcess.lean`: `LogReader::read` with the callbacks of the post processor, over the merged records | lists of samples, stretches of observations split at gaps (`Spec/PostProcess.lean`); times as in C07 |
| C115 | `Model/PostInit.lean`: the transform and the input of `getState` | directions north, east, up of C103 at the place found by C102; the simulated accelerometer of C97 |
| C116 | `Model/EkfState.lean`: the class `State` of every configuration and its operators | `Spec/EkfState.lean`: elements in use, members of the groups, equality to 30 billionths |
| C117 | `Model/QuatMem.lean`: quaternions as objects with a buffer and a map, memory as a partial function | `Spec/QuatMem.lean`: cells alive, changed, apart |
| C118 | `Model/Gather.lean`: the two listeners of the gathering tool, on the modelled GPS, GLONASS and Galileo parsers | `Spec/Gather.lean`: carriers from the interface documents, one object per satellite |
| C119 | `Model/LogWriter.lean`: the log writer on a file system of directories, names and contents | `Spec/LogWriter.lean`: the files of a finished log as a function of the calls |
| C120 | `Model/LogOpen.lean`: opening a log with a number of calls; the choice of the latest log | `Spec/LogOpen.lean`: chains of amendments, the first log with a stream |
| C121, C122 | `Model/SimRun.lean`: the simulation loop with the sensors' timing and the places of the five random generators; `Model/FloatSim.lean`: the times of the run in `double`s | `Spec/SimRun.lean`: the records of each step in closed form, the number each source of noise uses |
| C123 | `Model/NumJac.lean`: `perturb`, `difference`, `compute_jac` and the six older functions | `Spec/NumJac.lean`: curves with a bounded third derivative |
| C124 | `Model/Messages.lean`: `print.cxx`, `check.cxx`, the overloads of `print.h`, the replacement fields of fmt, the table of all calls, `receive_callback` with its message | `Spec/Messages.lean`: texts with holes, severities |
| C125 | `Model/Progress.lean`: `progress_bar.cxx` with the infinities and NaN of its divisions, the clock in milliseconds as an input, sequences of calls | in `Props/Progress.lean`: what a cell should show, the average pace, the number of early lines |
| C126 | `Model/Streams.lean`: tables of all calls of `initStream`, `log`, `get` and `getNext` with their types, the file of the estimates with its covariance, `getNext` of the truth, the residuals of the observations, `plot_keys.py`, the keys `plot_post_process.py` looks up | the reading of C110 (`Spec/LogFormat.lean`); positions in an enumeration |
| C127 | `Model/Imu.lean`, `Model/ImuState.lean`: `ImuState` from a vector, its sum, difference and index | unit quaternions; equality to 30 billionths |
| C128 | `Model/Calendar.lean`: `fromCalendar`, `str`, `operator<<`, the constructors, `+ int`, `week`, `Random`; `timegm` and `gmtime` of the C library | `Spec/Calendar.lean`: leap years, lengths of months, the day after a day, how decimal texts are read |
| C129 | `Model/Rtklib.lean`: `timediff`, `satsys`, `satno`, `eph2pos`, `geph2pos`, `ionmodel`, `tropmodel` and the conversions to their structures, over the reals | the other implementation, `Model/Orbit.lean` and `Model/Wgs84.lean` |
| C130 | `Model/RtkGal.lean`: `getbitu`, `getbits`, `decode_gal_inav`, `gst2time`, `epoch2time`, `time2epoch` | the other implementation, `Model/Galileo.lean`; the bit fields of `Spec/Bits.lean`; the Gregorian day numbers of C128 |
| C131 | `Model/Copies.lean`: many `CircularBuffer`s with their storages and the pointers between them, their implicit copies; `ImuErrorState` with its maps as an object in memory, its implicit copies | in `Props/Copies.lean`: each buffer holds what its own calls make of it; `Spec/QuatMem.lean`: memory |
| C132 | `Model/Sdr.lean`: `date2gps` and `gps2date` in integers and exact fractions, overflow and conversions out of range distinct; the adapter with the memory it leaves uninitialised as a parameter | `Spec/Calendar.lean`: the calendar by counting days |
| C133 | `Model/Sdr.lean`: `satpos`, `xyz2llh`, `ltcmat`, `ecef2neu`, `neu2azel`, `ionosphericDelay`, `computeRange` over the reals, the loops with a bound on their iterations, the circle number a parameter of the ionosphere | in `Props/Sdr.lean`: `place`, the point at a latitude, longitude and height; Kepler's equation; derivatives; the models of the code |
| C134 | `Model/Errors.lean`: errors as pointers into a memory of texts, results as a sum, the macros as functions of a state, the argument of `RETURN_OR_ASSIGN` evaluated as often as its text stands in the macro | in `Props/Errors.lean`: `once`, `handOn`, `before` |
| C135 | `Model/Json.lean`: the writer and the mutually recursive reader on bytes, what is left of the text for the offset, reading behind the terminating zero and exceptions distinct, `double` as exact fractions | `Spec/Json.lean`: `rounded`, the value with six digits after the point; `Good`, the values the library makes; `Spec/JsonText.lean`: the grammar of JSON texts as trees with text and value |
| C136 | `Model/Args.lean`: the automaton of decimal numbers, `consume`, the loop over arguments and compound arguments, `validate`, the declarations of the four programs, `stoi`; errors, exceptions and the help as distinct outcomes | in `Props/Args.lean`: `Decimal`, the grammar of numbers; `line`, the command line made of pairs of options and values |
| C137 | `Model/CrcLib.lean`: `Reflect`, `Finalize`, `UndoFinalize`, `CalculateRemainder` for reflected input, plain input and widths below 8, with and without table and branches, integers truncated to their type; the 51 parameter sets | `Spec/CrcLib.lean`: polynomials over ZMod 2; `Check`, the remainder of start and message |
| C138 | `Model/Evaluate.lean`: `Evaluate` of the five factors as sequences of assignments to rectangles of row-major maps in memory; null pointers skip; references are addresses read again by each statement; the product in place of `ImuModel` reads what the statements before it have written | `Spec/Evaluate.lean`: `RowMajor`, `Ready` (what the solver guarantees), `Asked`, `Only` |
| C139 | `Model/Graph.lean`: the classes of states, `HeteroCollection` with its index sequence, the factors with their references, `FactorGraph` with its ring of nodes; a reference is an address, destroyed objects are absent from the heap | `Spec/Graph.lean`: `Typed` (what the compiler checks), `block`, `expects` (the blocks the models read; tied to C138 by `C139_expects`) |
| C140 | `Model/TestHelpers.lean`: doubles as reals, infinities and NaN with the comparisons of IEEE; the loops of `matrixClose`, the cells of the two layouts of its report, the loops over the elements of quaternions | `Spec/TestHelpers.lean`: `Close`, `Holds`; rotations and translations by `Quat.R` and `DQuat.translation` |
| C141 | `Model/TestHelpers.lean`: the loops of random.h with the sequence given, `int width` | the bounds |
| C142 | `Model/Plot.lean`: structured arrays as their type and records, the renaming of `t`, `extract`, `bottom_field`, panels as lists of lines, `interp1d`, the calls of plot_post_process.py | `Spec/Plot.lean`: `Leads`, `Value`, `lineOf`, `onLine`; the records of `Spec/LogFormat.lean` |
| C143 | `Model/Plot.lean`: `np.unique`, the grid of panels, the loops of plot_obs.py | `Spec/Plot.lean`: `series` |
| C144 | `Model/TestRunner.lean`: the loop of run_tests.sh with the shared standard input, the list that linking appends to and cmake removes, the registered tests | `Spec/TestRunner.lean`: `Right` |
| C145, C146 | `Model/FloatTime.lean`: the operations of `UTCTime` and `QuantizedTime` on `double`s with a rounding after each operation; `rnd` is nearest, ties to even | `Spec/Binary64.lean`: `F` (the finite doubles), `Nearest` (every rounding to nearest) |
| C147 | `Model/Scale.lean`: the decimal literals of eph.h and the rounded products of integer fields with them | `Spec/Scale.lean`: units of the interface specifications as reals |
| C148 | `Model/FloatLambda.lean`: the loops of lambda.cxx over an arbitrary arithmetic (`Ops`, `SOps`), its instances with a rounding after each operation, and with integers that are lost above 2^53 | in `Props/FloatLambda.lean`: whole numbers (`Whole`), determinant of the integer matrix, `Zᵀ (x - incr) = z`; in `Props/FloatSearch.lean`: a result for all large enough bounds on the iterations; the instance with exact arithmetic is the model of C31-C33 (`C148_exact_model`) |
| C149 | `Model/FloatLoops.lean`: the three loops with a rounding after each operation; sine and cosine are arbitrary functions close to the real ones | `Spec/Binary64.lean` and `Spec/RealRounding.lean` (rounding to nearest as a property, on ℚ and ℝ); Kepler's equation (`KeplerEq`), the remainder `t - ⌊t/86400⌋·86400`, the sum of the steps; `C149_glonass_model` ties the unrounded loop to the model of C94 |
| C150 | `Model/FloatQuat.lean`: products, rotations of vectors, `normalize` and `exp` with a rounding after each operation; sine and cosine are arbitrary functions close to the real ones | `Spec/RealRounding.lean`; Mathlib's quaternions with their norm and product (`hamilton`), Mathlib's exponential series of quaternions; the exact `rotp` and `rota` of C43-C44 |
| C151 | `Model/GenNames.lean`: `make_camel`, `make_snake` and the names made of them, the files of the rule and of the generator; ASCII | `Spec/GenNames.lean`: `Snake` |
| C152 | `Model/Gate.lean`: `compute_max_mahal` with the grid, `argmin` of numpy with NaN, the comparison of the generated update; the distribution function of scipy is assumed right and NaN for zero degrees of freedom | `Spec/Gate.lean`: `chi2`, by Mathlib's product of standard normal distributions |
| C153 | light time loops with two ephemerides (`Props/LightTimeSwitch.lean`: `switch`) | `Received` as in C95; `Statement` |
| C154 | `Model/QuatInPlace.lean`: `normalize`, `invert` on the memory of C117, functions left with or without `return` | `Spec/QuatMem.lean`; length and multiples by numbers |
| C155 | `Model/Jet.lean`: `operator==` of quaternions, dual quaternions and jets, the identity jets | `SameMotion`: every point taken to the same place |
| C156 | `Quat::log` as in C67 | `C156_statement`: both quaternions of a rotation, lengths by numbers |

## Findings

Each of these is a theorem (`..._violated` / `..._statement_false`) about the model of the code as it is.

* C03 `pop` on an empty ring buffer; C04 `pop_back` destroys the wrong slot.
* C05 `<=`, `>=` on equal seconds ignore nanoseconds.
* C08, C09 milliseconds are scaled by 10^9 instead of 10^6; C08 `int` overflow from week 3551.
* C11 quantised equality is not transitive; comparison with `INVALID_TIME` overflows.
* C17 subframe 3's IODE is overwritten before it is compared; damaged preamble repeats a report.
* C18 foreign word 4 changes the clock; repeated reports add 1024 weeks; messages shorter than 32 bytes.
* C63 the last 16 data bits of a Galileo word are read from behind the checksum (galileo.cxx 128:
  `i * 8 + 122` for the 16 bits that start at bit 130); validity flags are read one bit early.
* C65 leap seconds are added to GPS time instead of subtracted: 36 s against GLONASS, always.
* C66 the GLONASS reference day is the almanac day.
* C36 a measurement that arrives after others of the same time but sorts before them makes those be
  applied twice (the snapshot of that time is kept by the rewind); an IMU sample that arrives after a
  fix of the same time is ignored.  C35 fails for the same reason.
* C37 a measurement up to 50 us older than the oldest snapshot passes the quantised staleness test and
  the exact rewind empties the buffer; an IMU sample 0-50 us after the current state aborts in
  `predict`; an observation of a satellite evicted from the manager (29 per constellation) aborts.
* C33 `search` starts with the bound 1e18; candidates beyond it are never stored, their slots keep distance 0
  and the final sort puts them first.  `lambda` with one candidate reads `sqrd_norms(1)`; ambiguities of
  2^31 cycles or more overflow the conversion in `modf`.
* C45 `Quat::from_two_unit_vectors` of opposite vectors is 0/0.
* C46 `DQuat(T, T, ..., T)` (eight arguments) never writes the real and dual part.
* C67 `Quat::log(jac)` multiplies by the fifth power of `w` (`n5 / 5 * w5`) where `log()` divides by it.
* C68 at pitch 90 degrees roll and yaw are both reported as 0.
* C70 the Taylor branch of `DQuat::log` has no `1/w`, so the translation by `t` written with real part -1
  has the logarithm of the translation by `-t`.
* C70 the Taylor coefficient `5/24` in `DQuat::log` is wrong: a screw motion by one Earth radius is off by 15 mm
  inside the branch, and the overload with Jacobian uses the branch up to 2e-3 rad, off by more than a metre from
  the other overload.
* C48 the Taylor branch of `SO3::exp` is not a rotation: `RᵀR` differs from the identity, by at most 1e-25.
* C69 `fromTwoUnitVectors` does not turn `u` into `-u`; `DQuat::from_4x4` negates the translation compared with
  `SE3`.
* C71 `SO3::log` (and so `SE3::log`) returns the logarithm of the inverse rotation when the trace is near -1.
* C72 near half a turn the Jacobian of `SO3::log` times the Jacobian of `exp` is minus the identity, and at
  exactly half a turn the coefficient is 0/0 in both `SO3::log` and `Quat::log`.
* C73 an accepted update moves the estimate away from the measurement (sign of residual and Jacobian).
* C74 the Doppler row omits the turning of the line of sight and the Sagnac term.
* C75 the state Jacobian omits `-ω × δp`, the drift of the clocks, and has the attitude column of the velocity
  rows for gravity rotated the other way.
* C76 every observation is compared with the GPS clock.  C77 gating reads uninitialised memory.  C78 more than
  thirty observations write out of bounds.
* C79 a tilted body at rest is predicted to accelerate; a coasting, turning body is predicted to curve.
* C49 the bias adjustment of `ImuModel::Evaluate` multiplies the whole bias, not its difference from the bias used
  for integration, so the residual at the predicted end state is not zero.
* C50 `split` aborts when a sample is between 50 and 100 us after the split time; within 50 us after a sample the
  first part ends at the sample and the second starts at the split time.
* C80 the velocity and bias Jacobians of `ImuModel::Evaluate` are the derivatives. The pose Jacobians have an extra
  factor, the rotation of the start pose, so they are wrong whenever the pose is turned; the tests check them at the
  identity only.
* C82 the position is integrated with the velocity at the start of each interval, so uniform acceleration gives
  too small a position, by half the acceleration times the sum of the squared intervals.
* C83 the position row of the gyroscope columns has a second-order term the state itself does not have.
* C51 the relative carrier phase factor multiplies the change of range by the wavelength to get cycles; it has to be
  divided. The test builds its measurements with the same multiplication.
* C86 the relative carrier phase Jacobians omit the change of the Sagnac correction with the position of the antenna.
* C87 four of the six pseudorange Jacobians use only the diagonal of the weight, while the residual uses the whole
  matrix: any correlation between range and Doppler makes them wrong. The Doppler rows leave out the turning of the
  line of sight.
* C88 `PoseError` gives a different residual when the Jacobian is requested (the two logarithms differ), and a pose
  written with the opposite sign has the opposite translation error.
* C90 `eph2Sat` evaluates the second harmonics of the rates at the corrected argument of latitude and those of the
  position at the uncorrected one, so the velocity is not quite the derivative of the position; the difference is
  bounded by `C90_error_partial` (below a micrometre per second for broadcast orbits). On the line of apsides the rate
  of the true anomaly is `0/0`: a message with mean anomaly zero has a NaN velocity at its reference time, and the
  light time loop is then never entered.
* C91 The first order clock term uses the time since the time of ephemeris, the quadratic one the time since the clock
  reference time; the drift lacks the factor two of the quadratic term.
* C94 The GLONASS propagation starts from whatever the output argument holds: a state filled in from an older message,
  or from another satellite, is propagated on and the new position and velocity of the message are ignored. The age of
  the message is not checked.
* Simulator, ephemeris replay (C59): `sampleGpsEph`, `sampleGloEph`, `sampleGalEph` test `logged time >= now`. An
  ephemeris is handed out while its time has not come; once the clock has passed the first time left, nothing is handed
  out any more; with nothing left `front()` of an empty vector is read.
* Simulator, accelerometer (C97): gravity is turned with `rota`, from the body to the world, and the reading lacks the
  turn of the velocity `w x v`. Right only where the two errors cancel; in a steady turn no sideways force is measured.
  Also (not modelled): both bias walks use the noise deviation and not the walk deviation of the options.
* Simulator, motion (C98): `plus` advances the pose with the old acceleration; each change of the acceleration leaves an
  error of half of the change times the square of the step.
* Simulator, waypoints (C99): a waypoint exactly behind gives full speed and no turn, as the speed is an even power of the
  cosine. `current_waypoint_` has no initial value. The threshold is the arcsine of an angle, used as a sine.
* Simulator, controller (C100): the yaw command is halved, mass and inertia are not used, and `Sim::step` calls
  `controller(t(), …)` with the time of the last step, so that both PID controllers see a time step of zero and never use
  their derivative or integral gains. The simulated observations have no time (`obs->t` is not set).
* Troposphere (C105): the delay is that of the zenith divided by the sine of the elevation, so that it exceeds every bound
  just above the horizon (and is zero at it); it drops from at least half a metre to zero above 10 km.
* Ionosphere (C106): there is no guard for negative elevations; at the nadir the delay is more than 27 m, and at the
  elevation of -0.11 semicircles the earth-centred angle is a division by zero. One delay is used for all frequencies.
  The leap seconds are added to the time of the week a second time (see C65).
* `azEl2Los` (azel.h 23-25) is declared and not defined.
* Symbolic block algebra (C53). Sums, products of blocks whose sizes fit, transposes and products of matrices of blocks mean
  the matrix operations. Subtraction does not: the sign of a transpose or a sum is not what is printed (A - Bᵀ is A + Bᵀ,
  A - (B + C) is A + B + C, 0 - (B + C) is B - C), a second sign is ignored (A - (-B) is A - B), and the sign of an identity
  or of a product is lost in a product. An identity or a zero of any size is accepted as a factor. A scalar to the right
  of a matrix and a product of two scalars raise, because the assertions of `Mult` look at the last term instead of the last
  term that is not a scalar; two of the project's own tests (symb_matrix_test.py 216-228, 256-268) need such products. `reduce`
  keeps the meaning when blocks found equal are the same and the factor split off is not a scalar; the code takes a scalar
  for the first factor of a product of two (A + A + A * C becomes 2 * (A + C)), and compares scalars and sums without
  counting (s * s * t * A + s * t * t * A becomes 2 * s * s * t * A). It does not end on a sum with a transpose or on
  A * Bᵀ + A * Cᵀ, and raises for A + B * A with variable sizes. The generator uses no subtraction.
* Filter generator (C107, C108, C109). The generated assignments compute the Kalman formulas for every configuration that is
  accepted, in particular for rtk_ekf.yaml and example_ekf.yaml with all their measurements. Of the update, the correction and
  the covariance P - K H P are covered; the text of the C++ code, the gate and the order of arguments are not. A covariance block
  below the diagonal has a symbol of its own in the model, and its equality with the transpose of the one above is the
  hypothesis `Symmetric`; the blocks are not assumed to be stored without aliases, because no assignment reads a block below the
  diagonal after one above it was written. Expressions are values in the model, whereas `reduce` changes them in place.
  No code is generated (the generator raises) for a one-dimensional state with dynamics, for a state of variable size that
  depends on itself and on a state without dynamics, and for a measurement without states. Every configuration without
  scalars, without such states and without such measurements gets its code.
* C110: the header of a log stream and its bytes disagree for all three kinds of ephemeris. GPS: the header lists `iode1`,
  `iode2`, `iode3`, `collected_subframes`, which `serialize` does not write (232 against 228 bytes per record). Galileo:
  `collected_subframes`, `time_f`, `iod` (276 against 255). GLONASS: nine members too many and one `toe` too few (199 against
  182). So `log_reader.py` finds fewer records than were logged, none in a file with one, and from the second on takes the
  numbers from the wrong bytes. Matrices with more than one row and column are written by columns and read by rows (a
  square one comes out transposed). A vector with its length set at run time has a header without numbers. Two arguments
  with the same name share an entry; an argument called `type`, `rows` or `cols` makes the reader raise an exception. All
  other types and names are proved right. Not modelled: arguments of `log` with other types than those of `initStream`
  (test_car.cxx 31 logs `Vec2::Zero()`, an Eigen expression without `data()`, so the bytes of the expression object are
  written), the text of the yaml file, the added field with the time in seconds.
* C111: the getter of the block of two different variable states is declared with the arguments in the order of the Python set
  `{"int num_a", "int num_b"}` and called with those of `{"num_a", "num_b"}`. The orders depend on the hashes of different texts,
  which change from run to run of the generator; when they differ, the counters are exchanged and the block does not fit
  (`C111_arguments_violated`). `fix_and_hold` in rtk_ekf.yaml, a variable measurement of a variable state, has such a block.
  `State::size()` counts elements instead of dimensions (`C111_size`: right exactly when all active variable
  elements have one dimension). `Covariance(const ProcessCovariance&)` leaves all blocks between states uninitialised
  (`C111_from_process_violated`), and the blocks of variable states too, because `tile` names blocks and never assigns them
  (`C111_tile_violated`).
* C112: all polynomials used near the identity are the right ones but those of `DQuat::log` (dquat.h 290-306): the first
  term of the factor of the rotation is `1` and should be `1 / w`, and the polynomial for the coupling of rotation and
  translation starts with `5/24` where the closed form tends to `-2/3` (`C112_dquat_log_violated`).  The round trip of dual quaternions is
  therefore only good to `1e-8` (`C112_dquat_round`); those of the other three groups are good to `1e-17` or better.
* C113: `get` of a matrix does not look at the length of the list: one with too few numbers is read beyond its end
  (`C113_short_violated`). A required value that is there but has the wrong form is silently left as it was
  (`C113_required_violated`, `C113_number_violated`). The delivered rtk_ekf_post_process.yaml has both kinds of problem: `obs_stdev` is missing, so
  the program stops before it begins (`C113_shipped_violated`), and `sd` is a number where a list is read, so its variances
  come from uninitialised memory (`C113_shipped_sd_violated`). Not modelled: anchors and tags of yaml, the conversion of
  texts to numbers (an arbitrary partial function in the theorems), exceptions of other types from the conversion of elements.
* C114: `getState` puts the time of the log into a local variable and returns a state whose time is 1970; the 45 s
  are measured from there, so the first record of any real log ends the run (`C114_nothing_violated`). The `_partial` theorems take the start
  as a parameter and say what the rest of the program does with the right one. A second epoch that is logged within 10 ms of the first is
  dropped (`C114_dropped_violated`).  Not modelled: that the truth stream is erased in one branch, the contents of the filter (C107).
* C115: `getState` multiplies the real part of `T_I2e` by the heading and leaves the dual part, so that the result is no rigid motion and its
  origin is not the configured place: `C115_exact` gives it in closed form, `C115_place_violated` bounds the error from below by
  `6200 km * (1 - cos (heading / 2))` (236 m for one degree, more than 1800 km for 90), and a heading of 360 degrees puts the origin
  on the opposite side of the earth (`C115_full_turn_violated`). The axes are turned from north towards west for a positive heading. Only heading zero is right
  (`C115_place_partial`). The acceleration of the initial input subtracts gravity in the body frame, which is right for level attitudes
  only (`C115_input`, `C115_input_violated`).
* C116: for every configuration `(x + dx) - x` is `dx` to 30 billionths (exactly for vectors) up to turns of 3.14 radians (`C116_round`), `x - x = 0`
  (`C116_self`), `y + (x - y) = x` if the elements are apart (`C116_back_partial`); not for a pose stored with the other sign
  (`C116_back_violated`: the step goes the opposite way). `x - y` loops over the counter of `x`: with fewer elements in `y` the difference is made of
  stale memory (`C116_counter_violated`). `isFinite` also tests the elements not in use, which sum and copy leave uninitialised, so that whether
  `predict` stops depends on them (`C116_finite_violated`). `x + dx` does not carry the time over, `x += dx` does (`C116_plus`, `C116_assign`).
* C117: copies and assignments of quaternions are sound for every position in memory, overlaps included (`C117_copy`, `C117_assign`, `C117_dual`).
  `q *= q` is not the square: the comma initialiser stores each element before the next is computed (`C117_mul_violated`, closed form; wrong for all unit
  quaternions whose `w` is not 1, -1 or -1/2). `Quat(Ref<const Vec4>)` of a constant vector writes through to it, of an expression it dangles
  (`C117_ref_violated`). The eight-number constructor of `DQuat` leaves parts that never follow its numbers, not even after an assignment
  (`C117_eight_violated`). The implicit copy constructor of `ImuErrorState` leaves `alpha`, `beta`, `gamma` mapped to the original (`C117_error_violated`).
* C118: the gathering tool selects and orders observations correctly and never mixes satellites or constellations (`C118_observations_partial`,
  `C118_satellites`, `C118_constellations`, `C118_window`). But it takes `freq_id` for the GLONASS channel, so all GLONASS frequencies are 3.9375 or
  3.0625 MHz too high (`C118_glonass_violated`); the time of all observations is 1970 (`C118_time_violated`), although the estimators use it; the
  Doppler is stored in Hz where m/s of the opposite sign are expected (`C118_doppler_violated`); 61 to 127 measurements read past the array, 128 and
  more record nothing (`C118_count_violated`); the tracking status is ignored (`C118_status_violated`); a finished GPS ephemeris is logged again
  by a damaged subframe (`C118_repeat_violated`).
* C119: the files are exactly those of the calls (`C119_files`), and two seconds never share a name (`C119_id`). But the destructor closes again, so the end
  time given to `close` never survives the object (`C119_end_violated`); a log of the same second is deleted (`C119_same_second_violated`); opening again
  without closing keeps the old streams (`C119_reopen_violated`).
* C120: a log opens exactly if its amendments end, are closed and have streams (`C120_chain`, `C120_only`, `C120_endless`), and what was written opens
  (`C120_written`); names sort as times to the year 9999 (`C120_order`, `C120_latest`). But a log without streams cannot be opened (`C120_empty_violated`), and
  a simulation that writes next to its ephemeris log deletes it and amends itself, so that opening it never ends (`C120_simulate_violated`).
* C121: with a step of at least a nanosecond the run ends as configured and its records are given in closed form (`C121_run`, `C121_ends`, `C121_interval`). But smaller or negative
  steps are accepted and never end (`C121_endless_violated`), and with the default options the IMU gives 100 instead of 250 samples per second (`C121_rate_violated`).
  In doubles the times are the exact ones: 300 s at the default step are exactly 30000 steps of 10 ms without drift (`C121_doubles`, `C121_default`).
* C122: all generators start from the same seed, one for each template instantiation, so every noise of the GNSS, of the clock and of the input is also a noise of the IMU
  (`C122_shared_violated`, `C122_first_violated`, `C122_statement_false`); only sources of one generator are uncorrelated (`C122_uncorrelated_partial`). The biases walk with the measurement noise,
  not with the configured walk (`C122_walk_violated`), and their variance halves when the rate doubles (`C122_rate_violated`).
* C123: `compute_jac` is exact for quadratic functions and otherwise off by at most a sixth of the squared step times the third derivative (`C123_vec`, `C123_quadratic`, `C123_quat_fun`).
  At the default step both the exponential and the logarithm use their series; on quaternions this costs less than `1e-40` (`C123_quat_default`), on dual quaternions the columns of the rotations
  lose a part of `1e-16` (`C123_dquat`). The wrong coupling in the series of `DQuat::log` (C112) is multiplied by zero there, so these tests cannot see it.
* C124: the warning about an over-long UBX message (ubx.cxx 232) has the replacement field `{x}`, which in fmt names an argument; there is none, so `fmt::vprint` throws `format_error` (`C124_overlong_violated`).
  Six received bytes therefore make `receive_callback` throw (`C22_exception_violated`). The exception comes after `length_` and the parse state are written and before `restart()`: if the caller survives it,
  the next 2049 bytes write past the end of the receive buffer (`C124_resumed_violated`). At levels that hide warnings neither happens (`C124_receiver_partial`).
  simulate.cxx 115 `info("wrote log to {}", log.logId())` passes the text where the overload expects a condition and prints only the identifier (`C124_log_id_violated`).
  `error` and `fatal` are compiled in only up to level `WARN`: at `ERROR` no errors, at `ERROR` and `FATAL` no fatal messages appear and a failed `check` exits silently (`C124_levels_partial`, `C124_silent_exit_violated`).
* C125: the time still needed is converted to `int` unchecked: after 34 ms and one of 100 million items it does not fit, which is undefined behaviour (`C125_long_violated`);
  so is a line printed with nothing completed or nothing to do (`C125_zero_violated`). Two lines in the same millisecond make the displayed rate infinite or NaN for good (`C125_rate_violated`).
  Every run whose milliseconds times its items fit into an `int` is defined (`C125_safe_partial`).
* C126: the stream of the estimates (post_process.cxx 209-226) announces eight values and logs nine; the ninth, the covariance, is not in the header, so Python reads the first estimate right and then covariances as estimates,
  and never the right number of records (`C126_estimate`, `C126_estimate_violated`, `C126_second_violated`). post_process.cxx 76 reads two of the three values of `TRUTH_POSE`: the first call is right (`C126_truth`),
  after it the clock is taken for a stamp (`C126_truth_violated`; the program calls it once). The residuals of all systems go to `GPS_OBS_RESIDUAL` with the satellite number only (`C126_residuals_violated`),
  and plot_post_process.py looks up streams nobody writes, so it raises `KeyError` on every log (`C126_plot_violated`).
* C127: `(x + d) - x` is `d` (the turn to 30 billionths), `x - x = 0`, `y + (x - y) = x` unless the turns are equal to 4 millionths or opposite (`C127_round`, `C127_self`, `C127_back_partial`);
  a turn stored with the opposite sign is lost (`C127_back_violated`).
* C118, C48, C53, C97, C100, C110, C116, C117, C124, C125 have further theorems in `Props/Rest.lean`: among them `C118_stale_violated` (the Galileo parser decodes words that were not received,
  from what the subframe before left in the buffer), `C97_gyro` (the gyroscope is right) and `C116_vectors` (error states are a vector space).
* C128: dates are converted right, to the nearest nanosecond, and back (`C128_calendar`, `C128_round_trip`, `C128_str`). The milliseconds are printed without leading zeros, so the text reads as the wrong time
  unless they are 0 or at least 100 (`C128_fraction_violated`, `C128_str_statement_false`); negative spans print as dates of 1969 (`C128_print_violated`); printing `INVALID_TIME`, `MIN_TIME` or `MAX_TIME`
  dereferences a null pointer (`C128_invalid_violated`). Negative numbers of seconds or nanoseconds give times that are not normalised (`C128_pair_violated`, `C128_seconds_violated`), so do two of three
  random times (`C128_random_violated`); `week` counts week 0 twice (`C128_week_violated`).
* C129: positions, the delay of the troposphere and (above the horizon) that of the ionosphere are those of the copy of RTKLIB (`C129_gps_partial`, `C129_glonass_partial`, `C129_troposphere`, `C129_ionosphere_partial`).
  Clocks of GPS differ by the drift times the time from clock to ephemeris (`C129_clock_violated`, `C129_statement_false`), anomalies within 1e-13 of perigee (`C129_perigee_violated`), Galileo by the gravitational
  constant (`C129_galileo_violated`; no Galileo number exists in this build of the reference, `C129_numbers`), GLONASS states that were filled in before (`C129_seeded_violated`), and satellites below the horizon
  by the whole delay of the ionosphere (`C129_ionosphere_violated`).
* C130: bit fields, orbit, clock and times of the six words are those of the copy of RTKLIB up to week 2524 of Galileo (`C130_bits`, `C130_words_partial`), and so is the calendar from 1970 to 2099
  (`C130_dates`, `C130_epoch`, `C130_calendars`). The code takes words whose time is not valid (`C130_time_violated`), keeps the issue of data modulo 256 (`C130_issue_violated`), takes a bit of the
  health of E1 for the validity of E5b (`C130_health_violated`) and overflows from week 2528 on (`C130_overflow_violated`); the reference has a 29 February 2100 (`C130_2100_violated`).
* C131: the compiler copies the pointers of a ring buffer, so a copy works in the storage of the original (`C131_storage_violated`, `C131_shared_violated`), counts its elements from the original's first one (`C131_size_violated`: 2^64 - 1)
  and destroys them, so that destroying both destroys every element twice (`C131_destroy_violated`); no program of the repository makes such a copy, but nothing forbids it. The maps of a copied `ImuErrorState` refer to the original
  (`C131_error_violated`; test_imu_state.cxx 47 makes one) and assigning to the copy overwrites the original (`C131_through_violated`). Without copies all is well (`C131_own`, `C131_error`, `C131_assign_partial`).
* C132: the adapter `toSdr(UTCTime)` assigns the week (since 1970) to the seconds and leaves the week uninitialised, for every time (`C132_adapter_violated`); the date of a converted ephemeris is computed from that memory, with overflow for
  some contents (`C132_junk_violated`). The calendar is right to 28 February 2100 (`C132_days`, `C132_dates`) and wrong after it (`C132_2100_violated`).
* C133: the adapter does not fill the working variables `sq1e2`, `A`, `omgkdot` that `satpos` reads (`C133_working_violated`; `satpos` is not declared in the header, so nothing calls it); `computeRange` overwrites the caller's position
  (`C133_overwritten_violated`; the test passes `sat_state.pos.data()`). Filled, the position agrees with the code's (`C133_position`), the velocity is the true one, unlike the code's (`C133_velocity`), the clock differs as C90 and C129 say (`C133_clock`).
* C134: `RETURN_OR_ASSIGN` evaluates its argument twice: `n` assignments from a list take every second value (`C134_skips_violated`) or throw (`C134_throws_violated`); it is right for calls that can be repeated (`C134_assign_partial`).
  `RETURN_IF_NOT_OK(err)` reads its own uninitialised variable (`C134_hygiene_violated`). Equal texts at different addresses are unequal errors (`C134_texts_violated`), the assertion against empty messages cannot fail (`C134_empty_violated`), a local array is accepted and dangles (`C134_local_violated`), printing `Error::none()` reads a null pointer (`C134_print_violated`).
* C135: a number alone is read back as null (`C135_number_violated`); `double`s keep six digits after the point only (`C135_small_violated`); keys set by `operator[]` are written unescaped (`C135_key_violated`); `\u` escapes are not decoded (`C135_unicode_violated`);
  an exponent loses its first digit unless it has a plus sign (`C135_exponent_violated`); an open string is read behind its end (`C135_open_violated`); malformed texts are read as values (`C135_malformed_violated`). Everything else survives, for all values (`C135_round_trip_partial`, `C135_again`), and the reader always ends (`C135_ends`). Nothing in the project uses the library.
* C136: `gather_ephemeris --baudrate fast` ends in an exception nothing catches (`std::invalid_argument` is no `std::runtime_error`), and `115200x` and `-1` are taken as baudrates (`C136_baudrate_violated`). The other programs never do so (`C136_safe`), and all four accept exactly the lines meant (`C136_accepts`, `C136_one`, `C136_two`, `C136_gather_partial`).
* C137: the library does not reflect the initial value with the input (`C137_initial_violated`): a check like CRC-16/RIELLO, whose initial value is not its own mirror image, would come out wrong; none of the 51 offered is affected (`C137_catalogue`). The comment of `UndoFinalize` promises the original remainder always, but bits above the width are lost (`C137_undo_violated`); continuing a check is right all the same (`C137_parts`). Nothing in the project includes the library; its `crc24` agrees with it (`C137_crc24`).
* C138: the residual of `PoseError` is another one if its Jacobian is asked for (`C138_pattern_violated`, from C88), so a solver compares costs of two functions. `GnssDynamics` keeps a reference to its weights although its comment calls it a value: built from a temporary it reads dead memory (`C138_reference_violated`), and changing the vector afterwards changes the residual (`C138_weights_violated`); the other factors do the same with `T_e2r`.
* C139: only factor `Imu` has the states its model reads. `RelativeCarrierPhase`, `Gnss` and `GnssSwitch` have fewer states than the `Evaluate` of the models reads blocks (`C139_models_violated`), and in another order (`C139_order_violated`): handed to a solver as they are, `parameters[k]` is read past its end. No constructor registers a factor with its states, so `base_items` of a state stays empty (`C139_links_violated`); a factor keeps references to states that may be gone (`C139_gone_violated`).
* C140: `err > tol` is false for a NaN, and a relative error with an infinite element is `inf / inf`: `matrixClose` accepts NaN and infinite numbers for every finite one (`C140_nan_violated`, `C140_allnan_violated`), as `quatClose` does with quaternions of NaN (`C140_nanquat_violated`). All 354 comparisons of the tests would pass if the code computed NaN. The sign of a quaternion is taken from the product of the real parts alone: a half turn is refused for its negative, the same rotation (`C140_halfturn_violated`), and so are nearly equal quaternions on both sides of a half turn (`C140_edge_violated`). What `quatClose` and `dquatClose` do accept of unit quaternions is close (`C140_rotation`, `C140_translation`).
* C141: `const int width` cuts the width to an integer: with bounds less than one apart every element is the lower bound (`C141_width_violated`), with bounds too far apart the conversion is undefined (`C141_overflow_violated`).
* C142: plot_post_process.py uses as many records of the truth as there are estimates; when the truth is logged more often, they end before the estimates do and `interp1d` raises an exception (`C142_range_violated`). The clock of Galileo is drawn twice and that of GLONASS, which is logged, never (`C142_clock_violated`). All other keys lead to what they name (`C142_calls`), and the plots of truth and samples show what was logged (`C142_truth`, `C142_rotation`, `C142_imu`); the estimates are misread before (C126).
* C143: with one satellite on one frequency in a constellation `plt.subplots` gives a row instead of rows, and `zip` fails (`C143_single_violated`); constellation 4 is not in the table (`C143_unknown_violated`); when an observation without frequency comes first no panel gets a title (`C143_titles_violated`). The column is called `obs` in all logs, not `x` (`C143_column_violated`). The title of the residuals is always `doppler` (`C143_title_violated`), 30 satellites fail the assertion (`C143_many_violated`).
* C144: cmake removes `test_list` each time it runs, which make does by itself whenever a CMakeLists.txt has changed, and only programs that are linked again come back: the other tests are no longer run, and `All tests passed!` is printed even when none was (`C144_reconfigure_violated`, `C144_missing_violated`). A program that reads its standard input takes the rest of the list (`C144_stdin_violated`). The script `run_tests` has the status of its last program (`C144_script_violated`). utils/test_utctime.cxx and symb_matrix_test.py are in no list (`C144_registered_violated`). In a fresh directory, as in the pipeline, all is right (`C144_fresh`, `C144_runs`).
* C145, C146: rounding, left out of C05-C11, does no harm: for every rounding to nearest a sum with seconds is right to two nanoseconds up to 104 days and all comparisons of differences are the exact ones, also the spacing of IMU samples, the age accepted by `eph2Sat` and the sampling of the simulated sensors (`C146_imu`, `C146_fresh`, `C146_due`). Truncation does lose a nanosecond: adding the double nearest to 15.7 ms adds 15699999 ns (`C145_decimal_lost`). `UTCTime(double)` of a negative number that is not whole is not normalised, and `<` then puts it on the wrong side of an earlier time (`C145_negative_violated`). Beyond 146 years a sum may be a second wrong (`C145_beyond`).
* C147: eight of the fifteen powers of two in eph.h (2^-32, 2^-33, 2^-34, 2^-40, 2^-43, 2^-46, 2^-55, 2^-59) are decimal literals with too few digits: the compiler rounds them to a neighbour of the power of two, so that no non-zero eccentricity, clock drift, drift rate, Galileo clock offset or group delay, or GLONASS frequency deviation is decoded exactly although all of them are doubles (`C147_never_exact_violated`). The error is harmless, at most 2^-50 relative and 2^-48 for the Galileo drift rate.
* C148: nothing in lambda.cxx checks that the transformation stayed below 2^53 or that the rounded inverse is one; the theorems give the conditions. The search ends in doubles for conditional variances up to 2^20, factors up to one and ambiguities up to 2^41 (`C148_search_ends`); for an ambiguity of 2^120, which nothing rejects, it never ends (`C148_search_beyond`). Decorrelation leaves factors of at most a half and no conditional variance above the largest (`C148_factors`), so that the resolution as a whole ends (`C148_lambda_ends`).
* C149: the time of day in `ionosphericDelay` can be exactly 86400 (`C149_midnight`: a local time just below zero), outside the range the two loops are there for; the phase is then the one of midnight, so nothing follows from it. The GLONASS loop does not end for a difference of 2^60 s (`C149_glonass_beyond`); `MAXDTOE` is tested against the GPS ephemeris only.
* C150: no class of the project normalises a quaternion after a product. The drift is bounded: an hour of IMU samples at 250 per second leaves the length within 1.3e-8 of one (`C150_compose`, with `C150_exp` for the factors: `C150_integrate`). The rotation itself stays within 2.6e-8 of the product of the exact rotations (`C150_integrate_accuracy`).
* C151: the names of the generated files are those of the rule exactly when the configuration has a name in snake case (`C151_files`): `ekf_2d.yaml` gives `ekf2d.h`, and `RtkEkf.yaml` gives `rtk_ekf.h`, which the build does not look for. States called `pos_2d` and `pos2d` share their members (`C151_digit_violated`). `includes` of ekf_gen_utils.py 22-26 forgets the closing quote; its result is passed to a template that does not use it.
* C152: the generator takes one degree of freedom less than the measurement has elements. A consistent measurement then passes with a smaller chance than configured (`C152_chance_violated`), and a measurement with one element never does: scipy gives NaN for zero degrees of freedom, numpy's `argmin` the index of the first NaN, the limit is 0.0 and every residual but zero is rejected (`C152_scalar_violated`). The filter in use has probability one everywhere and is not affected; the example has 0.5, 0.99 and 0.95.
* C153: the light time loops ask for the closest ephemeris at every step and have no bound on their steps. With 300 metres between two ephemerides at the switch there are receptions for which the loop goes to and fro for ever (`C153_endless_violated`); as long as the jump times the speed is at most 2.9e5 m²/s (72 metres at four kilometres per second) it ends from every start (`C153_ends_partial`).
* C154: `Quat::invert` has no `return`, so that every call is undefined behaviour (`C154_invert_violated`); the memory is right where its body ends (`C154_invert_partial`). Nothing in the repository calls it.
* C155: `==` compares the numbers. A dual quaternion and its opposite are the same motion and not equal (`C155_sign_violated`); these are the only such pairs (`C155_motion`), and with positive scalar parts `==` is right (`C155_equal_partial`).
* C156: `Quat::log` does not bring the scalar part to a positive sign. The lengths for the two quaternions of a rotation add to a full turn (`C156_sum`), so that for a negative scalar part the logarithm, and with it the differences and residuals made of it, is the long way round (`C156_long_violated`). Near minus the identity the other branch of the code takes the short way, so that the logarithm jumps by nearly a full turn (`C156_jump_violated`). For scalar parts that are not negative it is at most half a turn (`C156_short_partial`).
* C129: in the reference, an unknown accuracy of a Galileo satellite becomes a variance of one square metre, less than for a satellite known to be good to six metres (`C129_unknown_violated`); `var_uraeph` squares the marker −1. The other systems get the largest variance (`C129_ura`).
* Not modelled for the filter: the text of the generated code (but for names, C151); hash-dependent order of arguments in the generator is in C111 only.
* C19 `int` overflow for four-year intervals from 19 on.

## Trusted base

Lean's kernel; Mathlib's definitions; the axioms `propext`, `Classical.choice`,
`Quot.sound` (listed per theorem by `#print axioms`, no others are used). The
correspondence between /repo and the model definitions is by reading; every definition
carries its citation and its simplifications.
