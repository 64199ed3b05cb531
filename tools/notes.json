{
 "C01": {
  "note": "Refinement to a bounded list deque for every N >= 2 and every legal history."
 },
 "C02": {
  "status": "proved",
  "note": "Observers proved; a negative index passed to operator[] is shown to address the wrong slot (outside the property's range)."
 },
 "C03": {
  "note": "Violated on the empty buffer (proved for every N); the non-empty case is proved."
 },
 "C04": {
  "note": "Violated by pop_back, push_back/push_front and eviction by *_front; proved for emplace_back/pop_front/clear histories."
 },
 "C05": {
  "note": "<= and >= are wrong at equal seconds; the other operators proved."
 },
 "C06": {
  "note": ""
 },
 "C07": {
  "note": "Doubles are exact rationals."
 },
 "C08": {
  "note": "Wrong for fractional seconds and overflowing from week 3551; proved for whole seconds below week 3550."
 },
 "C09": {
  "note": "Wrong for fractional seconds; proved for whole seconds up to 2038."
 },
 "C10": {
  "note": ""
 },
 "C11": {
  "note": "Equality is not transitive and comparison with INVALID_TIME overflows; the rest proved."
 },
 "C12": {
  "note": "Big-endian template and run-time variants, unsigned and signed, on every mapped buffer."
 },
 "C13": {
  "note": "Written field reads back, every other bit unchanged."
 },
 "C14": {
  "note": "Sign-magnitude value as an exact integer."
 },
 "C15": {
  "note": "CRC equals the polynomial remainder over GF(2); bursts up to 24 bits and odd error counts detected for messages of every length."
 },
 "C16": {
  "note": "Acceptance characterised by the Hamming syndrome; double errors rejected, single errors accepted only in the check bits."
 },
 "C20": {
  "note": "Every framed message of 1..2048 payload bytes; streams of frames with sync-free filler."
 },
 "C21": {
  "note": "No out-of-bounds write for any byte stream; every dispatch is the frame that ends at that byte. The exception of C124 ends the program, as nothing catches it; a caller that survived it would write past the buffer (C124_resumed_violated)."
 },
 "C22": {
  "note": "A zero-length frame traps the parser for ever (proved for every continuation); it is the only trap of the state machine: otherwise recovery within 2054 bytes. With its warning shown an over-long header makes the callback throw instead of restarting (C22_exception_violated)."
 },
 "C23": {
  "note": "The bytes written are the frame for every length; the receiver accepts it except for empty payloads, which trap it."
 },
 "C28": {
  "note": "Invariant over every sequence of addEph calls, and refusal of ephemerides of other satellites."
 },
 "C29": {
  "note": "Every sorted almanac and every query time; the empty case is covered separately."
 },
 "C30": {
  "note": "Lookup after every delivery history; no eviction below capacity; unsupported constellations are an abort outcome."
 },
 "C34": {
  "note": "Permutation and sortedness for every vector over a linear order."
 },
 "C54": {
  "note": "The output is bounded when the limit is non-negative; the anti-windup branch never pulls the integrator back, shown on a witness and in general."
 },
 "C55": {
  "note": "Every string, delimiter and character set; the token list is the only one with the stated properties."
 },
 "C56": {
  "note": "The days term is dropped, so durations of a day or more are wrong; below one day the stamp value is exact."
 },
 "C57": {
  "note": "Infinite entries are accepted; only NaN is detected."
 },
 "C61": {
  "note": "Over every linearly ordered field."
 },
 "C24": {
  "note": "All integer, floating, fixed-size, class and ephemeris types and all sequences; containers sized at run time are not recovered unless the destination already has the right size (violation proved for every content)."
 },
 "C25": {
  "note": "Exact description of the deliveries for every cut; a cut inside the data of a record delivers a torn record, every other cut is clean."
 },
 "C26": {
  "note": "Any number of streams of different types from bytes to callbacks; the only excluded records are those stamped with the last second of the int64 range, which end the stream."
 },
 "C27": {
  "note": "Exact characterisation of the colliding pairs of keys."
 },
 "C17": {
  "note": "Field provenance for every history; violated: IODE of subframe 3 is never compared (gps.cxx 181 overwrites what it read) and damaged preambles repeat the old report."
 },
 "C18": {
  "note": "Exact report condition and field provenance for every history. Violated: word 4 of another satellite overwrites the clock; repeated reports without word 0 add 1024 weeks each until the int product overflows; size is ignored."
 },
 "C19": {
  "note": "Exact for four-year intervals below 19; overflow from 19 on (violated)."
 },
 "C62": {
  "note": "All 29 fields against the IS-GPS-200 bit tables, any object state, any message length."
 },
 "C63": {
  "note": "All fields that end before data bit 112 are exact. Violated: the last 16 data bits are taken from behind the checksum, the two validity flags one bit early."
 },
 "C64": {
  "note": "All fields against the GLONASS ICD bit numbers, any object state."
 },
 "C65": {
  "note": "GPS times are 36 s later than GLONASS times for every second 2017-2038: leap seconds added instead of subtracted."
 },
 "C66": {
  "note": "Reference time uses the almanac day NA instead of the current day NT; right exactly when the two agree."
 },
 "C35": {
  "note": "False when measurements of one timestamp arrive against the order of their kinds, or times differ by less than half a quantum; otherwise proved for every filter, every delay pattern and every accepted history (ephemerides fixed)."
 },
 "C36": {
  "note": "Same-epoch measurements can be fused twice and a same-time IMU sample ignored (witnesses); once-only proved under the conditions of C35, for the fused kinds."
 },
 "C37": {
  "note": "Three ways to lose the state or abort are exhibited; no failure for separated times and at most 29 satellites per constellation, for every interleaving of measurements and ephemerides."
 },
 "C38": {
  "note": "Invariant of every history of calls that returns."
 },
 "C39": {
  "note": "All triples of measurements."
 },
 "C31": {
  "note": "All dimensions, all symmetric matrices; also shows the final check decides positive definiteness."
 },
 "C32": {
  "note": "Includes termination of the swap loop for every positive definite matrix, and the reducedness of the result."
 },
 "C33": {
  "note": "Wrong when fewer than m integer vectors lie below the initial bound 1e18 (witness returns 0 instead of 3); otherwise search and the whole of lambda are optimal and terminate. One candidate and |a| >= 2^31 are undefined behaviour."
 },
 "C43": {
  "note": "All unit quaternions and vectors, doubles read as reals."
 },
 "C44": {
  "note": "All four branches."
 },
 "C45": {
  "note": "exp (both branches), axis-angle and Euler proved for all inputs; from_two_unit_vectors for vectors that are not opposite; opposite vectors are 0/0 (violated)."
 },
 "C46": {
  "note": "Group, transforms, composition and log round trip proved; the eight-argument constructor leaves the parts at the identity (violated)."
 },
 "C47": {
  "note": "Homomorphism, conjugation of exponentials, tangent conversion matrices."
 },
 "C67": {
  "note": "Outside the Taylor branch, which is an approximation; there the two overloads of log differ (violated)."
 },
 "C68": {
  "note": "Away from gimbal lock; at gimbal lock roll and yaw are lost (violated)."
 },
 "C70": {
  "note": "exp gives unit dual quaternions and both round trips hold outside the Taylor branches. Violated for the representative with real part -1 (C70_sign_violated); the Taylor branch of log has a wrong coefficient (C70_taylor_violated, 15 mm for one Earth radius) and the overload with Jacobian uses it up to larger rotations (C70_overloads_violated, over one metre)."
 },
 "C48": {
  "note": "Closure, inverse, associativity and the adjoint are exact for SO3 and SE3. exp gives an exact rotation outside the Taylor branch; inside it R^T R differs from I, by at most 1e-25 for every input (C48_exp_bound), so the exact statement is false (C48_taylor_violated)."
 },
 "C69": {
  "note": "Quaternion/matrix agreement, exponentials and axis-angle hold for all inputs. from_two_unit_vectors fails for exactly opposite vectors (C69_opposite_violated) and DQuat::from_4x4 gives the translation with the wrong sign (C69_from4x4_violated)."
 },
 "C71": {
  "note": "Both directions proved outside the Taylor branches and up to the near-half-turn branch, for SO3 and SE3. In that branch SO3::log returns the logarithm of the inverse rotation (C71_near_pi_violated)."
 },
 "C72": {
  "note": "Derivatives of exp and inverse Jacobians of log proved outside the Taylor branches; the derivative of Quat::log is proved along every differentiable curve (C72_quat_log_curve_partial) and exactly at the identity. Near half a turn the SO3 log Jacobian has the wrong sign and at exactly half a turn both log Jacobians divide zero by zero."
 },
 "C40": {
  "note": "Exact real matrices. Prediction gives the stated formula and is positive semidefinite; an update never increases the covariance, whatever it decides."
 },
 "C41": {
  "note": "C41_rejected and C41_empty hold for every input; the gating decision itself reads unused memory for variable-size measurements (C77), so C41_gated assumes the measurement has its full size."
 },
 "C42": {
  "note": "Violated: assignment and copy do not carry the timestamp (C42_time_violated, C42_predict_copy_violated). Partial: all other fields."
 },
 "C73": {
  "note": "Violated: the residual is z - h and the Jacobian is its derivative, yet the update adds K*res with K computed from that Jacobian, so the innovation grows (C73_fix_hold_violated for every size, C73_fix_hold_one_violated in numbers). Partial: it would hold for a residual of the other sign."
 },
 "C74": {
  "note": "Position/velocity and fix-and-hold Jacobians and the pseudorange row proved exact. The Doppler row is violated: C74_obs_doppler_partial gives the exact missing term, C74_obs_doppler_violated a witness."
 },
 "C75": {
  "note": "Rotation rows, input Jacobian and errorStateDynamics proved. Violated in the translation rows (missing -omega x dp), velocity rows (attitude column) and clock rows (drift column); partial theorems give the exact difference."
 },
 "C76": {
  "note": "Violated: handleObsMeas leaves gnss_id zero, i.e. GPS. Partial: GPS observations, or equal clocks."
 },
 "C77": {
  "note": "Violated: for variable-size measurements the Mahalanobis distance is computed over the maximum size including uninitialised entries (C77_gate_violated)."
 },
 "C78": {
  "note": "Violated: more than thirty observations write outside the fixed-size residual. Partial: up to thirty."
 },
 "C79": {
  "note": "Violated: gravity is rotated the wrong way and omega x v is missing. Partial: exact condition under which Newton's law holds."
 },
 "C49": {
  "note": "Violated: the whole bias, not its difference from the integration bias, multiplies dStatedBias (C49_bias_violated, C49_statement_false). Partial: the residual vanishes whenever that product does, in particular for zero bias."
 },
 "C50": {
  "note": "Violated: split aborts when a sample lies more than 50 us and less than 100 us after the split time (C50_abort_violated, every history) and leaves a gap when a sample lies within 50 us before it (C50_gap_violated). Partial: all other split times."
 },
 "C80": {
  "note": "Velocity blocks exact for every input; bias block exact outside the Taylor branches of exp and log or at their centres. Pose blocks violated whenever the pose is turned at all (C80_start_violated, C80_end_violated); start_deriv and end_deriv give the true derivative. Partial: untilted pose. Whitening and dGenDParam are not modelled."
 },
 "C84": {
  "note": "Every history, every inner sample with at least one sample after it, every start pose and velocity; exact reals."
 },
 "C81": {
  "note": "Exact for all inputs; the rotation row is stated for the quaternion of the rotation error. The discretisation 1 + A dt + (A dt)^2/2 is used as given."
 },
 "C82": {
  "note": "Velocity and rotation exact, position off by half the specific force times the sum of squared intervals for every history (C82_constant_partial), so violated whenever there is acceleration (C82_violated). The property is about exactness; the error is of first order in the sampling interval."
 },
 "C83": {
  "note": "Accelerometer columns exact for every history, not only to first order (C83_accel_partial). Without rotation the velocity and rotation rows are exact in every direction (C83_still_partial). Position row of the gyroscope columns violated (C83_gyro_violated). Missing: derivative bounds with rotation."
 },
 "C85": {
  "note": "Exact reals; the Cholesky factorisation itself is not modelled."
 },
 "C51": {
  "note": "Violated: the prediction is multiplied by the wavelength. C51_truth_partial says exactly when the residual still vanishes; C51_reciprocal_partial shows division would be right."
 },
 "C52": {
  "note": "Zero set, exact Jacobians and chains of factors."
 },
 "C86": {
  "note": "rel_deriv gives the derivative in every direction: the reported Jacobians lack exactly the Sagnac term. Clock and switch blocks exact."
 },
 "C87": {
  "note": "Range and switch rows exact for diagonal weights, Doppler row exact up to the explicit term dopRest; violated for correlated weights and for the Doppler."
 },
 "C88": {
  "note": "Zero exactly at the anchor proved; independence of overload and sign violated."
 },
 "C58": {
  "note": "Equilibria, linear systems (degree four Taylor polynomial), right hand sides cubic in time (sharp), linear invariants and equivariance, for states in any real vector space."
 },
 "C89": {
  "note": "Real arithmetic; eccentricity up to one half, mean anomaly up to 1e300."
 },
 "C90": {
  "note": "The derivative is proved for the formula with the harmonics at the uncorrected argument of latitude; the code agrees with it when the corrections of the argument vanish and within a proved bound otherwise; violated in general and undefined at perigee."
 },
 "C91": {
  "note": "Exact conditions under which bias and drift are right; violated otherwise. Relativistic term proved for uncorrected orbits."
 },
 "C92": {
  "note": "For orbits without corrections; energy and angular momentum in the frame that does not turn, away from the line of apsides where the code divides by zero."
 },
 "C93": {
  "note": "Along every solution curve off the centre of the earth."
 },
 "C94": {
  "note": "Termination, step decomposition and clock proved; independence of the previous content is violated (kept for a fresh state)."
 },
 "C95": {
  "note": "Position and velocity of the satellite as functions of time (one ephemeris during the iteration); Sagnac term to first order as in the code."
 },
 "C59": {
  "note": "violated: the comparison is the wrong way round (an ephemeris is handed out only while its logged second has not passed), so everything is handed out early, the replay blocks for good once the first time left has passed, and an empty vector is read when nothing is left. Proved: what is handed out is an initial part of the log in order."
 },
 "C60": {
  "note": "proved: samples at least a period apart, gap below a period plus the call interval, last call within a period of the last sample, samples only at calls. Real arithmetic."
 },
 "C96": {
  "note": "proved for unit rotations."
 },
 "C97": {
  "note": "violated: gravity is rotated the wrong way and the turn of the velocity is missing. Proved: exact condition for an ideal reading, ideal for a level car on a straight line."
 },
 "C98": {
  "note": "violated: the position uses the acceleration of the step before; exact size of the error proved. Proved: velocity exact, position exact if the acceleration did not change."
 },
 "C99": {
  "note": "violated: a waypoint exactly behind is left at full speed. Proved: bounds, turn towards the waypoint otherwise. The index of the current waypoint is not initialised in the code."
 },
 "C100": {
  "note": "violated: the turning acceleration is half of what was asked for at unit inertia, the mass is not used, and the time step given to the controllers is always zero. Proved: forward acceleration right at unit mass, exact result."
 },
 "C101": {
  "note": "lla2ecef: on the ellipsoid, along the normal by the height, nearest point."
 },
 "C102": {
  "note": "ecef2lla: at most six iterations beyond 6300 km, position back to 1e-5 m, coordinates back to 1e-12 rad, exact longitude, 2e-6 m; the result does not depend on the bound of the iterations."
 },
 "C103": {
  "note": "q_e2n has the axes north, east, down, shown to be the directions of growing latitude and longitude and of falling height with the curvature radii; lla2ned and ned2lla inverse to 1e-5 m."
 },
 "C104": {
  "note": "Direction reconstructed from azimuth and elevation; measured angles are those of placement; horizon."
 },
 "C105": {
  "note": "Zenith delay in [0.49, 2.5] m, slant delay decreasing and at most 4/el; unbounded at the horizon and a jump at 10 km are violations."
 },
 "C106": {
  "note": "Delay in [1.49, 17.3] m above the horizon for every place, time and azimuth; periodic; denominators non-zero; more than 27 m at the nadir is a violation."
 },
 "C53": {
  "note": "Sums, products of fitting blocks, transposes, products of matrices of blocks (also element by element) mean the matrix operations; differences only when a named block or a product is subtracted. reduce keeps the meaning for every sound comparison and splitting, and the code's reduce does so wherever the guarded functions have an outcome. Missing in full generality because violated: differences of sums, transposes, negative blocks; sizes of identities and zeros; scalars on the right; reduce with scalars before the first factor, with repeated scalars or terms, with transposes."
 },
 "C107": {
  "note": "Proved for every configuration without one-dimensional states, inputs or measurements and without a state of variable size that depends both on itself and on another state, for all values and sizes: the code is generated and stores the Kalman formulas. Instantiated for rtk_ekf.yaml and example_ekf.yaml. The gating step and the C++ text are not modelled."
 },
 "C108": {
  "note": "Violated: three kinds of configurations for which the generator raises, proved for all amounts of fuel. Every configuration without these three is accepted."
 },
 "C109": {
  "note": "Exact arithmetic: rounding in the update, which the generated code does not write in the form of Joseph, is not modelled. Between two steps the blocks are assumed to be read as stored (Symmetric)."
 },
 "C110": {
  "note": "Proved for every stream with at least one argument, different names other than t, type, rows and cols, and types whose header is right: the basic types, fixed-size vectors, matrices with one row or column, UTCTime, ImuSample, GnssObservation, Quat, DQuat, TangentVector, Jet, TwoJet; in particular the streams of the simulator and of the estimator. Refuted for GPS, Galileo and GLONASS ephemerides (record and header have different sizes, records are lost), for other matrices (columns taken for rows), for vectors of run-time length, for equal names and for names that are keys of the header itself. Not covered: arguments of log whose type differs from that given to initStream, and the text form of yaml."
 },
 "C111": {
  "note": "Proved for all configurations: vectors, noise matrices, fromDense, and covariances and Jacobians whenever the argument orders agree, the counters are equal or there is at most one variable state. False in general: exchanged counters, size() for elements of more than one dimension, Covariance(ProcessCovariance) leaves entries uninitialised."
 },
 "C112": {
  "note": "All coefficients of the exponentials, their Jacobians (a, b, c, C1, C2) and the logarithms are compared with the closed forms with explicit remainders. log(exp(x)) is compared with x with no lower limit of the angle: Quat to 1e-30, SO3 and SE3 to 1e-17, DQuat to 1e-8. Violated by DQuat::log below its threshold: its rotation factor and its coupling factor are not the series of the closed forms."
 },
 "C113": {
  "note": "Reading of values and matrices proved for all trees, keys and sizes; violated for lists that are too short (read beyond the end), required values of the wrong form (silently unset) and the delivered configuration file (a required key is missing, another has the wrong form)."
 },
 "C114": {
  "note": "With the right start time: all samples are handed on, bundles are the stretches between gaps, nothing is lost when every stretch has one epoch, and the rate of the estimates is exact. Violated: the start time is never assigned, so no record of a real log is processed; a second epoch within 10 ms is dropped."
 },
 "C115": {
  "note": "The transform in closed form for all places and headings; right for heading zero only. For others the origin misses the configured place by at least 6200 km (1 - cos(heading/2)) and the dual quaternion is not unit. The initial input agrees with the simulated accelerometer exactly for level attitudes."
 },
 "C116": {
  "note": "All configurations. Sum, difference, round trips and independence of unused memory proved; refuted: y + (x - y) = x for the other sign of a dual quaternion, differences of states with different counters, independence of predict of uninitialised elements."
 },
 "C117": {
  "note": "Copies and assignments proved for all memory layouts; refuted for q *= q, quaternions made of vectors or expressions, dual quaternions made of eight numbers, and copies of ImuErrorState."
 },
 "C118": {
  "note": "Selection, order, independence of satellites and constellations and the time window proved for all inputs; GLONASS frequency, observation time, Doppler unit, count and repeated logging refuted."
 },
 "C119": {
  "note": "Contents, names and separation proved for all calls and file systems; the end time, logs of one second and reopening refuted."
 },
 "C120": {
  "note": "Chains, written logs and the latest log proved; a log without streams and the log of a simulation in the directory of its ephemeris log refuted."
 },
 "C121": {
  "note": "Records, end and intervals of the sensors proved in closed form for all options; endless runs and the default IMU rate refuted. The times of the run are proved to be the exact ones in doubles too."
 },
 "C122": {
  "note": "Sources of one generator proved uncorrelated; those of different generators, the strength of the walk and its independence of the rate refuted."
 },
 "C123": {
  "note": "Error bounds for all functions on vectors and on quaternions; exact adjoints up to a stated factor for products and inverses; rotp; the older functions are the same."
 },
 "C124": {
  "note": "All 142 calls but two print their own text with the values in the holes at the levels DEBUG to WARN and above FATAL; ubx.cxx 232 throws, simulate.cxx 115 prints only the identifier, errors and fatal messages are lost at ERROR and FATAL."
 },
 "C125": {
  "note": "Cells, full bar at the end, throttle, elapsed time and estimate proved for all calls; the conversion of the estimate to int is undefined for long estimates and for zero counts, and the rate is lost when two lines fall into one millisecond."
 },
 "C126": {
  "note": "All calls but two have matching types and all other streams read back; the estimates carry an unannounced covariance, the truth is read with one value less, and the plotting tool fails on every log."
 },
 "C127": {
  "note": "Round trips are proved; the converse fails for a turn stored with the opposite sign, which the difference takes for no turn."
 },
 "C128": {
  "note": "Conversions of dates are proved right. Violated: unpadded milliseconds, dates for negative spans, undefined printing of the markers, unnormalised negative and random times, week 0 counted twice, leap seconds."
 },
 "C129": {
  "note": "Proved for positions and delays. Violated: GPS clock polynomial, anomalies near perigee, Galileo constants, states filled in before, ionosphere below the horizon. The reference gives unknown Galileo accuracies a variance of one square metre (C129_unknown_violated)."
 },
 "C130": {
  "note": "Proved for all contents of the words up to week 2524, except the members named in the violations. Violated: validity of the time, issue of data above 255, validity of E5b, weeks from 2528 on; 2100 in the reference."
 },
 "C131": {
  "note": "Proved without copies. Violated by the implicit copies, which duplicate pointers into the original."
 },
 "C132": {
  "note": "Proved for dates up to 28 February 2100. Violated by the adapter, which gives the simulator the week for the seconds and uninitialised memory for the week."
 },
 "C133": {
  "note": "Proved with the working variables filled. Violated by the adapter, which does not fill them, and by computeRange, which moves the caller's satellite."
 },
 "C134": {
  "note": "RETURN_IF_NOT_OK returns the first error and runs nothing after it, for all sequences of steps. RETURN_OR_ASSIGN is right for calls that can be repeated and violated for calls with state; errors compare by address."
 },
 "C135": {
  "note": "Proved for all values that are no number at the top, with keys in the escaped form the reader makes, up to rounding to six digits. Violated by numbers at the top, small numbers, raw keys, unicode escapes, exponents without plus sign and malformed texts. Every text of the grammar of RFC 8259 without exponents and \\u is read as its value, with any white space (C135_text)."
 },
 "C136": {
  "note": "Acceptance is characterised exactly for all command lines and the four programs. Violated by the baudrate of gather_ephemeris, whose conversion throws an exception that is not caught and ignores what follows the digits."
 },
 "C137": {
  "note": "Proved for all parameters that fit, with the initial value in the order of the input. The usual definition, where the initial value is reflected, is violated for initial values that are not palindromes; proved for all others and all 51 checks offered."
 },
 "C138": {
  "note": "Proved for GnssDynamics, RelativeCarrierPhase, PseudorangeModel and ImuModel with the referenced objects alive; for PoseError the residual depends on whether the Jacobian is asked for, and references to constructor arguments are kept (violations)."
 },
 "C139": {
  "note": "Proved for collections, states, the items of all factors, factor Imu with its model, and new graphs. Violated for the other factors: the states are not the blocks their models read."
 },
 "C140": {
  "note": "Proved for finite matrices and for quaternions away from half turns. Violated: NaN and infinite elements are accepted for everything; equal rotations by half turns are refused."
 },
 "C141": {
  "note": "Proved: elements, places and bounds. Violated: the width is cut to an integer."
 },
 "C142": {
  "note": "Proved for all logs: panels, keys, interpolation. Violated: the truth is cut to the number of estimates, so that the difference fails when it is logged more often; the GLONASS clock is never drawn."
 },
 "C143": {
  "note": "Proved for known constellations with at least two satellites or frequencies. Violated: one satellite, unknown constellations, titles, the name of the column."
 },
 "C144": {
  "note": "Proved for fresh directories and for rebuilding without cmake. Violated: after cmake only the tests linked again are run; two files of tests are in no program; the generated script tells only the last status."
 },
 "C145": {
  "note": "Proved for sums and differences. Violated: UTCTime(s) of a negative s that is not whole is not normalised."
 },
 "C146": {
  "note": "Proved for every rounding to nearest, with and without fused multiplication and addition; the sampling of a sensor for every rate whose period is a whole number of nanoseconds up to a second."
 },
 "C147": {
  "note": "Proved: every field within 2^-50 (Galileo af2 2^-48) relative for every rounding to nearest, order kept. Violated: exactness of the fields whose constants are decimal literals with too few digits."
 },
 "C148": {
  "note": "Termination of the reduction for every arithmetic with an irreflexive transitive < on finitely many numbers; termination of the search in doubles for up to 512 ambiguities below 2^41, variances up to 2^20 and factors up to one, and a witness beyond those limits for which it never ends; integrality for every rounding to nearest; unimodularity and exact back-transformation under explicit bounds of 2^53. Decorrelation in doubles leaves factors of at most a half, so that the whole resolution ends."
 },
 "C149": {
  "note": "Operations are rounded one by one (no fused products); the library's sine and cosine are assumed right to 2^-52 absolutely. The limits 1/2 and 62 cover the message fields (eccentricity below 1/2, |M0| ≤ pi, half a week at the mean motion of the orbits)."
 },
 "C150": {
  "note": "Proved for every rounding to nearest, with and without fused operations; sine and cosine are assumed right to 2^-52 absolutely, square roots correctly rounded; overflow is not modelled."
 },
 "C151": {
  "note": "The characterisation of the file names is exact. Members are distinct for names in snake case and for all names of the two configurations of the project; for arbitrary identifiers the statement is false (C151_digit_violated, C151_statement_false)."
 },
 "C152": {
  "note": "False as stated: the limit is the best of the grid for one degree of freedom less (C152_limit_partial); the chance to pass is too small for every size (C152_chance_violated) and zero for size one (C152_scalar_violated). Real arithmetic; scipy and numpy as documented."
 },
 "C153": {
  "note": "False as stated: endless for a jump of 300 m (C153_endless_violated, C153_statement_false). Proved: termination from every start while jump times speed is at most 2.9e5 m^2/s, and for jumps up to 25 m the accuracy for a satellite of at least one kilometre per second, if there is a time of transmission. Real arithmetic for times."
 },
 "C154": {
  "note": "False as stated: invert flows off its end (C154_invert_violated). Proved: normalize, and the memory at the end of invert's body. Real arithmetic."
 },
 "C155": {
  "note": "False as stated: opposite numbers are the same motion and not == (C155_sign_violated). Proved: equal or opposite numbers if and only if the same motion; == is right for positive scalar parts; identity jets. Real arithmetic, no NaN."
 },
 "C156": {
  "note": "False as stated: for negative scalar parts the long way (C156_long_violated), and a jump by nearly a full turn between the branches (C156_jump_violated). Proved for scalar parts that are not negative, and the sum of both lengths. Real arithmetic."
 }
}