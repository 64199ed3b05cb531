{"id": "C01", "title": "Ring buffer is a bounded deque that forgets the oldest element", "statement": "For every sequence of push/pop operations in which no pop is applied to an empty buffer, iterating a CircularBuffer<T,N> from begin() to end() yields exactly what a double-ended queue of capacity N-1 would hold, where pushing at the back of a full buffer first drops the front element and pushing at the front of a full buffer first drops the back element.", "quantifier": "every N >= 2, every element type, every finite history of push_back/push_front/emplace/pop_front/pop_back/clear", "why_tests_cant": "the history is unbounded and the wrap-around position depends on the whole history", "anchors": ["common/circular_buffer.h: CircularBuffer::push_back", "common/circular_buffer.h: CircularBuffer::push_front", "common/circular_buffer.h: CircularBuffer::pop_front", "common/circular_buffer.h: CircularBuffer::pop_back", "common/circular_buffer.h: CircularBuffer::clear"]}
{"id": "C02", "title": "Ring buffer observers agree", "statement": "In every reachable state size() equals the number of elements iterated, size() <= capacity() = N-1, empty() iff size()=0, full() iff size()=capacity(), front()/back() are the first/last elements and b[i] is the i-th element for 0 <= i < size().", "quantifier": "every N >= 2 and every reachable state, every index in range", "why_tests_cant": "size() is computed by modular pointer arithmetic over all head/tail placements", "anchors": ["common/circular_buffer.h: CircularBuffer::size", "common/circular_buffer.h: CircularBuffer::full", "common/circular_buffer.h: CircularBuffer::operator[]", "common/circular_buffer.h: CircularBuffer::back", "common/circular_buffer.h: CircularBuffer::const_iterator::idx"]}
{"id": "C03", "title": "Popping an empty ring buffer is harmless", "statement": "pop_front()/pop_back() on an empty buffer leaves it empty.", "quantifier": "every N >= 2 and every reachable empty state", "why_tests_cant": "no test exercises the precondition violation; the effect is a buffer that reports N-1 garbage elements", "anchors": ["common/circular_buffer.h: CircularBuffer::pop_front", "common/circular_buffer.h: CircularBuffer::pop_back"]}
{"id": "C04", "title": "Ring buffer element lifetimes", "statement": "Every element constructed in the buffer is destroyed exactly once, no destructor or assignment is applied to a slot that holds no live object.", "quantifier": "every N >= 2 and every history of operations", "why_tests_cant": "a destructor run on a dead slot is silent for trivially destructible test types", "anchors": ["common/circular_buffer.h: CircularBuffer::pop_back", "common/circular_buffer.h: CircularBuffer::push_back", "common/circular_buffer.h: CircularBuffer::emplace_back"]}
{"id": "C05", "title": "Timestamp comparison is chronological", "statement": "For normalised timestamps (0 <= nsec < 1e9) each of < > <= >= == != holds exactly when it holds between the represented nanosecond counts.", "quantifier": "every pair of normalised timestamps", "why_tests_cant": "2^128 pairs; the faulty region (equal seconds) is a thin slice", "anchors": ["common/utctime.cxx: UTCTime::operator>", "common/utctime.cxx: UTCTime::operator>=", "common/utctime.cxx: UTCTime::operator<", "common/utctime.cxx: UTCTime::operator<=", "common/utctime.cxx: UTCTime::operator=="]}
{"id": "C06", "title": "Timestamp sum and difference are exact", "statement": "For normalised timestamps whose seconds do not overflow, a+b and a-b are normalised and represent exactly the sum/difference of the nanosecond counts; hence (a-b)+b == a and (a+b)-b == a.", "quantifier": "every pair of normalised timestamps without 64-bit overflow", "why_tests_cant": "unbounded operand range, carries and borrows at every boundary", "anchors": ["common/utctime.cxx: UTCTime::operator-", "common/utctime.cxx: UTCTime::operator+", "common/utctime.cxx: UTCTime::wrapNsec", "common/utctime.cxx: UTCTime::operator+=", "common/utctime.cxx: UTCTime::operator-="]}
{"id": "C07", "title": "Adding a span in seconds to a timestamp", "statement": "t + s and t - s (s a non-integral number of seconds) are normalised, represent t plus/minus s truncated toward zero to a nanosecond, and are monotone in s.", "quantifier": "every normalised t, every real s in range", "why_tests_cant": "continuum of spans, negative spans mix truncation with borrow", "anchors": ["common/utctime.cxx: UTCTime::operator+(double)", "common/utctime.cxx: UTCTime::operator-(double)"]}
{"id": "C08", "title": "GPS week/time-of-week conversion", "statement": "fromGPS(week, tow_ms) denotes the instant week*604800 s + tow_ms ms after the GPS epoch, is normalised, and GpsWeek()/GpsTow() of the result give back week and tow_ms/1000.", "quantifier": "every week >= 0 and every tow_ms in [0, 604800000)", "why_tests_cant": "the failing inputs are those with a fractional second or large week; a handful of test vectors use whole seconds", "anchors": ["common/utctime.cxx: UTCTime::fromGPS", "common/utctime.cxx: UTCTime::GpsWeek", "common/utctime.cxx: UTCTime::GpsTow", "common/utctime.cxx: UTCTime::fromGalileo"]}
{"id": "C09", "title": "GLONASS time of day resolution", "statement": "fromGlonassTimeOfDay(ref, tod_ms) lies in the same Moscow day as ref and its time of day is tod_ms; fromGlonass inverts GlonassWeek/GlonassDayOfWeek.", "quantifier": "every reference time at or after the GLONASS-offset epoch, every tod_ms in [0,86400000)", "why_tests_cant": "mixed signed/unsigned 32-bit arithmetic over the whole range", "anchors": ["common/utctime.cxx: UTCTime::fromGlonassTimeOfDay", "common/utctime.cxx: UTCTime::fromGlonass", "common/utctime.cxx: UTCTime::GlonassWeek", "common/utctime.cxx: UTCTime::GlonassDayOfWeek"]}
{"id": "C10", "title": "Quantised time comparisons are coherent", "statement": "For a quantised time q and a timestamp t exactly one of q<t, q==t, q>t holds; q<=t iff not q>t; q>=t iff not q<t; q==t iff they differ by at most half the quantum; the mirrored operators agree.", "quantifier": "every pair of timestamps without overflow", "why_tests_cant": "boundary at exactly half a quantum in both directions", "anchors": ["common/quantized_time.cxx: QuantizedTime::operator<", "common/quantized_time.cxx: operator=="]}
{"id": "C11", "title": "Quantised equality is safe to use as an equivalence and against the invalid marker", "statement": "Quantised equality is transitive, and comparing any valid quantised time with INVALID_TIME is well defined and reports inequality.", "quantifier": "every triple of timestamps; every valid timestamp", "why_tests_cant": "the failing triples are those straddling the tolerance; the overflow is undefined behaviour which sanitiser-free tests cannot see", "anchors": ["common/quantized_time.cxx", "common/utctime.h: INVALID_TIME"]}
{"id": "C12", "title": "Bit-field read returns the addressed bits", "statement": "getBit<len>(buf,pos) returns the big-endian integer formed by bits pos..pos+len-1 of buf (bit 0 = most significant bit of byte 0), the signed variant its two's-complement value, and no byte outside those containing the field is read.", "quantifier": "every buffer, every position, every length 1..56 for which the field lies in the buffer", "why_tests_cant": "all buffers x all positions x all lengths", "anchors": ["common/ephemeris/bit_tools.h: getBit"]}
{"id": "C13", "title": "Bit-field write/read round trip", "statement": "After setBit<len>(buf,pos,v), getBit<len>(buf,pos) == v mod 2^len and every other bit of the buffer is unchanged.", "quantifier": "every buffer, position, 32-bit value and length 1..32", "why_tests_cant": "all buffers x positions x lengths x values", "anchors": ["common/ephemeris/bit_tools.h: setBit", "common/ephemeris/bit_tools.h: getBit"]}
{"id": "C14", "title": "GLONASS sign-magnitude field", "statement": "getBitGlo<len>(buf,pos) equals the magnitude bits pos+1..pos+len-1, negated exactly when bit pos is set.", "quantifier": "every buffer, position and length", "why_tests_cant": "all buffers x positions x lengths", "anchors": ["common/ephemeris/bit_tools.h: getBitGlo"]}
{"id": "C15", "title": "CRC-24Q value and error detection", "statement": "crc24(msg) is the remainder of msg*x^24 modulo the CRC-24Q polynomial; a message followed by its CRC checks; any burst error of length at most 24 bits (in particular any single-bit error) in a message of any length is detected.", "quantifier": "every message of every length, every burst position", "why_tests_cant": "all messages x all error patterns; the 256-entry table must be right everywhere", "anchors": ["utils/crc.cxx: crc24"]}
{"id": "C16", "title": "GLONASS string Hamming check", "statement": "gloTest accepts every correctly coded 85-bit string. If a correctly coded string is corrupted in exactly two bits it is rejected; if corrupted in exactly one bit it is rejected unless the wrong bit is one of the seven check bits, so the 77 data bits of an accepted string with at most two wrong bits are always right.", "quantifier": "every correctly coded 85-bit string and every one- or two-bit error", "why_tests_cant": "2^85 strings", "anchors": ["utils/crc.cxx: gloTest"]}
{"id": "C17", "title": "GPS ephemeris assembly", "statement": "The GPS parser reports a complete ephemeris only when subframes 1, 2 and 3 with valid preamble and one common issue-of-data have been received since the last report, and all fields come from them.", "quantifier": "every sequence of subframes", "why_tests_cant": "unbounded histories of interleaved, repeated and stale subframes", "anchors": ["common/ephemeris/gps.cxx: GPSEphemeris::parse", "common/ephemeris/gps.cxx: frame1", "common/ephemeris/gps.cxx: frame3"]}
{"id": "C18", "title": "Galileo ephemeris assembly", "statement": "The Galileo parser reports complete only when CRC-valid pages of all required types with equal IOD have been received since the last reset and each report carries the broadcast week.", "quantifier": "every sequence of pages", "why_tests_cant": "unbounded histories", "anchors": ["common/ephemeris/galileo.cxx: GalileoEphemeris::parse"]}
{"id": "C19", "title": "GLONASS ephemeris assembly", "statement": "The GLONASS parser reports complete exactly on a valid string 5 when strings 1..5 with the current time mark have all been received since the time mark last changed; invalid strings never change the reported result.", "quantifier": "every sequence of strings and time marks", "why_tests_cant": "unbounded histories", "anchors": ["common/ephemeris/glonass.cxx: GlonassEphemeris::parse"]}
{"id": "C20", "title": "UBX framing round trip", "statement": "If the parser is waiting for a sync byte, feeding the bytes of any framed message (header, class, id, little-endian length, payload, Fletcher checksum) with payload length 1..BUFFER_SIZE (2048) causes exactly one dispatch carrying that class, id, length and payload, and returns to waiting for sync; so any concatenation of frames separated by filler that contains no sync pair dispatches exactly those frames in order.", "quantifier": "every payload content and length, every number of frames, every sync-free filler", "why_tests_cant": "all payloads and all streams", "anchors": ["parsers/ubx/ubx.cxx: read_cb / receive_callback", "parsers/ubx/ubx.cxx: decodeMessage", "parsers/ubx/ubx.cxx: calculateChecksum"]}
{"id": "C21", "title": "UBX parser memory safety and integrity", "statement": "For every byte stream the payload write index stays inside the receive buffer and a message is dispatched only if the two checksum bytes equal the Fletcher checksum of class, id, length and payload just received.", "quantifier": "every byte stream from every reachable parser state", "why_tests_cant": "unbounded adversarial streams", "anchors": ["parsers/ubx/ubx.cxx: receive_callback", "parsers/ubx/ubx.cxx: calculateChecksum"]}
{"id": "C22", "title": "UBX parser always recovers", "statement": "From every reachable parser state there is a bounded amount of filler after which the parser is waiting for sync, so a corrupted frame never blocks later valid frames forever.", "quantifier": "every reachable parser state", "why_tests_cant": "needs all reachable states, including the ones entered by zero-length payloads", "anchors": ["parsers/ubx/ubx.cxx: receive_callback"]}
{"id": "C23", "title": "UBX command encoding", "statement": "sendMessage writes sync bytes, class, id, length, payload and the checksum such that the receiving state machine accepts the frame with the same contents.", "quantifier": "every class, id and payload", "why_tests_cant": "all payloads", "anchors": ["parsers/ubx/ubx.cxx: sendMessage", "parsers/ubx/ubx.cxx: calculateChecksum"]}
{"id": "C24", "title": "Serialise/deserialise round trip", "statement": "Deserialising the bytes written for any value of a loggable type consumes exactly those bytes and returns the value; hence any sequence of values is recovered from the concatenation.", "quantifier": "every value of every loggable type (integers, times, vectors, observations, IMU samples, ephemerides), every sequence", "why_tests_cant": "all values and lengths, variable-size containers", "anchors": ["common/logging/serialize.h", "common/logging/log_writer.h", "common/logging/log_reader.h"]}
{"id": "C25", "title": "Truncated log yields a clean prefix", "statement": "If a log stream is cut at any byte (crash while writing) the reader delivers exactly the records that were completely written before the cut and nothing else.", "quantifier": "every record sequence and every crash point", "why_tests_cant": "every cut position of every log", "anchors": ["common/logging/log_reader.cxx: StreamReader", "common/logging/log_reader.cxx: LogReader::read"]}
{"id": "C26", "title": "Merged log replay order", "statement": "Reading a log with several streams calls back every record exactly once and, if every stream is itself time-ordered, in non-decreasing time order overall, preserving the order inside each stream.", "quantifier": "every number of streams and every record sequence", "why_tests_cant": "all interleavings of unbounded streams", "anchors": ["common/logging/log_reader.cxx: LogReader::read"]}
{"id": "C27", "title": "Distinct log keys have distinct file names", "statement": "Two different keys never share a stream file name.", "quantifier": "every pair of integer keys", "why_tests_cant": "the collision needs particular pairs", "anchors": ["common/logging/log_writer.h", "common/logging/log_key.h"]}
{"id": "C28", "title": "Almanac stays sorted and bounded", "statement": "After any sequence of addEph calls the stored ephemerides of a satellite are strictly ordered by time of ephemeris, only refer to that satellite, and an ephemeris that was added can only disappear by being replaced by one with the same time of ephemeris.", "quantifier": "every sequence of ephemerides", "why_tests_cant": "unbounded insertion orders", "anchors": ["common/satellite/satellite.h: Satellite::addEph"]}
{"id": "C29", "title": "Closest ephemeris selection", "statement": "findClosestEphemeris(t) returns a stored ephemeris minimising |t - toe| over all stored ones.", "quantifier": "every almanac content and every query time", "why_tests_cant": "all almanacs x all times incl. ties and ends", "anchors": ["common/satellite/satellite.h: Satellite::findClosestEphemeris"]}
{"id": "C30", "title": "Satellite manager lookup", "statement": "After any sequence of ephemeris callbacks, getSat(gnss,sat) returns the satellite holding the ephemerides delivered for that id, hasSat is true exactly for the delivered ids that were not evicted, and ids of different constellations never alias.", "quantifier": "every sequence of ephemeris deliveries", "why_tests_cant": "unbounded histories; capacity eviction after 29 satellites", "anchors": ["core/sat_manager.cxx", "core/sat_manager.h"]}
{"id": "C31", "title": "LTDL factorisation", "statement": "For every symmetric positive definite Q, LTDL succeeds and returns unit lower triangular L and positive D with L^T diag(D) L = Q.", "quantifier": "every dimension and every positive definite matrix", "why_tests_cant": "all matrices of all sizes", "anchors": ["core/solver/lambda.cxx: LTDL"]}
{"id": "C32", "title": "Ambiguity decorrelation is lossless", "statement": "The Z returned by the reduction is an integer matrix with determinant +-1 and L^T D L after reduction equals Z^T Q Z.", "quantifier": "every dimension and every factorisation", "why_tests_cant": "data-dependent sequence of Gauss steps and swaps of unbounded length", "anchors": ["core/solver/lambda.cxx: reduction", "core/solver/lambda.cxx: integerGaussTransformations", "core/solver/lambda.cxx: permute"]}
{"id": "C33", "title": "Integer least-squares search is optimal", "statement": "Among all integer vectors the search returns the n_candidates ones with smallest weighted squared distance to the float solution, sorted by distance, together with their exact distances.", "quantifier": "every dimension, factorisation, float vector and number of candidates", "why_tests_cant": "infinite search space", "anchors": ["core/solver/lambda.cxx: search", "core/solver/lambda.cxx: lambda"]}
{"id": "C34", "title": "argsort sorts", "statement": "Applying the permutation returned by argsort (as lambda does) yields the input sorted in ascending order.", "quantifier": "every vector", "why_tests_cant": "all vectors of all lengths", "anchors": ["common/matrix_defs.h: argsort"]}
{"id": "C35", "title": "Delayed measurements give the in-order result", "statement": "Delivering a measurement late (but not staler than the retained history) leaves the estimator in exactly the state reached by delivering all retained measurements in time order.", "quantifier": "every sequence of measurements and every delay pattern", "why_tests_cant": "all interleavings and all delays", "anchors": ["core/ekf/rtk_ekf_estimator.h: addMeasurement", "core/ekf/rtk_ekf_estimator.cxx: rollFilter"]}
{"id": "C36", "title": "Each accepted measurement is applied exactly once to the final state", "statement": "The final state's history of applied measurements contains each retained accepted measurement once.", "quantifier": "every sequence of measurements incl. equal timestamps", "why_tests_cant": "coincident timestamps of different kinds arriving in different orders", "anchors": ["core/ekf/rtk_ekf_estimator.h: addMeasurement", "core/ekf/rtk_ekf_estimator.h: Meas::operator<"]}
{"id": "C37", "title": "The estimator always has a current state", "statement": "After init, no sequence of addMeasurement calls empties the state history or aborts the process.", "quantifier": "every sequence of measurements and timestamps", "why_tests_cant": "needs all sub-quantum timestamp patterns", "anchors": ["core/ekf/rtk_ekf_estimator.h: addMeasurement", "core/ekf/rtk_ekf_estimator.cxx: dropOldMeasurements"]}
{"id": "C38", "title": "Bounded history", "statement": "After every addMeasurement all retained measurements are at most 1.0 s older than the newest one, the retained list is sorted by time, and the retained states are strictly increasing in time.", "quantifier": "every sequence of measurements", "why_tests_cant": "unbounded histories", "anchors": ["core/ekf/rtk_ekf_estimator.cxx: dropOldMeasurements"]}
{"id": "C39", "title": "Measurement order is a strict weak order", "statement": "The ordering used for the measurement multiset is a strict weak ordering (irreflexive, transitive, transitive incomparability).", "quantifier": "every triple of measurements", "why_tests_cant": "all triples", "anchors": ["core/ekf/rtk_ekf_estimator.h: Meas::operator<"]}
{"id": "C40", "title": "Covariance stays symmetric positive semidefinite", "statement": "Prediction and measurement update map symmetric positive semidefinite covariances to symmetric positive semidefinite ones, and an update never increases the covariance.", "quantifier": "every dimension, dynamics, noise and measurement Jacobian", "why_tests_cant": "all matrices", "anchors": ["core/ekf/ekf_gen/ekf_gen_templates.py: predict, doUpdate", "core/ekf/ekf_gen/ekf_gen_matrix_manip.py"]}
{"id": "C41", "title": "Rejected update has no effect", "statement": "A measurement that is gated, empty or disabled leaves the state and covariance unchanged and is reported as an error when gated or empty.", "quantifier": "every state and measurement", "why_tests_cant": "all inputs", "anchors": ["core/ekf/ekf_gen/ekf_gen_templates.py: doUpdate, update"]}
{"id": "C42", "title": "Copying an EKF state preserves it", "statement": "Copy construction and assignment of the filter state produce an equal state, including its timestamp.", "quantifier": "every state", "why_tests_cant": "tests compare selected fields", "anchors": ["core/ekf/ekf_gen/ekf_gen_state.py: copy_state"]}
{"id": "C43", "title": "Unit quaternions form a group acting by rotations", "statement": "The product of unit quaternions is unit and associative, identity and inverse are two-sided, rotp/rota are mutually inverse linear isometries equal to multiplication by R() and its transpose, R() is orthogonal with determinant 1, and R(p*q) = R(q) R(p).", "quantifier": "every unit quaternion and every vector over the reals", "why_tests_cant": "continuum of inputs", "anchors": ["common/math/quat.h: Quat::otimes", "common/math/quat.h: Quat::rota", "common/math/quat.h: Quat::rotp", "common/math/quat.h: Quat::R", "common/math/quat.h: Quat::inverse"]}
{"id": "C44", "title": "Quaternion from rotation matrix", "statement": "from_R(R(q)) equals q or -q and R(from_R(M)) = M for every rotation matrix, in each of the four branches.", "quantifier": "every unit quaternion / rotation matrix", "why_tests_cant": "branch boundaries in a continuum", "anchors": ["common/math/quat.h: Quat::from_R"]}
{"id": "C45", "title": "Quaternion exponential and constructors give unit quaternions", "statement": "exp of any vector above the small-angle threshold, from_axis_angle of a unit axis, from_euler and from_two_unit_vectors give unit quaternions with the documented rotation.", "quantifier": "every vector / angle", "why_tests_cant": "continuum", "anchors": ["common/math/quat.h: Quat::exp", "common/math/quat.h: Quat::from_axis_angle", "common/math/quat.h: Quat::from_euler", "common/math/quat.h: Quat::from_two_unit_vectors"]}
{"id": "C46", "title": "Dual quaternions form the rigid motion group", "statement": "Unit dual quaternions are closed under product and inverse; translation() of DQuat(q,t) is t; transforma and transformp are mutually inverse isometries; the transform of a product is the composition.", "quantifier": "every unit rotation, translation and point", "why_tests_cant": "continuum", "anchors": ["common/math/dquat.h: DQuat::otimes", "common/math/dquat.h: DQuat::transforma", "common/math/dquat.h: DQuat::transformp", "common/math/dquat.h: DQuat::translation", "common/math/dquat.h: DQuat::inverse"]}
{"id": "C47", "title": "Adjoints are homomorphisms", "statement": "Ad(x*y) is the product of Ad(x) and Ad(y) for unit quaternions and unit dual quaternions, and x*exp-style tangent conversion matrices satisfy dGenDParam*dParamDGen = I.", "quantifier": "every pair of group elements", "why_tests_cant": "continuum", "anchors": ["common/math/quat.h: Quat::Ad", "common/math/dquat.h: DQuat::Ad", "common/math/quat.h: Quat::dParamDGen", "common/math/quat.h: Quat::dGenDParam"]}
{"id": "C48", "title": "SO3/SE3 matrices form the rigid motion group", "statement": "SE3 product/inverse are group operations, transformp/transforma are mutually inverse and compose correctly; the exponential of SO3 is a rotation matrix.", "quantifier": "every rotation, translation and point", "why_tests_cant": "continuum", "anchors": ["common/math/so3.h", "common/math/se3.h"]}
{"id": "C49", "title": "IMU preintegration residual vanishes on the predicted end state", "statement": "For every start pose, start velocity, preintegrated state and interval, the IMU factor evaluated at the end state computed by computeEndState has zero residual when the bias equals the linearisation bias.", "quantifier": "every start state, preintegration and bias", "why_tests_cant": "continuum", "anchors": ["models/imu_model.cxx: ImuModel::Evaluate", "models/imu_model.cxx: ImuModel::computeEndState"]}
{"id": "C50", "title": "Splitting an IMU factor partitions its interval", "statement": "split(t) yields two factors covering [t0,t] and [t,tf], every sample of the original being in exactly one of them (plus one interpolated boundary sample); it never aborts for t strictly inside the interval.", "quantifier": "every sample history and split time", "why_tests_cant": "all split times incl. those near samples", "anchors": ["models/imu_model.cxx: ImuModel::split"]}
{"id": "C51", "title": "Relative carrier phase residual vanishes on truth", "statement": "With exact carrier phases (range plus clock in metres divided by the wavelength, plus a constant integer ambiguity) the residual of the relative carrier phase factor is zero at the true states.", "quantifier": "every geometry, clock and ambiguity", "why_tests_cant": "continuum; the test compares derivatives only", "anchors": ["models/relative_carrier_phase_model.cxx: RelativeCarrierPhase::Evaluate"]}
{"id": "C52", "title": "GNSS clock dynamics factor", "statement": "The residual is zero exactly when the clock follows the trapezoidal rule with constant rate and switch, and the reported Jacobians are the exact derivatives.", "quantifier": "every clock state pair, dt and weights", "why_tests_cant": "continuum", "anchors": ["models/gnss_dynamics_model.cxx: GnssDynamics::Evaluate"]}
{"id": "C53", "title": "Symbolic block algebra denotes matrix algebra", "statement": "The code generator's add/subtract/multiply/transpose of symbolic blocks with zero/identity/scalar shortcuts and the later factoring steps denote the same matrix as the dense operation.", "quantifier": "every symbolic expression and every valuation of its symbols", "why_tests_cant": "all expressions", "anchors": ["core/ekf/ekf_gen/symb_matrix.py", "core/ekf/ekf_gen/symb_block_matrix.py", "core/ekf/ekf_gen/symb_algebra.py"]}
{"id": "C54", "title": "PID output saturation and anti-windup", "statement": "The controller output always lies in [-max,max]; when saturated because of the integrator, the integrator is pulled back so that the unsaturated output equals the limit.", "quantifier": "every gain set, error history and time step", "why_tests_cant": "unbounded histories", "anchors": ["sim/controllers/pid.cxx: PID::run"]}
{"id": "C55", "title": "String splitting and stripping", "statement": "strip_string removes exactly the listed characters keeping the others in order; joining the tokens of split_string with the delimiter gives back the input except for one trailing delimiter, and no token contains the delimiter.", "quantifier": "every string, delimiter and character set", "why_tests_cant": "all strings", "anchors": ["utils/strip_string.cxx", "utils/split_string.cxx"]}
{"id": "C56", "title": "Duration formatting", "statement": "The progress bar's time stamp decomposes a duration into days, hours, minutes, seconds, milliseconds that add up to the duration.", "quantifier": "every duration", "why_tests_cant": "long durations are never tested", "anchors": ["utils/progress_bar.cxx: ms_to_stamp"]}
{"id": "C57", "title": "NaN/Inf guard", "statement": "isFinite(m) holds exactly when every entry is finite.", "quantifier": "every matrix of extended reals", "why_tests_cant": "infinite entries are not tested", "anchors": ["common/matrix_defs.h: isFinite"]}
{"id": "C58", "title": "Runge-Kutta step", "statement": "One RK4 step integrates exactly any right hand side that is a cubic polynomial in time, leaves equilibria fixed, and a linear system is advanced by the degree-4 Taylor polynomial of its exponential.", "quantifier": "every step size, state and coefficient", "why_tests_cant": "continuum", "anchors": ["common/math/rk4.h: RK4"]}
{"id": "C59", "title": "Ephemeris replay in simulation", "statement": "The simulator hands out each logged ephemeris exactly once, not before its logged time, and keeps running when all have been handed out.", "quantifier": "every ephemeris log and every time sequence", "why_tests_cant": "unbounded run lengths", "anchors": ["sim/sensors/gnss.cxx: GnssSim::sampleGpsEph"]}
{"id": "C60", "title": "Sensor rate limiting", "statement": "A simulated sensor produces samples at least one period apart, and whenever called often enough no gap exceeds one period plus one call interval.", "quantifier": "every call sequence", "why_tests_cant": "unbounded call sequences", "anchors": ["sim/sensors/imu.cxx: ImuSim::sample", "sim/sensors/gnss.cxx: GnssSim::sample"]}
{"id": "C61", "title": "Saturation helpers", "statement": "sat clamps into its interval, is idempotent and monotone and leaves interior values alone; sign is +-1 with sign(x)*|x| = x.", "quantifier": "every argument", "why_tests_cant": "continuum", "anchors": ["common/defs.h: sign, sat"]}
{"id": "C62", "title": "GPS subframe fields", "statement": "A valid GPS subframe 1, 2 or 3 stores exactly the fields IS-GPS-200 places in it, sign-extended where signed, and any other message leaves all of them unchanged.", "quantifier": "every 10-word message and every object state", "why_tests_cant": "2^300 messages; split fields cross word boundaries", "anchors": ["common/ephemeris/gps.cxx: GPSEphemeris::frame1, frame2, frame3"]}
{"id": "C63", "title": "Galileo word fields", "statement": "A valid Galileo I/NAV word of type 0..5 stores exactly the fields the OS SIS ICD places in it and any other message leaves all of them unchanged.", "quantifier": "every 32-byte message and every object state", "why_tests_cant": "2^256 messages; the data word is stitched from two page halves", "anchors": ["common/ephemeris/galileo.cxx: GalileoEphemeris::parse, frame0..frame5"]}
{"id": "C64", "title": "GLONASS string fields", "statement": "A valid GLONASS string 1..5 stores exactly the fields the GLONASS ICD places in it (sign-magnitude where signed) and any other string leaves all of them unchanged.", "quantifier": "every message and every object state", "why_tests_cant": "2^85 strings; sign-magnitude corner cases", "anchors": ["common/ephemeris/glonass.cxx: GlonassEphemeris::parse, frame1..frame5"]}
{"id": "C65", "title": "GPS and GLONASS share one time scale", "statement": "The GPS and the GLONASS time conversions place the same physical instant at the same UTC time.", "quantifier": "every whole second from 2017 to 2038", "why_tests_cant": "needs every instant and an independent account of both time scales", "anchors": ["common/utctime.h: GPS_UTC_OFFSET", "common/utctime.cxx: UTCTime::fromGPS, fromGlonassTimeOfDay"]}
{"id": "C66", "title": "GLONASS reference time", "statement": "On a report the GLONASS reference and frame times are the broadcast day number N_T, four-year interval N4 and time of day as the ICD defines them.", "quantifier": "every complete set of strings", "why_tests_cant": "needs every day number and interval, including the almanac day rollover", "anchors": ["common/ephemeris/glonass.cxx: GlonassEphemeris::parse"]}
{"id": "C67", "title": "Quaternion exponential and logarithm are mutually inverse", "statement": "exp(log(q)) = q for every unit quaternion, log(exp(v)) = v for every vector shorter than one full turn, and the two overloads of log agree.", "quantifier": "every unit quaternion and every vector", "why_tests_cant": "continuum; a Taylor branch of width 4e-6 around the identity", "anchors": ["common/math/quat.h: Quat::exp", "common/math/quat.h: Quat::log"]}
{"id": "C68", "title": "Euler angles", "statement": "roll, pitch and yaw of from_euler(r,p,y) are r, p and y inside the principal ranges, and from_euler(roll, pitch, yaw) of a unit quaternion is that quaternion up to sign.", "quantifier": "every triple of angles and every unit quaternion", "why_tests_cant": "continuum with the gimbal-lock boundary", "anchors": ["common/math/quat.h: Quat::from_euler", "common/math/quat.h: Quat::roll", "common/math/quat.h: Quat::pitch", "common/math/quat.h: Quat::yaw"]}
{"id": "C70", "title": "Dual quaternion exponential and logarithm are mutually inverse", "statement": "exp gives a unit dual quaternion, exp(log(p)) is the same rigid motion as p for every unit dual quaternion, and log(exp(x)) = x for every tangent vector with a rotation below one full turn.", "quantifier": "every unit dual quaternion and every tangent vector", "why_tests_cant": "continuum; the double cover has both signs of every motion", "anchors": ["common/math/dquat.h: DQuat::exp", "common/math/dquat.h: DQuat::log"]}
{"id": "C69", "title": "Conversions and constructors agree", "statement": "A quaternion and the rotation matrix it converts to act alike on vectors and compose alike, exponentials of both groups give the same rotation, from_axis_angle turns about the given axis by the given angle, from_two_unit_vectors turns the first vector into the second, and from_4x4 of a matrix() gives back the motion.", "quantifier": "every quaternion, axis, angle, pair of unit vectors and rigid motion", "why_tests_cant": "continuum of inputs with isolated exceptional configurations", "anchors": ["common/math/quat.h: Quat::R", "common/math/so3.h: SO3::fromAxisAngle", "common/math/so3.h: SO3::fromTwoUnitVectors", "common/math/quat.h: Quat::from_two_unit_vectors", "common/math/dquat.h: DQuat::from_4x4"]}
{"id": "C71", "title": "Rotation and rigid motion matrices: exponential and logarithm are mutually inverse", "statement": "exp(log(R)) = R for every rotation matrix and log(exp(w)) = w for every vector shorter than half a turn, and the same for rigid motions.", "quantifier": "every rotation matrix, every rigid motion and every tangent vector", "why_tests_cant": "continuum; branches near zero and near half a turn", "anchors": ["common/math/so3.h: SO3::exp", "common/math/so3.h: SO3::log", "common/math/se3.h: SE3::exp", "common/math/se3.h: SE3::log"]}
{"id": "C72", "title": "Jacobians are derivatives", "statement": "The Jacobian returned with an exponential is its derivative in the left (right) tangent frame at every point and in every direction, and the Jacobian returned with a logarithm is its inverse.", "quantifier": "every tangent vector and every direction", "why_tests_cant": "finite differences only sample points and directions", "anchors": ["common/math/so3.h: SO3::exp", "common/math/so3.h: SO3::log", "common/math/se3.h: SE3::exp", "common/math/se3.h: SE3::log", "common/math/quat.h: Quat::exp", "common/math/quat.h: Quat::log", "common/math/dquat.h: DQuat::exp"]}
{"id": "C73", "title": "An accepted update moves the estimate toward the measurement", "statement": "When an update is accepted, the correction added to the state reduces the innovation: the predicted residual after the update is not larger than before, and with a perfect measurement it vanishes.", "quantifier": "every state, covariance and residual of every measurement type", "why_tests_cant": "continuum of states and covariances; the sign convention of the residual is shared by generator, templates and hand-written models", "anchors": ["core/ekf/ekf_gen/ekf_gen_templates.py: doUpdate", "core/ekf/rtk_ekf_impl.cxx: h<fixAndHoldMeas>", "core/ekf/rtk_ekf_impl.cxx: h<pointPosMeas>"]}
{"id": "C74", "title": "Measurement Jacobians are derivatives of the residual", "statement": "The Jacobian reported by each measurement model is the derivative of its residual along every direction of the error state.", "quantifier": "every state with unit attitudes, every input, every measurement, every direction", "why_tests_cant": "finite differences sample points and directions", "anchors": ["core/ekf/rtk_ekf_impl.cxx: h<pointPosMeas>", "core/ekf/rtk_ekf_impl.cxx: h<obsMeas>", "core/ekf/rtk_ekf_impl.cxx: h<fixAndHoldMeas>"]}
{"id": "C75", "title": "State Jacobian is the linearisation of the error dynamics", "statement": "The state and input Jacobians returned by dynamics are the derivatives of the error dynamics at the current state.", "quantifier": "every state, input and direction", "why_tests_cant": "finite differences sample points and directions", "anchors": ["core/ekf/rtk_ekf_impl.cxx: dynamics", "core/ekf/rtk_ekf_impl.cxx: errorStateDynamics"]}
{"id": "C76", "title": "Each observation is compared with its own constellation's clock", "statement": "The residual of an observation handed to the filter uses the receiver clock of the constellation of the observed satellite.", "quantifier": "every observation of GPS, Galileo and Glonass, every state", "why_tests_cant": "tests use one constellation", "anchors": ["core/ekf/rtk_ekf_estimator.cxx: handleObsMeas", "core/ekf/rtk_ekf_impl.cxx: h<obsMeas>"]}
{"id": "C77", "title": "The gating decision depends only on the measurement", "statement": "Whether a measurement is gated is determined by its residual, its Jacobian, the noise and the covariance, not by memory outside them.", "quantifier": "every measurement shorter than the maximum size and every content of the unused memory", "why_tests_cant": "depends on uninitialised memory", "anchors": ["core/ekf/ekf_gen/ekf_gen_templates.py: doUpdate"]}
{"id": "C78", "title": "An observation bundle of any size is handled", "statement": "h<obsMeas> computes one residual per observation of the bundle, whatever their number.", "quantifier": "every bundle", "why_tests_cant": "tests use small bundles", "anchors": ["core/ekf/rtk_ekf_impl.cxx: h<obsMeas>", "core/ekf/rtk_ekf.yaml"]}
{"id": "C79", "title": "Predicted motion obeys rigid body kinematics", "statement": "The inertial acceleration of the predicted motion is gravity plus the specific force turned into the inertial frame; in particular a body at rest stays at rest.", "quantifier": "every attitude, velocity, input and bias", "why_tests_cant": "continuum of attitudes; tests start level", "anchors": ["core/ekf/rtk_ekf_impl.cxx: dynamics"]}
{"id": "C80", "title": "IMU residual Jacobians are derivatives", "statement": "Each Jacobian returned by ImuModel::Evaluate, before the whitening and the change of parametrisation, is the derivative of the residual with respect to its parameter block, a pose being perturbed on the right by the exponential.", "quantifier": "every start pose, end pose, velocities, bias and preintegrated state away from the branch points of the logarithm", "why_tests_cant": "numerical differentiation at sampled poses only, with a tolerance", "anchors": ["models/imu_model.cxx: Evaluate"]}
{"id": "C84", "title": "Preintegration composes", "statement": "When the interval is split at one of its samples, the preintegrated state of the whole is that of the first part followed by that of the second, and the end state predicted through the two parts is the one predicted by the whole.", "quantifier": "every sequence of samples, every inner sample, every start pose and velocity", "why_tests_cant": "unbounded sequences, continuum of poses", "anchors": ["models/imu_model.cxx: integrate", "models/imu_model.cxx: split", "models/imu_model.cxx: computeEndState"]}
{"id": "C81", "title": "The preintegration's linear model is its linearisation", "statement": "The matrices A and B reported by ImuModel::dynamics are the linearisation of the dynamics in the error state and in the bias, errorStateDynamics is that linear map, and every covariance of a history is symmetric and positive semidefinite.", "quantifier": "every state, reading, bias, disturbance and every sequence of samples", "why_tests_cant": "numerical differentiation at sampled states; unbounded sequences", "anchors": ["models/imu_model.cxx: dynamics", "models/imu_model.cxx: errorStateDynamics", "models/imu_model.cxx: integrate"]}
{"id": "C82", "title": "Uniform acceleration is integrated exactly", "statement": "For constant readings without rotation the preintegrated velocity is a T and the preintegrated position is a T^2 / 2.", "quantifier": "every specific force, bias and sequence of sampling times", "why_tests_cant": "tests compare with tolerances at high rates", "anchors": ["models/imu_model.cxx: integrate"]}
{"id": "C83", "title": "dStatedBias is the derivative with respect to the bias", "statement": "The matrix dStatedBias is the derivative of the preintegrated state with respect to the bias used for integration.", "quantifier": "every sequence of samples and every bias", "why_tests_cant": "numerical differentiation on one random sequence with tolerance 1e-4", "anchors": ["models/imu_model.cxx: integrate", "models/imu_model.h: dStatedBias"]}
{"id": "C85", "title": "The information matrix exists", "statement": "With positive input variances the covariance inverted by ImuModel::finished is positive definite whenever at least one sample was integrated.", "quantifier": "every sequence of samples", "why_tests_cant": "singularity depends on the number and contents of the samples", "anchors": ["models/imu_model.cxx: finished", "models/imu_model.cxx: integrate"]}
{"id": "C86", "title": "Relative carrier phase Jacobians", "statement": "The eight Jacobian blocks of the relative carrier phase factor are together the derivative of its residual in every direction of the parameters.", "quantifier": "every state with unit poses away from the satellites, every direction", "why_tests_cant": "continuum; the test uses a numerical derivative at one state with a tolerance that hides the missing Sagnac term", "anchors": ["models/relative_carrier_phase_model.cxx: RelativeCarrierPhase::Evaluate"]}
{"id": "C87", "title": "Pseudorange factor Jacobians", "statement": "The six Jacobian blocks of the pseudorange factor are together the derivative of its weighted residual, for every weight matrix.", "quantifier": "every state with unit poses away from the satellite, every weight, every direction", "why_tests_cant": "continuum; the tests use diagonal weights and loose tolerances for the Doppler", "anchors": ["models/prange_model.cxx: PseudorangeModel::Evaluate"]}
{"id": "C88", "title": "Pose anchor", "statement": "The residual of the pose anchor vanishes exactly at the anchor, does not depend on whether Jacobians are requested, and depends on the pose only.", "quantifier": "every anchor, pose and weights", "why_tests_cant": "continuum; the difference between the overloads shows only for long translations with small rotations", "anchors": ["models/pose_error_model.cxx: PoseError::Evaluate"]}
{"id": "C89", "title": "Kepler's equation solver", "statement": "The Newton iteration for the eccentric anomaly ends after at most six steps, so the limit of thirty is never what ends it, and its result is within 2e-26 of the one solution of Kepler's equation (in exact arithmetic).", "quantifier": "every eccentricity a message can carry (32 bits times 2^-33) and every mean anomaly", "why_tests_cant": "continuum of eccentricities and anomalies; the tests use one almost circular orbit", "anchors": ["common/satellite/satellite_state.cxx: eph2Sat (35-40)"]}
{"id": "C90", "title": "Satellite velocity is the derivative of its position", "statement": "The velocity of a broadcast orbit is the derivative of the position with respect to time, and it is defined whenever the ephemeris is fresh.", "quantifier": "every ephemeris with eccentricity below one and every time", "why_tests_cant": "the test compares with a numerical derivative of one orbit, with a tolerance above the effect", "anchors": ["common/satellite/satellite_state.cxx: eph2Sat (42-93)"]}
{"id": "C91", "title": "Satellite clock", "statement": "The clock bias is the polynomial of the interface document at the time since the clock reference time plus the relativistic correction -2 r v / c^2, and the drift is the rate of the polynomial.", "quantifier": "every ephemeris and time", "why_tests_cant": "in recorded data the two reference times agree and the quadratic term is zero", "anchors": ["common/satellite/satellite_state.cxx: eph2Sat (95-102)"]}
{"id": "C92", "title": "Kepler's laws", "statement": "Without corrections the computed orbit obeys Kepler's three laws: ellipse with the focus in the centre of the earth, constant angular momentum along the normal of the orbit, mean motion from the semi-major axis; and the vis-viva equation holds.", "quantifier": "every uncorrected orbit with eccentricity below one, every time", "why_tests_cant": "continuum", "anchors": ["common/satellite/satellite_state.cxx: eph2Sat (26-93)"]}
{"id": "C93", "title": "GLONASS equation of motion", "statement": "The right hand side is gravity of an oblate earth in a frame turning with it: the Jacobi integral changes at the rate of the power of the extra acceleration only, and the equation commutes with turns about the axis and with the reflection at the equator.", "quantifier": "every position off the centre, velocity, extra acceleration", "why_tests_cant": "continuum", "anchors": ["common/satellite/satellite_state.cxx: glonassOrbit"]}
{"id": "C94", "title": "GLONASS propagation", "statement": "The propagation ends, makes steps of at most a minute in one direction that add up to the requested time to a nanosecond, and its result is determined by the ephemeris and the time.", "quantifier": "every ephemeris, time and previous content of the state", "why_tests_cant": "unbounded time spans and call histories", "anchors": ["common/satellite/satellite_state.cxx: eph2Sat for GLONASS"]}
{"id": "C95", "title": "Light time iteration", "statement": "The iteration for the time of transmission ends from every start, the light time equation has one solution, and the returned position is within half a micrometre of the position at that solution.", "quantifier": "every orbit with speed between one and ten kilometres per second, every receiver within ten thousand kilometres of the centre of the earth", "why_tests_cant": "continuum of orbits and receivers, unbounded loop", "anchors": ["common/satellite/satellite_cache.cxx: SatelliteCache::update", "models/prange_model.cxx: computeConstants", "sim/sensors/gnss.cxx"]}
{"id": "C96", "title": "Simulated antenna velocity", "statement": "The velocity of the antenna used for the simulated Doppler is the time derivative of the simulated antenna position.", "quantifier": "every pose, body velocity, lever arm and origin of the local frame", "why_tests_cant": "continuum of poses", "anchors": ["sim/sensors/gnss.cxx: GnssSim::sample (98-104)"]}
{"id": "C97", "title": "Simulated accelerometer", "statement": "The simulated accelerometer measures the specific force: the acceleration in the world frame minus gravity, in body axes.", "quantifier": "every pose, velocity and acceleration", "why_tests_cant": "the tests use a level car and cannot separate the frames", "anchors": ["sim/sensors/imu.cxx: ImuSim::sample (26-31)"]}
{"id": "C98", "title": "Simulated motion", "statement": "A motion with constant acceleration on a straight line is integrated exactly, whatever the step.", "quantifier": "every initial state, acceleration, step and number of steps", "why_tests_cant": "unbounded runs", "anchors": ["sim/dynamics/dynamics.cxx: plus, Dynamics::step"]}
{"id": "C99", "title": "Waypoint command", "statement": "The command is bounded, turns the car towards the waypoint, and never leads away from it on a straight line.", "quantifier": "every pose and waypoint list", "why_tests_cant": "continuum of poses", "anchors": ["sim/dynamics/car.cxx: WaypointFollower::follow"]}
{"id": "C100", "title": "Car controller", "statement": "The wheel torques give the accelerations the controllers ask for, and the controllers use their rate and integral gains.", "quantifier": "every car, command and state", "why_tests_cant": "continuum of options", "anchors": ["sim/dynamics/car.cxx: SimCar::controller, compute_wrench", "sim/dynamics/dynamics.cxx: Dynamics::f", "sim/sim.cxx: Sim::step"]}
{"id": "C101", "title": "Geodetic coordinates to positions", "statement": "The position of a latitude, longitude and height lies on the WGS84 ellipsoid for height zero, is displaced along the outward normal by the height, and no point of the ellipsoid is nearer than the height.", "quantifier": "every latitude, longitude and height", "why_tests_cant": "continuum of coordinates", "anchors": ["utils/wgs84.cxx: WGS84::lla2ecef"]}
{"id": "C102", "title": "Positions to geodetic coordinates and back", "statement": "The loop ends for every position outside the core of the earth within six iterations; the coordinates returned give the position back to a hundredth of a millimetre; coordinates are returned from their position to a picoradian and two micrometres.", "quantifier": "every position at least 6300 km from the centre, every coordinates with height above -30 km", "why_tests_cant": "a fixed point iteration over a continuum of positions, with a special case at the poles", "anchors": ["utils/wgs84.cxx: WGS84::ecef2lla, lla2ecef"]}
{"id": "C103", "title": "Local frame", "statement": "The frame of a place has the axes north, east and down, in which latitude and longitude grow and the height falls; local coordinates are the components of the way from the origin, and the conversions are inverse to each other.", "quantifier": "every place", "why_tests_cant": "continuum of places and displacements", "anchors": ["utils/wgs84.cxx: WGS84::q_e2n, dq_ecef2ned, lla2ned, ned2lla"]}
{"id": "C104", "title": "Azimuth and elevation", "statement": "Azimuth and elevation of a satellite give the direction to it from the receiver in the local frame, lie in their ranges, are returned for a satellite placed with them, and the elevation is positive exactly above the horizon.", "quantifier": "every receiver and satellite", "why_tests_cant": "continuum of positions, branch cuts of the angles", "anchors": ["common/satellite/azel.cxx: los2AzEl, getAzEl"]}
{"id": "C105", "title": "Tropospheric delay", "statement": "The delay is not negative, falls with the elevation, is between half a metre and two and a half metres in the zenith, is bounded above the horizon and continuous in the height.", "quantifier": "every place, height and elevation", "why_tests_cant": "extreme elevations and heights", "anchors": ["common/satellite/atm_correction.cxx: computeTroposphericDelay"]}
{"id": "C106", "title": "Ionospheric delay", "statement": "The delay has a value between 1.49 m and 17.3 m for every place, time and direction, does not depend on the day or on the turn of the longitude, and no denominator vanishes.", "quantifier": "every place, time and direction", "why_tests_cant": "continuum of places, times and directions; clamped quantities", "anchors": ["common/satellite/atm_correction.cxx: computeIonosphericDelay, computeAtmCorrection"]}
{"id": "C107", "title": "Generated covariance code", "statement": "The assignments that the filter generator writes for the propagation and for the update of a measurement leave in the storage of the covariance and of the error state exactly the blocks of F P Fᵀ + G Q Gᵀ + Qx with the second-order F and G, of P - K H P and of K r with K = P Hᵀ (H P Hᵀ + R)⁻¹.", "quantifier": "every configuration for which code is generated and in which no state, input or measurement has one dimension, all sizes of the variable states, all values", "why_tests_cant": "the generated code depends on the configuration; the project's own test compares one random state of one configuration", "anchors": ["core/ekf/ekf_gen/ekf_gen_matrix_manip.py: block_sparse_propagate_covariance, sparse_meas_update, commit_mat", "core/ekf/rtk_ekf.yaml"]}
{"id": "C108", "title": "Every configuration gets its filter", "statement": "For every configuration of states, inputs, dynamics and measurements the generator writes the propagation and the updates.", "quantifier": "every configuration", "why_tests_cant": "unbounded family of configurations", "anchors": ["core/ekf/ekf_gen/ekf_gen_matrix_manip.py: block_sparse_propagate_covariance, sparse_meas_update", "core/ekf/ekf_gen/symb_algebra.py: factor_last_term"]}
{"id": "C109", "title": "The filter keeps covariances", "statement": "After any history of generated predictions and updates that starts with a covariance, the stored matrix, as it is read, is symmetric and positive semidefinite, and an update makes no variance larger.", "quantifier": "every configuration for which code is generated and in which no state, input or measurement has one dimension, all histories, all Jacobians, time steps, sizes and noise covariances (positive definite for measurements)", "why_tests_cant": "unbounded histories and values; the tests look at one step of one configuration", "anchors": ["core/ekf/ekf_gen/ekf_gen_matrix_manip.py: block_sparse_propagate_covariance, sparse_meas_update"]}
{"id": "C110", "title": "The header of a log file describes its records", "statement": "For every stream whose names the logger accepts, the numpy type that log_reader.py builds from the header reads back exactly the logged records: the same number of records, and every number of every value under its name and index.", "quantifier": "all packs of loggable types and names, all sequences of records, all values", "why_tests_cant": "the tests compare a few header entries and read the bytes back in C++; the Python reader is never run on a file of the logger, and types, names, values and record counts are unbounded", "anchors": ["common/logging/log_format.h: format, makeFormat", "common/logging/log_format.cxx: format", "common/logging/serialize.cxx", "common/logging/log_reader.py: make_dtype, load"]}
{"id": "C111", "title": "The dense forms of the generated classes agree with their blocks", "statement": "ErrorState::dense, Covariance::dense, ProcessCovariance::dense and the dense Jacobians, as generated for a configuration, hold exactly their blocks, block after block with one common set of offsets; covariances are symmetric, unused blocks are zero, nothing is left uninitialised; fromDense inverts dense, size() is the size of the dense form, and a Covariance made from a ProcessCovariance has its dense form.", "quantifier": "every configuration, all counters of variable states that fit their buffers, all values, all enumeration orders of the argument sets", "why_tests_cant": "configurations, counters and the hash order of Python sets are unbounded; the tests use one configuration with one set of counters", "anchors": ["core/ekf/ekf_gen/ekf_gen_state.py: make_dense_vector, make_dense_matrix, from_dense, state_size, covariance_from_process_cov", "core/ekf/ekf_gen/ekf_gen.py: make_jacobian_dense_impl, organize_states", "common/matrix_defs.h: tile"]}
{"id": "C112", "title": "Near the identity the series continue the closed forms", "statement": "Below their thresholds the exponentials and logarithms of Quat, DQuat, SO3 and SE3 and their Jacobians replace quotients by polynomials. Each polynomial must differ from the quotient it replaces only by a term of higher order, so that log(exp(x)) = x holds near the identity, too, up to an error that double precision cannot resolve.", "quantifier": "for all rotation vectors and tangent vectors, with no lower limit of the angle", "why_tests_cant": "The polynomials are used only for angles below 2e-3, 1e-4 or 4e-6; tests with random vectors never get there, and a wrong coefficient changes results by less than the tolerances of tests.", "anchors": ["common/math/quat.h: exp, log", "common/math/dquat.h: exp, log", "common/math/so3.h: exp, log", "common/math/se3.h: exp, log"]}
{"id": "C113", "title": "Configuration values are read or the program stops", "statement": "Config::get follows the path of the key through the nested maps of the file: a value of the asked type at the end of the path is returned, a required value that is not there stops the program, an optional one leaves the default, and nothing is read outside the file's values. Matrices are read row by row, a written matrix is read back, and the covariances of the post processor are the squares of the deviations in the file.", "quantifier": "all yaml trees, all keys with any number of levels, all matrix sizes, all previous contents of the variable", "why_tests_cant": "The trees, keys and sizes are unbounded; lists of the wrong length read memory beyond their end and usually give numbers, and uninitialised memory is often zero.", "anchors": ["utils/config.h: get, convert", "tools/post_process.cxx: getStateCovariance, getMeasurementCovariance, main", "config/rtk_ekf_post_process.yaml: P0_stdev, process_stdev"]}
{"id": "C114", "title": "The post processor gives every record of the log to the filter", "statement": "Within the 45 s that are processed every IMU sample and every GNSS observation of the log reaches the filter exactly once and in order, observations of one epoch in one bundle, and estimates are logged every 10 ms.", "quantifier": "all logs: any number of records, any times, any interleaving of the streams", "why_tests_cant": "There is no test of the program; losses depend on the gaps between the stamps of unboundedly many records.", "anchors": ["tools/post_process.cxx: getState, main", "common/logging/log_reader.cxx: LogReader::read", "common/logging/log_reader.h: setMaintenanceCallback"]}
{"id": "C115", "title": "The post processor starts at the configured place", "statement": "The transform T_I2e that the post processor starts from is a unit dual quaternion; it takes the origin of the local frame to the configured place and its axes to the directions of the configured heading. The initial input, taken from the truth of a simulation, is what the simulated accelerometer measures.", "quantifier": "all places outside of the core of the earth, all headings, all poses and accelerations of the truth", "why_tests_cant": "There is no test of the program; the delivered configuration has the heading zero, for which the error vanishes.", "anchors": ["tools/post_process.cxx: getState", "utils/wgs84.cxx: dq_ecef2ned", "common/math/dquat.h: real, transformp"]}
{"id": "C116", "title": "Sums and differences of generated filter states undo each other", "statement": "For every configuration of the generator: x + dx adds to each element in use and to nothing else, x += dx does the same, x + 0 is x, x - x is 0, (x + dx) - x is dx and y + (x - y) is x; what the memory holds behind the counters influences none of these, nor whether predict runs.", "quantifier": "all configurations (numbers and kinds of fixed and variable states, array sizes), all states, error states and contents of uninitialised memory", "why_tests_cant": "A test instantiates one configuration and a few random states; uninitialised memory is usually zero in a test.", "anchors": ["core/ekf/ekf_gen/ekf_gen_state.py: copy_state, boxplus_impl, self_plus_impl, boxminus_impl, state_set_identity, finite_state, finite_error_state", "core/ekf/ekf_gen/ekf_gen_templates.py: STATE_IMPL_TEMPLATE, EKF_IMPL_TEMPLATE", "core/ekf/ekf_gen/ekf_gen_utils.py: error_state_size, is_state_manifold"]}
{"id": "C117", "title": "Quaternion objects own their values", "statement": "A quaternion, dual quaternion or error state that is constructed from a value or copied has that value and is independent of all other memory; assignment gives the value of the right side and changes nothing else; q *= p is the product, also if p is q; the parts of a dual quaternion are its numbers.", "quantifier": "all contents of memory, all addresses of the objects, all values", "why_tests_cant": "Aliasing, dangling maps and self-multiplication depend on where objects lie; a test of values sees none of it.", "anchors": ["common/math/quat.h: Quat, operator=, operator*=", "common/math/dquat.h: DQuat, operator=, real, dual", "models/imu_state.h: ImuErrorState"]}
{"id": "C118", "title": "The gathering tool records what the receiver reports", "statement": "For every RAWX message exactly the measurements on supported signals are logged, in order, with their carrier frequency, time, pseudorange, range rate and phase; for every history of SFRBX messages the ephemerides of different satellites and constellations do not mix, and each logged one is complete, logged once, and within two hours of the clock.", "quantifier": "all messages (counts, signals, channels, values), all histories of subframes of any satellites, all clock readings", "why_tests_cant": "There is no test of the tool: it needs a receiver; the interleavings of satellites and the values of the bytes cannot be enumerated.", "anchors": ["tools/gather_ephemeris.cxx: get_freq, gotUbx, handle, verify", "parsers/ubx/ubx_defs.h: RXM_RAWX_t, RXM_SFRBX_t", "common/measurements/gnss_observation.h: GnssObservation"]}
{"id": "C119", "title": "A closed log is on disk exactly what was logged", "statement": "For every sequence of calls of the log writer that its checks accept, on every file system, the directory named by the start time holds exactly the manifest, one data file per stream with the logged records in order, and one description per stream with their number; no other directory changes; different seconds give different directories; and the end time is the one given to `close`.", "quantifier": "all file systems, all start and end times, all sequences of calls (streams, records, amendments), all iteration orders of the hash map", "why_tests_cant": "The tests write one stream into one fresh directory and do not reopen or destroy the logger while looking at the manifest.", "anchors": ["common/logging/log_writer.cxx: createLogId, openLog, createManifest, initStream, endStream, close, amends", "common/logging/log_writer.h: Logger, log, initStream", "utils/file.h: makeDirectoryIfNotExist, removeDirectoryIfExist"]}
{"id": "C120", "title": "Opening a log finds its streams, its times and the logs it amends", "statement": "For every file system, opening a log whose amendments end gives every stream to the first log that has it and the earliest start and latest end; it ends for every log; what the writer wrote can be opened; the latest log among any files is the one that started last.", "quantifier": "all file systems and chains of amendments of any length, all directories of any names, all start times", "why_tests_cant": "The tests open one log that amends one other; cycles, missing manifests and any number of directories cannot be enumerated.", "anchors": ["common/logging/log_reader.cxx: getLatestLog, openLog, isLogId", "common/logging/log_writer.cxx: createLogId, amends", "sim/simulate.cxx: main"]}
{"id": "C121", "title": "A simulation runs for the configured time at the configured rates", "statement": "For all options, the simulation ends, at the first step that reaches the configured time; it logs the truth at every step and each sensor at its configured rate, with the times of the steps.", "quantifier": "all steps, durations, rates and start times, all numbers of satellites", "why_tests_cant": "The program is run with one configuration; the values of the options and the number of steps are unbounded.", "anchors": ["sim/simulate.cxx: main", "sim/sim.cxx: Sim::step", "sim/sensors/gnss.cxx: GnssSim::sample", "sim/sensors/imu.cxx: ImuSim::sample"]}
{"id": "C122", "title": "Simulated noises are independent and have the configured strength", "statement": "Any two different noises of a simulation are uncorrelated; a bias walks with the configured strength, whatever the sample rate.", "quantifier": "all options, all pairs of noise sources (sensor, axis, satellite, time), all expectations", "why_tests_cant": "A test sees one sequence of numbers; that two generators give the same sequence is not visible in any single sensor.", "anchors": ["common/random.h: randomNormal", "sim/sensors/gnss.cxx: GnssSim, sample", "sim/sensors/imu.cxx: ImuSim, sample", "sim/sim.cxx: Sim::step"]}
{"id": "C123", "title": "Numerical Jacobians approximate derivatives", "statement": "For all functions, points and steps, the central differences agree with the derivatives, on vectors and along the tangent directions of the rotation groups, with an error given by the square of the step and the third derivative; on products and inverses of quaternions and dual quaternions they are the adjoints.", "quantifier": "all functions with a bounded third derivative, all unit quaternions and dual quaternions, all steps up to 1e-6, both sides", "why_tests_cant": "These functions are the reference that the other unit tests compare with; a test of them compares single random values with a tolerance of 1e-6.", "anchors": ["common/numerical_jacobian.h: perturb, difference, compute_jac, left_jac, right_jac, left_jac2, right_jac2, left_jac3, right_jac3"]}
{"id": "C124", "title": "Messages print their text and do nothing else", "statement": "At every logging level every call of a message function prints its own text with its values in the holes exactly if its severity is at least the level, and never throws; a failed check prints its text and ends the program.", "quantifier": "all call sites of the program, all levels, all values, all conditions; for the receiver all parser states and byte streams", "why_tests_cant": "The messages of rare branches never run in the tests; formats are checked only at run time and the overloads that are chosen depend on the argument types.", "anchors": ["common/print.h: fmt, dbg, info, warn, error, fatal", "common/print.cxx: dbg, info, warn, error, fatal", "common/check.cxx: check, weak_check", "parsers/ubx/ubx.cxx: receive_callback", "sim/simulate.cxx: main"]}
{"id": "C125", "title": "The progress display is right and always defined", "statement": "For every number of items, every width and theme and every sequence of calls at non-decreasing times the bar has its width, shows the completed part to half a step of the theme, is full at the end, is printed at most once in 34 ms before the end, shows the elapsed time, the time still needed at the average pace and a finite rate, and no call is undefined.", "quantifier": "all totals, widths, themes, numbers of completed items, clock readings and sequences of calls", "why_tests_cant": "The display depends on the clock and is not tested; the undefined conversions need runs that are long, empty or fast.", "anchors": ["utils/progress_bar.cxx: print, ProgressBar, init, set_theme_solid", "utils/progress_bar.h: ProgressBar"]}
{"id": "C126", "title": "Streams hold what their headers announce and readers read what was written", "statement": "Every call that logs a record passes values of exactly the types announced when its stream was initialised, every reader reads the types that were written, so that reading gives the logged records back; the key numbers Python uses are those of the enumeration, and the streams a plotting tool reads are written.", "quantifier": "all calls of the programs, all logged values and covariances, all chains of amended logs, all enumerations of plain names", "why_tests_cant": "The number and the types of the logged values are not compared with the header by the compiler or at run time; the tools are not tested.", "anchors": ["tools/post_process.cxx: main, getState", "sim/simulate.cxx: main", "core/ekf/rtk_ekf_estimator.cxx: init, handlePointPos, handleFixAndHold, handleObsMeas", "common/logging/log_writer.h: log, initStream", "common/logging/log_reader.h: getNext", "common/logging/log_key.h: LogKey", "plotting/plot_keys.py: get_keys", "tools/plot_post_process.py: main"]}
{"id": "C127", "title": "Sums and differences of preintegrated states undo each other", "statement": "Adding an error state to a preintegrated state and subtracting the state gives the error state back, a state minus itself is zero, `+` and `+=` agree and keep the rotation a rotation, and adding the difference of two states to the second gives the first; the ten numbers a state is made of are read back in their order and no others.", "quantifier": "all states with unit quaternions, all error states that turn by at most 3.14 radians, all vectors and all indices", "why_tests_cant": "The tests take random states and small errors; states of the opposite sign and the edges of the index never occur.", "anchors": ["models/imu_state.cxx: operator+, operator+=, operator-", "models/imu_state.h: ImuState, ImuErrorState, operator()"]}
{"id": "C128", "title": "Timestamps from and to the calendar, seconds and texts", "statement": "fromCalendar gives the normalised time whose instant is the nanosecond closest to the date, with days counted one by one from 1970; breaking a time down and putting it together gives it back; the text of a time says its date, time of day and milliseconds, is different for different milliseconds and is defined for every time; a time from a pair of integers, from a number of seconds or after adding whole seconds is exact and normalised; weeks are counted without a gap; random times are normalised.", "quantifier": "all valid dates whose year fits, all times of day, all normalised times, all integers and all rational numbers of seconds", "why_tests_cant": "The tests convert one time and print the current one; dates before 1970, leap rules, carries and markers never occur.", "anchors": ["common/utctime.cxx: fromCalendar, str, operator<<, Random, week, operator+, operator-", "common/utctime.h: UTCTime"]}
{"id": "C129", "title": "Satellites and delays agree with the reference RTKLIB in the repository", "statement": "For the same ephemeris and time, the position and clock of a GPS satellite, the position and clock of a GLONASS satellite, the delay of the ionosphere and the delay of the troposphere computed by the code are those of the copy of RTKLIB the tests compare with; differences of times and times of the week agree; satellite numbers and pairs of system and number correspond; the reference reads its tables inside their bounds.", "quantifier": "all ephemerides with eccentricity up to one half, all times, all positions, heights, azimuths and elevations, all satellite numbers, any number of integration steps", "why_tests_cant": "The tests compare single ephemerides at single times with tolerances; times of clock other than the time of ephemeris, perigee, satellites below the horizon and states that were filled in before never occur.", "anchors": ["common/satellite/satellite_state.cxx: eph2Sat, glonassOrbit", "common/satellite/atm_correction.cxx: computeIonosphericDelay, computeTroposphericDelay", "third_party/rtklib/rtklib.cxx: timediff, satsys, satno, eph2pos, geph2pos, glorbit, deq, var_uraeph, time2gpst, ionmodel, tropmodel", "third_party/rtklib/rtklib_adapter.cxx: toRtklib"]}
{"id": "C130", "title": "Galileo words and calendar dates are decoded as in the reference RTKLIB", "statement": "Bit fields, signed bit fields and the six Galileo I/NAV words are decoded by the code as by the copy of RTKLIB the tests compare with: the same words are accepted, and orbit, clock, times, issue of data and health are the same; the reference's calendar gives the day numbers of the Gregorian calendar and the code's calendar agrees with it.", "quantifier": "all byte contents of the six words, all ephemerides without collected words, all bit positions and lengths up to 32, all dates and all times from 1970 to 2099", "why_tests_cant": "The tests decode one set of words of one satellite; other weeks, issues of data above 255, invalid times and unhealthy satellites never occur, and no test of the repository covers the dates of the reference.", "anchors": ["common/ephemeris/galileo.cxx: parse, frame0, frame1, frame2, frame3, frame4, frame5", "common/utctime.cxx: fromCalendar", "third_party/rtklib/rtklib.cxx: decode_gal_inav, getbitu, getbits, gst2time, epoch2time, time2epoch"]}
{"id": "C131", "title": "Copies of ring buffers and error states are objects of their own", "statement": "Calls on several ring buffers do not affect each other; a copied ring buffer has the elements of the original and is independent of it afterwards, and both can be destroyed; a copied error state of the preintegration has its values, also in its named parts, independently of the original.", "quantifier": "all capacities, all sequences of calls on any number of buffers in any order, all element types; all memories, addresses and values of error states", "why_tests_cant": "No test copies a ring buffer; the test that copies an error state reads the copy while the original is unchanged and alive.", "anchors": ["common/circular_buffer.h: CircularBuffer", "core/factor_graph.h: FactorGraph", "core/sat_manager.h: SatManager", "models/imu_state.h: ImuErrorState", "models/imu_state.cxx: ImuErrorState"]}
{"id": "C132", "title": "Times reach and leave the reference simulator unchanged", "statement": "The reference simulator converts between calendar dates and GPS weeks and seconds as the Gregorian calendar has it, in both directions and back; the adapter gives it the week and the seconds of the week of the time it is called with, and a date of the ephemeris.", "quantifier": "all calendar dates and times of day from 1980 on, all GPS weeks and seconds, all contents of the uninitialised memory", "why_tests_cant": "The conversions are not tested; the only test that uses the adapter compares with a one-sided tolerance of 4 m and at one time.", "anchors": ["third_party/gps_sdr_sim/gps_sdr_sim.cxx: date2gps, gps2date", "third_party/gps_sdr_sim/sdr_adapter.cxx: toSdr", "common/utctime.cxx: week, GpsTow"]}
{"id": "C133", "title": "The reference simulator computes what the code computes", "statement": "Position, velocity and clock of a satellite, latitude, longitude and height, azimuth and elevation, ionospheric delay and range of the reference simulator are those of the code for the same inputs, up to stated differences; all its loops end; it leaves its inputs as they were.", "quantifier": "all ephemerides with eccentricity up to 1/2 and all times, all points of space, all directions, all times and places for the ionosphere, all light times", "why_tests_cant": "One place, one satellite and one time are compared, with a one-sided tolerance; that the loops end for every point and that the differences are bounded are statements about all inputs.", "anchors": ["third_party/gps_sdr_sim/gps_sdr_sim.cxx: satpos, xyz2llh, ltcmat, ecef2neu, neu2azel, ionosphericDelay, computeRange", "third_party/gps_sdr_sim/gps_sdr_sim.h: ephem_t, range_t", "common/satellite/satellite_state.cxx: eph2Sat", "common/satellite/atm_correction.cxx: computeIonosphericDelay", "common/satellite/azel.cxx: getAzEl"]}
{"id": "C134", "title": "Errors reach the caller", "statement": "Errors compare equal if their texts are equal, a text stays readable for as long as the error, no result is an error without a cause, a sequence of RETURN_IF_NOT_OK returns the first error and runs nothing after it, and RETURN_OR_ASSIGN assigns the value or returns the error of one evaluation of its argument.", "quantifier": "all memories, texts, functions with any state, sequences of steps of any length", "why_tests_cant": "The tests use functions without state, for which evaluating twice cannot be seen, and texts with static lifetime; the order and number of evaluations in every sequence is a statement about all programs.", "anchors": ["common/error.h: Error, create, operator==, operator<<, RETURN_IF_NOT_OK", "common/error_result.h: ErrorResult, RETURN_OR_ASSIGN"]}
{"id": "C135", "title": "JSON values survive being written and read", "statement": "JSON::Load(j.dump()) is j for every JSON value; the reader ends on every text; what it has read from any text is read again as itself; numbers with exponents and escapes are read as the notation has it, and texts that are not JSON are refused.", "quantifier": "all JSON values of any depth and width, all strings of bytes, all depths and tabulators of white space, all texts that follow", "why_tests_cant": "The library has no tests; nesting and strings are unbounded, and that the mutually recursive reader ends on every text is a statement about all texts.", "anchors": ["third_party/simplejson/json.hpp: json_escape, dump, ToString, consume_ws, parse_object, parse_array, parse_string, parse_number, parse_bool, parse_null, parse_next, Load"]}
{"id": "C136", "title": "The programs accept exactly the command lines meant", "statement": "A program goes on exactly if every required option is there, every option at most once, each followed by its value, in any order; every option then holds what follows its name; -x is an option unless x is a decimal number; the parser ends on every command line and no command line terminates a program by an exception.", "quantifier": "all command lines of any length with arguments of any length, all declarations of arguments for ending and for required arguments, the four programs", "why_tests_cant": "The space of command lines is unbounded; tests try a few; that nothing else is accepted is a statement about all of them.", "anchors": ["third_party/argparse/argparse.hpp: is_decimal_literal, is_optional, is_positional, consume, validate, parse_args_internal, parse_args_validate", "tools/gather_ephemeris.cxx: main", "tools/verify_ephemeris.cxx: main", "tools/post_process.cxx: main", "sim/simulate.cxx: main"]}
{"id": "C137", "title": "The library of cyclic redundancy checks computes remainders", "statement": "For every width, polynomial, initial and final value and order of bits the check of a message is the remainder of the message polynomial modulo the generator; the table gives the same as the calculation bit by bit; a check continued with further bytes is the check of the whole message; bursts up to the width are detected; the 51 checks offered have the values their comments state; crc24 of the project is the library's CRC_24 with initial value zero.", "quantifier": "all parameters that fit a type of at least 8 bits, all messages of any length and all ways of cutting them in two", "why_tests_cant": "Tests compare check values of one message; the widths below 8, the reflected and plain orders, the shifts and the tables make many paths, each for infinitely many messages.", "anchors": ["third_party/crcpp/crc.h: Reflect, Finalize, UndoFinalize, CalculateRemainder, InitTable, Calculate, BoundedConstexprValue", "utils/crc.cxx: crc24"]}
{"id": "C138", "title": "Evaluate of the factors writes what a solver asks for, and nothing else", "statement": "Given memory in which the parameter blocks can be read and the blocks asked for can be written and do not overlap, Evaluate of each factor writes the residual and exactly the Jacobians asked for, row by row, with respect to the eight numbers of a pose such that the local parameterisation gives back the Jacobian with respect to the six generators; it writes nothing else, and the residual depends only on the parameters, not on which Jacobians are asked for nor on later changes of the arguments of the constructor.", "quantifier": "all five factors, all objects, parameters, memories and all choices of Jacobians asked for", "why_tests_cant": "Tests evaluate with all or no Jacobians into fresh matrices; the order of rows and columns, the intermediate use of the solver's memory in ImuModel and references that outlive their objects only show in particular combinations.", "anchors": ["models/gnss_dynamics_model.cxx: GnssDynamics, Evaluate", "models/relative_carrier_phase_model.cxx: Evaluate", "models/prange_model.cxx: Evaluate", "models/pose_error_model.cxx: Evaluate", "models/imu_model.cxx: Evaluate"]}
{"id": "C139", "title": "Factors show a solver the states they were built from, as their models read them", "statement": "A collection gives the arguments of its constructor in their order; every factor shows a solver exactly the states it was built from, with the dimension and the identifier of their class and as many numbers as their dimension; these states, in this order, are the parameter blocks that Evaluate of the model of the factor reads; and a new graph has one node, the state of its options with all switches on.", "quantifier": "all factors, all arguments of the declared types, all memories and options", "why_tests_cant": "Tests read the items of one small collection; no test connects the states of a factor with the blocks its model reads, nor what memory held before a node is made.", "anchors": ["common/hetero_collection.h: HeteroCollection, base_items, get, get_base", "core/states/base.h: State, StateTemplate", "core/factors/imu.h: Imu", "core/factors/relative_carrier_phase.h: RelativeCarrierPhase", "core/factor_graph.cxx: FactorGraph"]}
{"id": "C140", "title": "The comparisons of the tests accept what is close and nothing else", "statement": "matrixClose accepts two matrices if and only if they have the same size and every pair of numbers is finite and within the relative tolerance; a failure reports the greatest error and marks exactly the numbers that are not close. quatClose and dquatClose accept two unit quaternions or poses if and only if they stand for nearly the same rotation or pose.", "quantifier": "all matrices of all sizes, with finite and non-finite elements, all quaternions and poses, all tolerances", "why_tests_cant": "The comparisons are what the tests themselves rely on; a comparison that accepts too much makes tests pass and shows in none of them.", "anchors": ["common/test_helpers.h: rel_err, matrixClose, print_side_by_side, print_after_one_another, quatClose, dquatClose", "common/defs.h: sign"]}
{"id": "C141", "title": "Random matrices: every element drawn once, uniform ones between their bounds", "statement": "randomNormal and randomUniform set every element of the result once, each from a number of the sequence of its own, and leave the sequence after the last one; the numbers of randomUniform lie between the bounds and every number between them can occur.", "quantifier": "all sizes, sequences, places in the sequence and bounds", "why_tests_cant": "Samples cannot show which numbers never occur, and the only use has bounds that are a whole number apart.", "anchors": ["common/random.h: randomNormal, randomUniformat, randomUniform"]}
{"id": "C142", "title": "Plots show the logged components over their times, and differences at the same time", "statement": "standard_plot draws one panel for each component asked for, and in it, for every record of the log, the logged number over the record's time; the keys of plot_post_process.py exist in the streams; difference_signals subtracts from each estimate the truth at the time of the estimate.", "quantifier": "all logs with any number of records, all paths of names and indices, all times and rates of the two signals", "why_tests_cant": "There are no tests of the scripts; a wrong component or a shifted time gives a plot that looks plausible.", "anchors": ["plotting/standard_plot.py: extract, bottom_field, standard_plot, raw_plot, difference_signals", "tools/plot_post_process.py: main", "common/logging/log_reader.py: load"]}
{"id": "C143", "title": "The plots of observations show every observation in the row of its satellite and frequency", "statement": "plot_obs makes a tab for each constellation and in it one row of three panels for each satellite and frequency, which show all its observations over their times and nothing else; plot_obs_residual makes two panels for each satellite with the components of its residuals.", "quantifier": "all lists of observations with any constellations, satellites and frequencies", "why_tests_cant": "The failing cases depend on which satellites were seen: one satellite alone, an unknown constellation, an observation without frequency.", "anchors": ["plotting/plot_obs.py: plot_obs, plot_obs_residual, GNSS_ID_TO_NAME"]}
{"id": "C144", "title": "The tests are run and a failure is told", "statement": "After cmake and make every test program is in the list; run_tests.sh runs each program of the list, names those that passed and failed, and its exit status is 0 if and only if all of them passed. Every file with tests belongs to a program.", "quantifier": "all sets of test programs, all exit statuses, all orders of linking, all sequences of changes, cmake and make", "why_tests_cant": "A test that is not run cannot fail; what the runner leaves out shows in no test.", "anchors": ["script/run_tests.sh: main", "cmake/GTestRule.cmake: add_gtest", "CMakeLists.txt: add_subdirectory"]}
{"id": "C145", "title": "Seconds added to a time in doubles are right to two nanoseconds", "statement": "With every operation on doubles rounded to nearest, t + s, t - s and UTCTime(s) are normalised and within two nanoseconds of the exact time for every double s of up to 104 days: no whole second is lost or gained although seconds and nanoseconds are found from s separately. More seconds never give an earlier time.", "quantifier": "all roundings to nearest (any rule for ties), all normalised times, all doubles s", "why_tests_cant": "The danger is at doubles just below a whole second, where the rounded product with 1e9 might reach the next second; there are some 2^60 doubles and tests take a few decimal numbers.", "anchors": ["common/utctime.cxx: operator+, operator-, operator+=, operator-=", "common/utctime.h: UTCTime, E9", "sim/simulate.cxx: main", "common/logging/log_reader.cxx: setMaintenanceCallback"]}
{"id": "C146", "title": "Comparisons of differences of times in doubles are the exact ones", "statement": "With every operation on doubles rounded to nearest, fused or not, the twelve comparisons of QuantizedTime, the age limit of two hours of an ephemeris, the end of a run after 45 s the gap of 10 ms between observations, the spacing of 0.1 ms of IMU samples, the age accepted for a satellite position and the period of a simulated sensor decide as the exact numbers of nanoseconds do; toSec is within (|sec| + 4) 2^-53 s and monotone; a time found again from the rounded seconds since another time is at most one nanosecond wrong.", "quantifier": "all roundings to nearest (any rule for ties), fused or separate multiplication and addition, all pairs of normalised times whose difference is an int64_t", "why_tests_cant": "A wrong decision would need a difference next to the threshold with an unlucky rounding, different for positive and negative differences, processors and compilers.", "anchors": ["common/utctime.cxx: toSec, operator-", "common/quantized_time.cxx: operator>, operator>=, operator<, operator<=, operator==, operator!=", "common/quantized_time.h: resolution_half", "common/defs.h: TIME_QUANTIZATION", "tools/post_process.cxx: loadEphemeris, main", "models/imu_model.cxx: ImuModel::integrate", "common/satellite/satellite_state.cxx: eph2Sat", "sim/sensors/gnss.cxx: GnssSim::sample", "sim/sensors/imu.cxx: ImuSim::sample"]}
{"id": "C147", "title": "Fields of broadcast ephemerides become the doubles they stand for", "statement": "Every scaled field of a GPS, Galileo or GLONASS ephemeris is, as a double, the number the interface specification gives for its integer: exactly where the unit is a power of two (or a thousand times one), within 2^-50 relative where it contains pi; different fields give different numbers in the same order; the eccentricity is in [0, 1/2).", "quantifier": "all messages, all fields, all roundings to nearest (any rule for ties)", "why_tests_cant": "The powers of two are decimal literals of 16 digits; which of them round to a neighbour of the power of two does not show in tests with tolerances, and the fields have up to 2^32 values.", "anchors": ["common/ephemeris/eph.h: P2_5, P2_33, P2_43, P2_55, P2_59, PI", "common/ephemeris/gps.cxx: frame1, frame2, frame3", "common/ephemeris/galileo.cxx: frame1, frame2, frame3, frame4, frame5", "common/ephemeris/glonass.cxx: frame1, frame2, frame3, frame4"]}
{"id": "C148", "title": "Ambiguity resolution ends and fixes whole numbers whatever the rounding does", "statement": "The decorrelation of the ambiguities ends for every input and every arithmetic on finitely many numbers in which < is irreflexive and transitive; what it ends with passes the test of its loop at every place. The search ends in doubles for ambiguities below 2^41, conditional variances up to 2^20 and factors up to one. In doubles the transformation, every candidate of the search and the fix are whole numbers; as long as products, differences and sums stay within 2^53 the transformation has determinant one or minus one, and the fix is exactly the candidate transformed back.", "quantifier": "all sizes, all factors L and D, all ambiguities, all roundings to nearest, all orders of summation with or without fused operations, all results of the numerical inversion", "why_tests_cant": "Termination and exactness depend on the rounding of every single operation, on the compiler's contraction of products and sums and on badly conditioned covariances; tests run a few well conditioned matrices with one compiler.", "anchors": ["core/solver/lambda.cxx: lambda, reduction, integerGaussTransformations, permute, search"]}
{"id": "C149", "title": "Loops with floating point tests end in doubles", "statement": "In doubles, the time steps of the GLONASS integration are exactly those without rounding, at most one more than the whole minutes, and leave at most 1e-9 seconds, for every time difference up to 2^55 s; beyond that the loop need not end. The time of day of the ionosphere model is found after finitely many steps and is the remainder rounded once, which may be the full day. The loop for the eccentric anomaly, which has no limit on its iterations, ends after at most eight tests for every eccentricity and mean anomaly of a message, within 4.87e-15 of the solution of Kepler's equation.", "quantifier": "all doubles as time differences and times of day, all eccentricities up to 1/2 and mean anomalies up to 62, all roundings to nearest (whatever they do with ties), all sine and cosine functions right to 2^-52", "why_tests_cant": "The tolerance of the anomaly loop is one and a half units in the last place; whether a loop cycles between neighbouring doubles depends on single inputs and on the mathematical library, and a test that hits such an input hangs instead of failing.", "anchors": ["common/satellite/satellite_state.cxx: eph2Sat", "third_party/gps_sdr_sim/gps_sdr_sim.cxx: satpos, ionosphericDelay"]}
{"id": "C150", "title": "Rotations stay rotations in doubles", "statement": "In doubles, the product of two nearly normalised quaternions is right to 7/2^52. The composition of n rotations, n up to 2^40 and with factors that miss the length one by up to 2^-48, is within n/2^48 of the exact product and its length within n/2^46 of one, although nothing normalises it; exp and normalize give such factors, exp for every rotation vector up to 2^500 and on both sides of the limit between its two formulas. Up to the length four, exp is within 2^-46 of the exponential series, and the rotation accumulated from n such increments within n/2^45 of the product of the exact rotations. A vector with coordinates up to 2^M is rotated with an error of at most 2^(M-46) per coordinate, in both directions.", "quantifier": "all quaternions with length close to one, all numbers of products up to 2^40, all vectors, all roundings to nearest (whatever they do with ties), fused or separate multiplication and addition", "why_tests_cant": "The drift of the length grows with the number of products; tests compose a few rotations, a filter or an integrator composes one for each sample of its whole run.", "anchors": ["common/math/quat.h: otimes, operator*, operator*=, rotp, rota, exp, normalize", "models/imu_state.cxx: operator+, operator+="]}
{"id": "C151", "title": "Names of generated files and members", "statement": "The generator writes exactly the files that the rule of the build promises, whatever the name of the configuration file; different pairs of states or inputs get different members in the generated Jacobians and in the covariance.", "quantifier": "all names of configuration files, all names of states and inputs that are identifiers", "why_tests_cant": "The two configurations in the repository have names on which both hold; which other names work depends on how the splitting, the capitalisation and the regular expression of two functions fit together, and the promise is made in another language.", "anchors": ["core/ekf/ekf_gen/ekf_gen_utils.py: make_camel, make_snake, jac_member_name", "core/ekf/ekf_gen/ekf_gen.py: ekf_filename_base", "core/ekf/ekf_gen/ekf_gen_matrix_manip.py: block_sparse_propagate_covariance", "cmake/EkfRule.cmake: ekf_cpp"]}
{"id": "C152", "title": "The gate rejects as often as configured", "statement": "A measurement that is consistent with the filter passes a gate with probability p with the chance p, as closely as the grid of limits allows: the limit is the element of the grid whose chi-square probability, with as many degrees of freedom as the measurement has elements, is closest to p. Probabilities from one on accept everything.", "quantifier": "all sizes of measurements, all probabilities, all covariances of the innovation and residuals", "why_tests_cant": "The chance is a property of a distribution; tests with residuals that are zero or tiny pass every gate, and the filter in use has all its gates open.", "anchors": ["core/ekf/ekf_gen/ekf_gen.py: compute_max_mahal", "core/ekf/ekf_gen/ekf_gen_templates.py: DO_UPDATE_TEMPLATE"]}
{"id": "C153", "title": "Light time iteration across two ephemerides", "statement": "The iteration for the time of transmission ends also when the closest ephemeris changes within its steps, and returns a position that differs from the one at the time of transmission by no more than the jump between the two orbits and a millimetre.", "quantifier": "every pair of orbits up to ten kilometres per second, every time of the switch and of the reception, every receiver within ten thousand kilometres of the centre of the earth, every start", "why_tests_cant": "The switch falls into the iteration only for receptions within microseconds of one instant; the loop has no bound on its steps.", "anchors": ["common/satellite/satellite.h: findClosestEphemeris, getState", "common/satellite/satellite_cache.cxx: SatelliteCache::update", "models/prange_model.cxx: computeConstants", "sim/sensors/gnss.cxx"]}
{"id": "C154", "title": "Quaternions changed in place", "statement": "normalize leaves length one and the same direction and is idempotent; invert leaves the inverse and returns the object; neither changes any other memory.", "quantifier": "all contents of memory, all addresses of the objects, all values but zero for normalize", "why_tests_cant": "Flowing off the end of a function is undefined and may look right in a test; maps onto other memory depend on where objects lie.", "anchors": ["common/math/quat.h: normalize, invert, inverse"]}
{"id": "C155", "title": "Equality of motions", "statement": "Two rotations or motions compare equal if and only if they take every point to the same place; jets compare equal if and only if their motions and derivatives are the same; the identity jets fix every point and have zero derivatives.", "quantifier": "all unit dual quaternions, all derivatives", "why_tests_cant": "The pairs that represent the same motion by different numbers are not met by random values.", "anchors": ["common/math/quat.h: operator==", "common/math/dquat.h: operator==", "common/math/jet.h: Jet", "common/math/two_jet.h: TwoJet"]}
{"id": "C156", "title": "The logarithm is the short way", "statement": "The logarithm of a quaternion depends on its rotation only, is at most half a turn long and has no jump near the identity rotation.", "quantifier": "all unit quaternions but those of half turns", "why_tests_cant": "Random quaternions of the tests are compared after exp(log(q)), which is right for both ways; the jump is in a set of measure nearly zero.", "anchors": ["common/math/quat.h: log"]}
