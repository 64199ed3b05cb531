{
 "claims": [
  {
   "property": "C01",
   "status": "proved",
   "theorems": [
    "Verif.Props.CircularBuffer.C01_ring_is_bounded_deque",
    "Verif.Props.CircularBuffer.C01_clear_terminates_empty"
   ],
   "note": "Refinement to a bounded list deque for every N >= 2 and every legal history."
  },
  {
   "property": "C02",
   "status": "proved",
   "theorems": [
    "Verif.Props.CircularBuffer.C02_observers_agree",
    "Verif.Props.CircularBuffer.C02_negative_index_violated"
   ],
   "note": "Observers proved; a negative index passed to operator[] is shown to address the wrong slot (outside the property's range)."
  },
  {
   "property": "C03",
   "status": "partial",
   "theorems": [
    "Verif.Props.CircularBuffer.C03_pop_empty_violated",
    "Verif.Props.CircularBuffer.C03_statement_false",
    "Verif.Props.CircularBuffer.C03_pop_partial"
   ],
   "note": "Violated on the empty buffer (proved for every N); the non-empty case is proved."
  },
  {
   "property": "C04",
   "status": "partial",
   "theorems": [
    "Verif.Props.CircularBuffer.C04_pop_back_violated",
    "Verif.Props.CircularBuffer.C04_push_back_violated",
    "Verif.Props.CircularBuffer.C04_statement_false",
    "Verif.Props.CircularBuffer.C04_lifetimes_partial"
   ],
   "note": "Violated by pop_back, push_back/push_front and eviction by *_front; proved for emplace_back/pop_front/clear histories."
  },
  {
   "property": "C05",
   "status": "partial",
   "theorems": [
    "Verif.Props.Time.C05_compare_partial",
    "Verif.Props.Time.C05_le_ge_violated",
    "Verif.Props.Time.C05_statement_false"
   ],
   "note": "<= and >= are wrong at equal seconds; the other operators proved."
  },
  {
   "property": "C06",
   "status": "proved",
   "theorems": [
    "Verif.Props.Time.C06_add_sub_exact",
    "Verif.Props.Time.C06_round_trip",
    "Verif.Props.Time.C06_invalid_time_overflows"
   ],
   "note": ""
  },
  {
   "property": "C07",
   "status": "proved",
   "theorems": [
    "Verif.Props.Time.C07_add_seconds",
    "Verif.Props.Time.C07_monotone"
   ],
   "note": "Doubles are exact rationals."
  },
  {
   "property": "C08",
   "status": "partial",
   "theorems": [
    "Verif.Props.Time.C08_gps_time_partial",
    "Verif.Props.Time.C08_milliseconds_violated",
    "Verif.Props.Time.C08_milliseconds_always_wrong",
    "Verif.Props.Time.C08_week_overflow_violated",
    "Verif.Props.Time.C08_statement_false"
   ],
   "note": "Wrong for fractional seconds and overflowing from week 3551; proved for whole seconds below week 3550."
  },
  {
   "property": "C09",
   "status": "partial",
   "theorems": [
    "Verif.Props.Time.C09_glonass_tod_partial",
    "Verif.Props.Time.C09_milliseconds_violated",
    "Verif.Props.Time.C09_statement_false"
   ],
   "note": "Wrong for fractional seconds; proved for whole seconds up to 2038."
  },
  {
   "property": "C10",
   "status": "proved",
   "theorems": [
    "Verif.Props.Time.C10_quantised_compare"
   ],
   "note": ""
  },
  {
   "property": "C11",
   "status": "partial",
   "theorems": [
    "Verif.Props.Time.C11_not_transitive_violated",
    "Verif.Props.Time.C11_invalid_compare_violated",
    "Verif.Props.Time.C11_statement_false",
    "Verif.Props.Time.C11_quantised_equality_partial"
   ],
   "note": "Equality is not transitive and comparison with INVALID_TIME overflows; the rest proved."
  },
  {
   "property": "C12",
   "status": "proved",
   "theorems": [
    "Verif.Props.BitTools.C12_getBit",
    "Verif.Props.BitTools.C12_getBit_runtime"
   ],
   "note": "Big-endian template and run-time variants, unsigned and signed, on every mapped buffer."
  },
  {
   "property": "C13",
   "status": "proved",
   "theorems": [
    "Verif.Props.BitTools.C13_setBit",
    "Verif.Props.BitTools.C13_setBit_runtime"
   ],
   "note": "Written field reads back, every other bit unchanged."
  },
  {
   "property": "C14",
   "status": "proved",
   "theorems": [
    "Verif.Props.BitTools.C14_getBitGlo"
   ],
   "note": "Sign-magnitude value as an exact integer."
  },
  {
   "property": "C15",
   "status": "proved",
   "theorems": [
    "Verif.Props.Crc.C15_crc_is_remainder",
    "Verif.Props.Crc.C15_frame_check",
    "Verif.Props.Crc.C15_burst_detected",
    "Verif.Props.Crc.C15_odd_errors_detected"
   ],
   "note": "CRC equals the polynomial remainder over GF(2); bursts up to 24 bits and odd error counts detected for messages of every length."
  },
  {
   "property": "C16",
   "status": "proved",
   "theorems": [
    "Verif.Props.Crc.C16_accepts_iff",
    "Verif.Props.Crc.C16_errors_detected"
   ],
   "note": "Acceptance characterised by the Hamming syndrome; double errors rejected, single errors accepted only in the check bits."
  },
  {
   "property": "C17",
   "status": "partial",
   "theorems": [
    "Verif.Props.Gps.C17_mixed_issue_violated",
    "Verif.Props.Gps.C17_repeat_violated",
    "Verif.Props.Gps.C17_statement_false",
    "Verif.Props.Gps.C17_total",
    "Verif.Props.Gps.C17_assembly_partial",
    "Verif.Props.Gps.C17_complete",
    "Verif.Props.Gps.C17_order_violated"
   ],
   "note": "Field provenance for every history; violated: IODE of subframe 3 is never compared (gps.cxx 181 overwrites what it read) and damaged preambles repeat the old report."
  },
  {
   "property": "C18",
   "status": "partial",
   "theorems": [
    "Verif.Props.Galileo.C18_foreign_clock_violated",
    "Verif.Props.Galileo.C18_week_drift_violated",
    "Verif.Props.Galileo.C18_overflow_violated",
    "Verif.Props.Galileo.C18_statement_false",
    "Verif.Props.Galileo.C18_assembly_partial",
    "Verif.Props.Galileo.C18_defined",
    "Verif.Props.Galileo.C18_short_message_violated"
   ],
   "note": "Exact report condition and field provenance for every history. Violated: word 4 of another satellite overwrites the clock; repeated reports without word 0 add 1024 weeks each until the int product overflows; size is ignored."
  },
  {
   "property": "C19",
   "status": "partial",
   "theorems": [
    "Verif.Props.Glonass.C19_assembly_partial",
    "Verif.Props.Glonass.C19_interval_violated",
    "Verif.Props.Glonass.C19_statement_false"
   ],
   "note": "Exact for four-year intervals below 19; overflow from 19 on (violated)."
  },
  {
   "property": "C20",
   "status": "proved",
   "theorems": [
    "Verif.Props.Ubx.C20_frame_round_trip",
    "Verif.Props.Ubx.C20_stream"
   ],
   "note": "Every framed message of 1..2048 payload bytes; streams of frames with sync-free filler."
  },
  {
   "property": "C21",
   "status": "proved",
   "theorems": [
    "Verif.Props.Ubx.C21_safe_and_authentic",
    "Verif.Props.Ubx.C21_dispatched_frames_occur"
   ],
   "note": "No out-of-bounds write for any byte stream; every dispatch is the frame that ends at that byte. The exception of C124 ends the program, as nothing catches it; a caller that survived it would write past the buffer (C124_resumed_violated)."
  },
  {
   "property": "C22",
   "status": "partial",
   "theorems": [
    "Verif.Props.Messages.C22_exception_violated",
    "Verif.Props.Ubx.C22_zero_length_violated",
    "Verif.Props.Ubx.C22_statement_false",
    "Verif.Props.Ubx.C22_recovers_partial"
   ],
   "note": "A zero-length frame traps the parser for ever (proved for every continuation); it is the only trap of the state machine: otherwise recovery within 2054 bytes. With its warning shown an over-long header makes the callback throw instead of restarting (C22_exception_violated)."
  },
  {
   "property": "C23",
   "status": "partial",
   "theorems": [
    "Verif.Props.Ubx.C23_sends_frame",
    "Verif.Props.Ubx.C23_accepted_partial",
    "Verif.Props.Ubx.C23_statement_false"
   ],
   "note": "The bytes written are the frame for every length; the receiver accepts it except for empty payloads, which trap it."
  },
  {
   "property": "C24",
   "status": "partial",
   "theorems": [
    "Verif.Props.Logging.C24_scalars",
    "Verif.Props.Logging.C24_vectors",
    "Verif.Props.Logging.C24_classes",
    "Verif.Props.Logging.C24_ephemerides",
    "Verif.Props.Logging.C24_sequence",
    "Verif.Props.Logging.C24_pack",
    "Verif.Props.Logging.C24_dynamic_partial",
    "Verif.Props.Logging.C24_dynamic_violated",
    "Verif.Props.Logging.C24_statement_false"
   ],
   "note": "All integer, floating, fixed-size, class and ephemeris types and all sequences; containers sized at run time are not recovered unless the destination already has the right size (violation proved for every content)."
  },
  {
   "property": "C25",
   "status": "partial",
   "theorems": [
    "Verif.Props.Logging.C25_delivered",
    "Verif.Props.Logging.C25_clean_partial",
    "Verif.Props.Logging.C25_whole_file",
    "Verif.Props.Logging.C25_ephemeris_files",
    "Verif.Props.Logging.C25_torn_violated",
    "Verif.Props.Logging.C25_statement_false"
   ],
   "note": "Exact description of the deliveries for every cut; a cut inside the data of a record delivers a torn record, every other cut is clean."
  },
  {
   "property": "C26",
   "status": "partial",
   "theorems": [
    "Verif.Props.Logging.C26_merge_partial",
    "Verif.Props.Logging.C26_early_exit",
    "Verif.Props.Logging.C26_logged",
    "Verif.Props.Logging.C26_statement_false"
   ],
   "note": "Any number of streams of different types from bytes to callbacks; the only excluded records are those stamped with the last second of the int64 range, which end the stream."
  },
  {
   "property": "C27",
   "status": "partial",
   "theorems": [
    "Verif.Props.Logging.C27_collision_violated",
    "Verif.Props.Logging.C27_statement_false",
    "Verif.Props.Logging.C27_exact_partial",
    "Verif.Props.Logging.C27_small_keys_partial"
   ],
   "note": "Exact characterisation of the colliding pairs of keys."
  },
  {
   "property": "C28",
   "status": "proved",
   "theorems": [
    "Verif.Props.Satellite.C28_almanac",
    "Verif.Props.Satellite.C28_foreign_refused"
   ],
   "note": "Invariant over every sequence of addEph calls, and refusal of ephemerides of other satellites."
  },
  {
   "property": "C29",
   "status": "proved",
   "theorems": [
    "Verif.Props.Satellite.C29_closest",
    "Verif.Props.Satellite.C29_empty"
   ],
   "note": "Every sorted almanac and every query time; the empty case is covered separately."
  },
  {
   "property": "C30",
   "status": "proved",
   "theorems": [
    "Verif.Props.Satellite.C30_manager",
    "Verif.Props.Satellite.C30_no_eviction",
    "Verif.Props.Satellite.C30_unsupported"
   ],
   "note": "Lookup after every delivery history; no eviction below capacity; unsupported constellations are an abort outcome."
  },
  {
   "property": "C31",
   "status": "proved",
   "theorems": [
    "Verif.Props.Lambda.C31_ltdl"
   ],
   "note": "All dimensions, all symmetric matrices; also shows the final check decides positive definiteness."
  },
  {
   "property": "C32",
   "status": "proved",
   "theorems": [
    "Verif.Props.Lambda.C32_reduction"
   ],
   "note": "Includes termination of the swap loop for every positive definite matrix, and the reducedness of the result."
  },
  {
   "property": "C33",
   "status": "partial",
   "theorems": [
    "Verif.Props.Lambda.C33_bound_violated",
    "Verif.Props.Lambda.C33_statement_false",
    "Verif.Props.Lambda.C33_search_partial",
    "Verif.Props.Lambda.C33_lambda_partial",
    "Verif.Props.Lambda.C33_one_candidate_violated",
    "Verif.Props.Lambda.C33_range_violated"
   ],
   "note": "Wrong when fewer than m integer vectors lie below the initial bound 1e18 (witness returns 0 instead of 3); otherwise search and the whole of lambda are optimal and terminate. One candidate and |a| >= 2^31 are undefined behaviour."
  },
  {
   "property": "C34",
   "status": "proved",
   "theorems": [
    "Verif.Props.Utils.C34_argsort"
   ],
   "note": "Permutation and sortedness for every vector over a linear order."
  },
  {
   "property": "C35",
   "status": "partial",
   "theorems": [
    "Verif.Props.Estimator.C35_statement_false",
    "Verif.Props.Estimator.C35_in_order_partial"
   ],
   "note": "False when measurements of one timestamp arrive against the order of their kinds, or times differ by less than half a quantum; otherwise proved for every filter, every delay pattern and every accepted history (ephemerides fixed)."
  },
  {
   "property": "C36",
   "status": "partial",
   "theorems": [
    "Verif.Props.Estimator.C36_applied_twice_violated",
    "Verif.Props.Estimator.C36_imu_ignored_violated",
    "Verif.Props.Estimator.C36_sub_quantum_violated",
    "Verif.Props.Estimator.C36_statement_false",
    "Verif.Props.Estimator.C36_once_partial"
   ],
   "note": "Same-epoch measurements can be fused twice and a same-time IMU sample ignored (witnesses); once-only proved under the conditions of C35, for the fused kinds."
  },
  {
   "property": "C37",
   "status": "partial",
   "theorems": [
    "Verif.Props.Estimator.C37_emptied_violated",
    "Verif.Props.Estimator.C37_imu_abort_violated",
    "Verif.Props.Estimator.C37_evicted_satellite_violated",
    "Verif.Props.Estimator.C37_statement_false",
    "Verif.Props.Estimator.C37_always_a_state_partial"
   ],
   "note": "Three ways to lose the state or abort are exhibited; no failure for separated times and at most 29 satellites per constellation, for every interleaving of measurements and ephemerides."
  },
  {
   "property": "C38",
   "status": "proved",
   "theorems": [
    "Verif.Props.Estimator.C38_bounded_history"
   ],
   "note": "Invariant of every history of calls that returns."
  },
  {
   "property": "C39",
   "status": "proved",
   "theorems": [
    "Verif.Props.Estimator.C39_strict_weak_order",
    "Verif.Props.Estimator.C39_order"
   ],
   "note": "All triples of measurements."
  },
  {
   "property": "C40",
   "status": "proved",
   "theorems": [
    "Verif.Props.Ekf.C40_predict",
    "Verif.Props.Ekf.C40_update"
   ],
   "note": "Exact real matrices. Prediction gives the stated formula and is positive semidefinite; an update never increases the covariance, whatever it decides."
  },
  {
   "property": "C41",
   "status": "partial",
   "theorems": [
    "Verif.Props.Ekf.C41_rejected",
    "Verif.Props.Ekf.C41_empty",
    "Verif.Props.Ekf.C41_gated_partial",
    "Verif.Props.Ekf.C41_fix_hold_empty",
    "Verif.Props.Ekf.C41_fix_hold_sizes"
   ],
   "note": "C41_rejected and C41_empty hold for every input; the gating decision itself reads unused memory for variable-size measurements (C77), so C41_gated assumes the measurement has its full size."
  },
  {
   "property": "C42",
   "status": "partial",
   "theorems": [
    "Verif.Props.Ekf.C42_components_partial",
    "Verif.Props.Ekf.C42_time_violated",
    "Verif.Props.Ekf.C42_statement_false",
    "Verif.Props.Ekf.C42_predict_copy_violated",
    "Verif.Props.Ekf.C42_predict_time",
    "Verif.Props.Ekf.C42_predict_components"
   ],
   "note": "Violated: assignment and copy do not carry the timestamp (C42_time_violated, C42_predict_copy_violated). Partial: all other fields."
  },
  {
   "property": "C43",
   "status": "proved",
   "theorems": [
    "Verif.Props.Quat.C43_hamilton",
    "Verif.Props.Quat.C43_group",
    "Verif.Props.Quat.C43_rotation",
    "Verif.Props.Quat.C43_conjugation",
    "Verif.Props.Quat.C43_R_mul"
   ],
   "note": "All unit quaternions and vectors, doubles read as reals."
  },
  {
   "property": "C44",
   "status": "proved",
   "theorems": [
    "Verif.Props.Quat.C44_R_fromR",
    "Verif.Props.Quat.C44_fromR_R"
   ],
   "note": "All four branches."
  },
  {
   "property": "C45",
   "status": "partial",
   "theorems": [
    "Verif.Props.Quat.C45_exp",
    "Verif.Props.Quat.C45_exp_unit",
    "Verif.Props.Quat.C45_axis_angle",
    "Verif.Props.Quat.C45_axis_angle_any",
    "Verif.Props.Quat.C45_euler",
    "Verif.Props.Quat.C45_two_vectors_partial",
    "Verif.Props.Quat.C45_opposite_violated",
    "Verif.Props.Quat.C45_statement_false"
   ],
   "note": "exp (both branches), axis-angle and Euler proved for all inputs; from_two_unit_vectors for vectors that are not opposite; opposite vectors are 0/0 (violated)."
  },
  {
   "property": "C46",
   "status": "partial",
   "theorems": [
    "Verif.Props.DQuat.C46_group",
    "Verif.Props.DQuat.C46_translation",
    "Verif.Props.DQuat.C46_transform",
    "Verif.Props.DQuat.C46_compose",
    "Verif.Props.DQuat.C46_eight_violated",
    "Verif.Props.DQuat.C46_eight_statement_false"
   ],
   "note": "Group, transforms, composition and log round trip proved; the eight-argument constructor leaves the parts at the identity (violated)."
  },
  {
   "property": "C47",
   "status": "proved",
   "theorems": [
    "Verif.Props.DQuat.C47_Ad_quat",
    "Verif.Props.DQuat.C47_Ad_dquat",
    "Verif.Props.DQuat.C47_tangent",
    "Verif.Props.DQuat.C47_Ad_exp_quat",
    "Verif.Props.DQuat.C47_Ad_exp_dquat"
   ],
   "note": "Homomorphism, conjugation of exponentials, tangent conversion matrices."
  },
  {
   "property": "C48",
   "status": "partial",
   "theorems": [
    "Verif.Props.Rest.C48_Ad_so3",
    "Verif.Props.So3.C48_exp_partial",
    "Verif.Props.So3.C48_exp_bound",
    "Verif.Props.So3.C48_taylor_violated",
    "Verif.Props.So3.C48_exp_statement_false",
    "Verif.Props.So3.C48_so3",
    "Verif.Props.So3.C48_se3",
    "Verif.Props.So3.C48_Ad"
   ],
   "note": "Closure, inverse, associativity and the adjoint are exact for SO3 and SE3. exp gives an exact rotation outside the Taylor branch; inside it R^T R differs from I, by at most 1e-25 for every input (C48_exp_bound), so the exact statement is false (C48_taylor_violated)."
  },
  {
   "property": "C49",
   "status": "partial",
   "theorems": [
    "Verif.Props.Imu.C49_residual_partial",
    "Verif.Props.Imu.C49_zero_bias_partial",
    "Verif.Props.Imu.C49_bias_violated",
    "Verif.Props.Imu.C49_statement_false"
   ],
   "note": "Violated: the whole bias, not its difference from the integration bias, multiplies dStatedBias (C49_bias_violated, C49_statement_false). Partial: the residual vanishes whenever that product does, in particular for zero bias."
  },
  {
   "property": "C50",
   "status": "partial",
   "theorems": [
    "Verif.Props.Imu.C50_split_partial",
    "Verif.Props.Imu.C50_abort_violated",
    "Verif.Props.Imu.C50_statement_false",
    "Verif.Props.Imu.C50_gap_violated"
   ],
   "note": "Violated: split aborts when a sample lies more than 50 us and less than 100 us after the split time (C50_abort_violated, every history) and leaves a gap when a sample lies within 50 us before it (C50_gap_violated). Partial: all other split times."
  },
  {
   "property": "C51",
   "status": "partial",
   "theorems": [
    "Verif.Props.Factor.C51_truth_partial",
    "Verif.Props.Factor.C51_reciprocal_partial",
    "Verif.Props.Factor.C51_violated",
    "Verif.Props.Factor.C51_statement_false"
   ],
   "note": "Violated: the prediction is multiplied by the wavelength. C51_truth_partial says exactly when the residual still vanishes; C51_reciprocal_partial shows division would be right."
  },
  {
   "property": "C52",
   "status": "proved",
   "theorems": [
    "Verif.Props.Factor.C52_zero",
    "Verif.Props.Factor.C52_jacobians",
    "Verif.Props.Factor.C52_chain"
   ],
   "note": "Zero set, exact Jacobians and chains of factors."
  },
  {
   "property": "C53",
   "status": "partial",
   "theorems": [
    "Verif.Props.Rest.C53_block_tr_partial",
    "Verif.Props.Symb.C53_add_partial",
    "Verif.Props.Symb.C53_mul_partial",
    "Verif.Props.Symb.C53_tr_partial",
    "Verif.Props.Symb.C53_sub_partial",
    "Verif.Props.Symb.C53_dense_mul_partial",
    "Verif.Props.Symb.C53_dense_add_partial",
    "Verif.Props.Symb.C53_dense_tr_partial",
    "Verif.Props.Symb.C53_block_mul_partial",
    "Verif.Props.Symb.C53_minus_transpose_violated",
    "Verif.Props.Symb.C53_minus_sum_violated",
    "Verif.Props.Symb.C53_minus_minus_violated",
    "Verif.Props.Symb.C53_minus_product_violated",
    "Verif.Props.Symb.C53_shapes_violated",
    "Verif.Props.Symb.C53_first_violated",
    "Verif.Props.Symb.C53_scalar_first_violated",
    "Verif.Props.Symb.C53_equal_violated",
    "Verif.Props.Symb.C53_equal_sums_violated",
    "Verif.Props.Symb.C53_no_outcome_violated",
    "Verif.Props.Symb.C53_statement_false",
    "Verif.Props.Symb.C53_reduce_partial"
   ],
   "note": "Sums, products of fitting blocks, transposes, products of matrices of blocks (also element by element) mean the matrix operations; differences only when a named block or a product is subtracted. reduce keeps the meaning for every sound comparison and splitting, and the code's reduce does so wherever the guarded functions have an outcome. Missing in full generality because violated: differences of sums, transposes, negative blocks; sizes of identities and zeros; scalars on the right; reduce with scalars before the first factor, with repeated scalars or terms, with transposes."
  },
  {
   "property": "C54",
   "status": "partial",
   "theorems": [
    "Verif.Props.Utils.C54_output_bounded_partial",
    "Verif.Props.Utils.C54_never_pulled_back_violated",
    "Verif.Props.Utils.C54_windup_violated",
    "Verif.Props.Utils.C54_statement_false",
    "Verif.Props.Utils.C54_unsaturated_output"
   ],
   "note": "The output is bounded when the limit is non-negative; the anti-windup branch never pulls the integrator back, shown on a witness and in general."
  },
  {
   "property": "C55",
   "status": "proved",
   "theorems": [
    "Verif.Props.Utils.C55_strip",
    "Verif.Props.Utils.C55_split",
    "Verif.Props.Utils.C55_split_unique"
   ],
   "note": "Every string, delimiter and character set; the token list is the only one with the stated properties."
  },
  {
   "property": "C56",
   "status": "partial",
   "theorems": [
    "Verif.Props.Utils.C56_days_dropped_violated",
    "Verif.Props.Utils.C56_statement_false",
    "Verif.Props.Utils.C56_stamp_value_partial",
    "Verif.Props.Utils.C56_well_formed_partial"
   ],
   "note": "The days term is dropped, so durations of a day or more are wrong; below one day the stamp value is exact."
  },
  {
   "property": "C57",
   "status": "partial",
   "theorems": [
    "Verif.Props.Utils.C57_isFinite_partial",
    "Verif.Props.Utils.C57_infinite_violated",
    "Verif.Props.Utils.C57_statement_false"
   ],
   "note": "Infinite entries are accepted; only NaN is detected."
  },
  {
   "property": "C58",
   "status": "proved",
   "theorems": [
    "Verif.Props.Rk4.C58_equilibrium",
    "Verif.Props.Rk4.C58_linear",
    "Verif.Props.Rk4.C58_zero_step",
    "Verif.Props.Rk4.C58_equivariant",
    "Verif.Props.Rk4.C58_invariant",
    "Verif.Props.Rk4.C58_cubic",
    "Verif.Props.Rk4.C58_quartic_not_exact"
   ],
   "note": "Equilibria, linear systems (degree four Taylor polynomial), right hand sides cubic in time (sharp), linear invariants and equivariance, for states in any real vector space."
  },
  {
   "property": "C59",
   "status": "partial",
   "theorems": [
    "Verif.Props.Sim.C59_order_partial",
    "Verif.Props.Sim.C59_early_violated",
    "Verif.Props.Sim.C59_blocked_violated",
    "Verif.Props.Sim.C59_empty_violated",
    "Verif.Props.Sim.C59_statement_false"
   ],
   "note": "violated: the comparison is the wrong way round (an ephemeris is handed out only while its logged second has not passed), so everything is handed out early, the replay blocks for good once the first time left has passed, and an empty vector is read when nothing is left. Proved: what is handed out is an initial part of the log in order."
  },
  {
   "property": "C60",
   "status": "proved",
   "theorems": [
    "Verif.Props.Sim.C60_spacing",
    "Verif.Props.Sim.C60_gap",
    "Verif.Props.Sim.C60_last",
    "Verif.Props.Sim.C60_sub"
   ],
   "note": "proved: samples at least a period apart, gap below a period plus the call interval, last call within a period of the last sample, samples only at calls. Real arithmetic."
  },
  {
   "property": "C61",
   "status": "proved",
   "theorems": [
    "Verif.Props.Utils.C61_sat_range",
    "Verif.Props.Utils.C61_sat_value",
    "Verif.Props.Utils.C61_sat_idem_mono",
    "Verif.Props.Utils.C61_sign"
   ],
   "note": "Over every linearly ordered field."
  },
  {
   "property": "C62",
   "status": "proved",
   "theorems": [
    "Verif.Props.Gps.C62_subframe_fields"
   ],
   "note": "All 29 fields against the IS-GPS-200 bit tables, any object state, any message length."
  },
  {
   "property": "C63",
   "status": "partial",
   "theorems": [
    "Verif.Props.Galileo.C63_word_fields_partial",
    "Verif.Props.Galileo.C63_idot_violated",
    "Verif.Props.Galileo.C63_unprotected_violated",
    "Verif.Props.Galileo.C63_validity_violated",
    "Verif.Props.Galileo.C63_statement_false"
   ],
   "note": "All fields that end before data bit 112 are exact. Violated: the last 16 data bits are taken from behind the checksum, the two validity flags one bit early."
  },
  {
   "property": "C64",
   "status": "proved",
   "theorems": [
    "Verif.Props.Glonass.C64_string_fields"
   ],
   "note": "All fields against the GLONASS ICD bit numbers, any object state."
  },
  {
   "property": "C65",
   "status": "partial",
   "theorems": [
    "Verif.Props.Time.C65_always_36_seconds_violated",
    "Verif.Props.Time.C65_statement_false",
    "Verif.Props.Time.C65_differences_partial"
   ],
   "note": "GPS times are 36 s later than GLONASS times for every second 2017-2038: leap seconds added instead of subtracted."
  },
  {
   "property": "C66",
   "status": "partial",
   "theorems": [
    "Verif.Props.Glonass.C66_reference_time_partial",
    "Verif.Props.Glonass.C66_almanac_day_violated",
    "Verif.Props.Glonass.C66_statement_false"
   ],
   "note": "Reference time uses the almanac day NA instead of the current day NT; right exactly when the two agree."
  },
  {
   "property": "C67",
   "status": "partial",
   "theorems": [
    "Verif.Props.Quat.C67_exp_log_partial",
    "Verif.Props.Quat.C67_log_exp_partial",
    "Verif.Props.Quat.C67_full_turn",
    "Verif.Props.Quat.C67_overloads_partial",
    "Verif.Props.Quat.C67_overloads_violated",
    "Verif.Props.Quat.C67_overloads_statement_false"
   ],
   "note": "Outside the Taylor branch, which is an approximation; there the two overloads of log differ (violated)."
  },
  {
   "property": "C68",
   "status": "partial",
   "theorems": [
    "Verif.Props.Quat.C68_angles",
    "Verif.Props.Quat.C68_roundtrip_partial",
    "Verif.Props.Quat.C68_gimbal_violated",
    "Verif.Props.Quat.C68_statement_false"
   ],
   "note": "Away from gimbal lock; at gimbal lock roll and yaw are lost (violated)."
  },
  {
   "property": "C70",
   "status": "partial",
   "theorems": [
    "Verif.Props.DQuat.C70_exp_unit_partial",
    "Verif.Props.DQuat.C70_exp_log_partial",
    "Verif.Props.DQuat.C70_log_exp_partial",
    "Verif.Props.DQuat.C70_sign_violated",
    "Verif.Props.DQuat.C70_statement_false",
    "Verif.Props.DQuatTaylor.C70_taylor_violated",
    "Verif.Props.DQuatTaylor.C70_overloads_violated"
   ],
   "note": "exp gives unit dual quaternions and both round trips hold outside the Taylor branches. Violated for the representative with real part -1 (C70_sign_violated); the Taylor branch of log has a wrong coefficient (C70_taylor_violated, 15 mm for one Earth radius) and the overload with Jacobian uses it up to larger rotations (C70_overloads_violated, over one metre)."
  },
  {
   "property": "C69",
   "status": "partial",
   "theorems": [
    "Verif.Props.LieConv.C69_so3_quat",
    "Verif.Props.LieConv.C69_exp",
    "Verif.Props.LieConv.C69_axis_angle",
    "Verif.Props.LieConv.C69_two_vectors_partial",
    "Verif.Props.LieConv.C69_opposite_violated",
    "Verif.Props.LieConv.C69_two_vectors_statement_false",
    "Verif.Props.LieConv.C69_from4x4_violated",
    "Verif.Props.LieConv.C69_from4x4_statement_false"
   ],
   "note": "Quaternion/matrix agreement, exponentials and axis-angle hold for all inputs. from_two_unit_vectors fails for exactly opposite vectors (C69_opposite_violated) and DQuat::from_4x4 gives the translation with the wrong sign (C69_from4x4_violated)."
  },
  {
   "property": "C71",
   "status": "partial",
   "theorems": [
    "Verif.Props.Se3Jac.C71_se3_exp_log_partial",
    "Verif.Props.Se3Jac.C71_se3_log_exp_partial",
    "Verif.Props.So3Log.C71_exp_log_partial",
    "Verif.Props.So3Log.C71_log_exp_partial",
    "Verif.Props.So3Log.C71_near_pi_violated",
    "Verif.Props.So3Log.C71_statement_false"
   ],
   "note": "Both directions proved outside the Taylor branches and up to the near-half-turn branch, for SO3 and SE3. In that branch SO3::log returns the logarithm of the inverse rotation (C71_near_pi_violated)."
  },
  {
   "property": "C72",
   "status": "partial",
   "theorems": [
    "Verif.Props.LieJac.C72_so3_exp",
    "Verif.Props.LieJac.C72_so3_log_partial",
    "Verif.Props.LieJac.C72_near_pi_violated",
    "Verif.Props.LieJac.C72_half_turn_violated",
    "Verif.Props.LieJac.C72_so3_log_statement_false",
    "Verif.Props.LieJac.C72_quat_exp",
    "Verif.Props.LieJac.C72_quat_log_partial",
    "Verif.Props.LieJac.C72_quat_half_turn_violated",
    "Verif.Props.LogDeriv.C72_quat_log_curve_partial",
    "Verif.Props.LogDeriv.C72_quat_log_identity",
    "Verif.Props.Se3Jac.C72_se3_exp",
    "Verif.Props.Se3Jac.C72_se3_log_partial",
    "Verif.Props.Se3Jac.C72_dquat_exp",
    "Verif.Props.Se3Jac.C72_dquat_log_partial",
    "Verif.Props.Se3Jac.C72_dquat_half_turn_violated"
   ],
   "note": "Derivatives of exp and inverse Jacobians of log proved outside the Taylor branches; the derivative of Quat::log is proved along every differentiable curve (C72_quat_log_curve_partial) and exactly at the identity. Near half a turn the SO3 log Jacobian has the wrong sign and at exactly half a turn both log Jacobians divide zero by zero."
  },
  {
   "property": "C73",
   "status": "partial",
   "theorems": [
    "Verif.Props.Ekf.C73_prediction_sign_partial",
    "Verif.Props.Ekf.C73_fix_hold_violated",
    "Verif.Props.Ekf.C73_fix_hold_one_violated",
    "Verif.Props.Ekf.C73_statement_false",
    "Verif.Props.Ekf.C73_order"
   ],
   "note": "Violated: the residual is z - h and the Jacobian is its derivative, yet the update adds K*res with K computed from that Jacobian, so the innovation grows (C73_fix_hold_violated for every size, C73_fix_hold_one_violated in numbers). Partial: it would hold for a residual of the other sign."
  },
  {
   "property": "C74",
   "status": "partial",
   "theorems": [
    "Verif.Props.EkfModels.C74_point_pos",
    "Verif.Props.EkfModels.C74_fix_hold",
    "Verif.Props.EkfModels.C74_obs_range",
    "Verif.Props.EkfModels.C74_obs_doppler_partial",
    "Verif.Props.EkfModels.C74_obs_doppler_violated",
    "Verif.Props.EkfModels.C74_statement_false"
   ],
   "note": "Position/velocity and fix-and-hold Jacobians and the pseudorange row proved exact. The Doppler row is violated: C74_obs_doppler_partial gives the exact missing term, C74_obs_doppler_violated a witness."
  },
  {
   "property": "C75",
   "status": "partial",
   "theorems": [
    "Verif.Props.EkfModels.C75_velocity_partial",
    "Verif.Props.EkfModels.C75_velocity_iff_partial",
    "Verif.Props.EkfModels.C75_velocity_violated",
    "Verif.Props.EkfModels.C75_clock_violated",
    "Verif.Props.EkfModels.C75_rotation",
    "Verif.Props.EkfModels.C75_translation_partial",
    "Verif.Props.EkfModels.C75_translation_violated",
    "Verif.Props.EkfModels.C75_statement_false",
    "Verif.Props.EkfModels.C75_input",
    "Verif.Props.EkfModels.C75_error_dynamics",
    "Verif.Props.EkfModels.C75_input_rest"
   ],
   "note": "Rotation rows, input Jacobian and errorStateDynamics proved. Violated in the translation rows (missing -omega x dp), velocity rows (attitude column) and clock rows (drift column); partial theorems give the exact difference."
  },
  {
   "property": "C76",
   "status": "partial",
   "theorems": [
    "Verif.Props.EkfModels.C76_gps_partial",
    "Verif.Props.EkfModels.C76_galileo_partial",
    "Verif.Props.EkfModels.C76_clock_violated",
    "Verif.Props.EkfModels.C76_statement_false"
   ],
   "note": "Violated: handleObsMeas leaves gnss_id zero, i.e. GPS. Partial: GPS observations, or equal clocks."
  },
  {
   "property": "C77",
   "status": "partial",
   "theorems": [
    "Verif.Props.Ekf.C77_gate_violated"
   ],
   "note": "Violated: for variable-size measurements the Mahalanobis distance is computed over the maximum size including uninitialised entries (C77_gate_violated)."
  },
  {
   "property": "C78",
   "status": "partial",
   "theorems": [
    "Verif.Props.EkfModels.C78_bundle_partial",
    "Verif.Props.EkfModels.C78_bundle_violated",
    "Verif.Props.EkfModels.C78_statement_false"
   ],
   "note": "Violated: more than thirty observations write outside the fixed-size residual. Partial: up to thirty."
  },
  {
   "property": "C79",
   "status": "partial",
   "theorems": [
    "Verif.Props.EkfModels.C79_acceleration_partial",
    "Verif.Props.EkfModels.C79_at_rest_violated",
    "Verif.Props.EkfModels.C79_statement_false"
   ],
   "note": "Violated: gravity is rotated the wrong way and omega x v is missing. Partial: exact condition under which Newton's law holds."
  },
  {
   "property": "C80",
   "status": "partial",
   "theorems": [
    "Verif.Props.ImuJac.C80_velocity",
    "Verif.Props.ImuJac.C80_start_partial",
    "Verif.Props.ImuJac.C80_end_partial",
    "Verif.Props.ImuJac.C80_start_violated",
    "Verif.Props.ImuJac.C80_end_violated",
    "Verif.Props.ImuJac.C80_statement_false",
    "Verif.Props.ImuJac.C80_bias_partial"
   ],
   "note": "Velocity blocks exact for every input; bias block exact outside the Taylor branches of exp and log or at their centres. Pose blocks violated whenever the pose is turned at all (C80_start_violated, C80_end_violated); start_deriv and end_deriv give the true derivative. Partial: untilted pose. Whitening and dGenDParam are not modelled."
  },
  {
   "property": "C84",
   "status": "proved",
   "theorems": [
    "Verif.Props.ImuRun.C84_split",
    "Verif.Props.ImuRun.C84_end_state"
   ],
   "note": "Every history, every inner sample with at least one sample after it, every start pose and velocity; exact reals."
  },
  {
   "property": "C81",
   "status": "proved",
   "theorems": [
    "Verif.Props.ImuCov.C81_error_dynamics",
    "Verif.Props.ImuCov.C81_linearisation",
    "Verif.Props.ImuCov.C81_covariance"
   ],
   "note": "Exact for all inputs; the rotation row is stated for the quaternion of the rotation error. The discretisation 1 + A dt + (A dt)^2/2 is used as given."
  },
  {
   "property": "C82",
   "status": "partial",
   "theorems": [
    "Verif.Props.ImuBias.C82_constant_partial",
    "Verif.Props.ImuBias.C82_violated",
    "Verif.Props.ImuBias.C82_statement_false"
   ],
   "note": "Velocity and rotation exact, position off by half the specific force times the sum of squared intervals for every history (C82_constant_partial), so violated whenever there is acceleration (C82_violated). The property is about exactness; the error is of first order in the sampling interval."
  },
  {
   "property": "C83",
   "status": "partial",
   "theorems": [
    "Verif.Props.ImuBias.C83_accel_partial",
    "Verif.Props.ImuBias.C83_still_partial",
    "Verif.Props.ImuBias.C83_gyro_violated",
    "Verif.Props.ImuBias.C83_statement_false"
   ],
   "note": "Accelerometer columns exact for every history, not only to first order (C83_accel_partial). Without rotation the velocity and rotation rows are exact in every direction (C83_still_partial). Position row of the gyroscope columns violated (C83_gyro_violated). Missing: derivative bounds with rotation."
  },
  {
   "property": "C85",
   "status": "proved",
   "theorems": [
    "Verif.Props.ImuCov.C85_information"
   ],
   "note": "Exact reals; the Cholesky factorisation itself is not modelled."
  },
  {
   "property": "C86",
   "status": "partial",
   "theorems": [
    "Verif.Props.Factor.C86_jacobians_partial",
    "Verif.Props.Factor.C86_clock_switch_partial",
    "Verif.Props.Factor.C86_violated",
    "Verif.Props.Factor.C86_statement_false"
   ],
   "note": "rel_deriv gives the derivative in every direction: the reported Jacobians lack exactly the Sagnac term. Clock and switch blocks exact."
  },
  {
   "property": "C87",
   "status": "partial",
   "theorems": [
    "Verif.Props.Factor.C87_diagonal_partial",
    "Verif.Props.Factor.C87_range_switch_partial",
    "Verif.Props.Factor.C87_clock_switch_partial",
    "Verif.Props.Factor.C87_weight_violated",
    "Verif.Props.Factor.C87_doppler_violated",
    "Verif.Props.Factor.C87_statement_false"
   ],
   "note": "Range and switch rows exact for diagonal weights, Doppler row exact up to the explicit term dopRest; violated for correlated weights and for the Doppler."
  },
  {
   "property": "C88",
   "status": "partial",
   "theorems": [
    "Verif.Props.PoseError.C88_zero",
    "Verif.Props.PoseError.C88_overload_violated",
    "Verif.Props.PoseError.C88_sign_violated",
    "Verif.Props.PoseError.C88_statement_false"
   ],
   "note": "Zero exactly at the anchor proved; independence of overload and sign violated."
  },
  {
   "property": "C89",
   "status": "proved",
   "theorems": [
    "Verif.Props.Kepler.C89_unique",
    "Verif.Props.Kepler.C89_six_steps",
    "Verif.Props.Kepler.C89_accuracy_steps",
    "Verif.Props.Kepler.C89_accuracy",
    "Verif.Props.Kepler.C89_circular",
    "Verif.Props.Kepler.C89_perigee"
   ],
   "note": "Real arithmetic; eccentricity up to one half, mean anomaly up to 1e300."
  },
  {
   "property": "C90",
   "status": "partial",
   "theorems": [
    "Verif.Props.OrbitVel.C90_true_velocity",
    "Verif.Props.OrbitVel.C90_velocity_partial",
    "Verif.Props.OrbitVel.C90_error_partial",
    "Verif.Props.OrbitVel.C90_violated",
    "Verif.Props.OrbitVel.C90_statement_false",
    "Verif.Props.OrbitVel.C90_perigee_violated",
    "Verif.Props.OrbitVel.C90_defined_partial",
    "Verif.Props.OrbitVel.C90_stale"
   ],
   "note": "The derivative is proved for the formula with the harmonics at the uncorrected argument of latitude; the code agrees with it when the corrections of the argument vanish and within a proved bound otherwise; violated in general and undefined at perigee."
  },
  {
   "property": "C91",
   "status": "partial",
   "theorems": [
    "Verif.Props.OrbitVel.C91_bias_partial",
    "Verif.Props.OrbitVel.C91_drift_partial",
    "Verif.Props.OrbitVel.C91_bias_iff_partial",
    "Verif.Props.OrbitVel.C91_violated",
    "Verif.Props.OrbitVel.C91_statement_false",
    "Verif.Props.OrbitVel.C91_relativity"
   ],
   "note": "Exact conditions under which bias and drift are right; violated otherwise. Relativistic term proved for uncorrected orbits."
  },
  {
   "property": "C92",
   "status": "proved",
   "theorems": [
    "Verif.Props.OrbitVel.C92_radius",
    "Verif.Props.OrbitVel.C92_ellipse",
    "Verif.Props.OrbitVel.C92_third_law",
    "Verif.Props.OrbitVel.C92_energy",
    "Verif.Props.OrbitVel.C92_momentum"
   ],
   "note": "For orbits without corrections; energy and angular momentum in the frame that does not turn, away from the line of apsides where the code divides by zero."
  },
  {
   "property": "C93",
   "status": "proved",
   "theorems": [
    "Verif.Props.GlonassOrbit.C93_jacobi",
    "Verif.Props.GlonassOrbit.C93_conserved",
    "Verif.Props.GlonassOrbit.C93_turn",
    "Verif.Props.GlonassOrbit.C93_mirror",
    "Verif.Props.GlonassOrbit.C93_step_turn"
   ],
   "note": "Along every solution curve off the centre of the earth."
  },
  {
   "property": "C94",
   "status": "partial",
   "theorems": [
    "Verif.Props.GlonassOrbit.C94_clock",
    "Verif.Props.GlonassOrbit.C94_fresh_partial",
    "Verif.Props.GlonassOrbit.C94_seeded",
    "Verif.Props.GlonassOrbit.C94_violated",
    "Verif.Props.GlonassOrbit.C94_statement_false"
   ],
   "note": "Termination, step decomposition and clock proved; independence of the previous content is violated (kept for a fresh state)."
  },
  {
   "property": "C95",
   "status": "proved",
   "theorems": [
    "Verif.Props.LightTime.C95_unique",
    "Verif.Props.LightTime.C95_terminates",
    "Verif.Props.LightTime.C95_halts",
    "Verif.Props.LightTime.C95_accuracy",
    "Verif.Props.LightTime.C95_ratio",
    "Verif.Props.LightTime.C95_micrometre"
   ],
   "note": "Position and velocity of the satellite as functions of time (one ephemeris during the iteration); Sagnac term to first order as in the code."
  },
  {
   "property": "C96",
   "status": "proved",
   "theorems": [
    "Verif.Props.Sim.C96_velocity"
   ],
   "note": "proved for unit rotations."
  },
  {
   "property": "C97",
   "status": "partial",
   "theorems": [
    "Verif.Props.Rest.C97_gyro",
    "Verif.Props.Sim.C97_iff_partial",
    "Verif.Props.Sim.C97_level_partial",
    "Verif.Props.Sim.C97_turn_violated",
    "Verif.Props.Sim.C97_tilt_violated",
    "Verif.Props.Sim.C97_statement_false"
   ],
   "note": "violated: gravity is rotated the wrong way and the turn of the velocity is missing. Proved: exact condition for an ideal reading, ideal for a level car on a straight line."
  },
  {
   "property": "C98",
   "status": "partial",
   "theorems": [
    "Verif.Props.Sim.C98_velocity_partial",
    "Verif.Props.Sim.C98_position_partial",
    "Verif.Props.Sim.C98_lag_violated",
    "Verif.Props.Sim.C98_statement_false"
   ],
   "note": "violated: the position uses the acceleration of the step before; exact size of the error proved. Proved: velocity exact, position exact if the acceleration did not change."
  },
  {
   "property": "C99",
   "status": "partial",
   "theorems": [
    "Verif.Props.Sim.C99_bounds_partial",
    "Verif.Props.Sim.C99_turn_partial",
    "Verif.Props.Sim.C99_behind_violated",
    "Verif.Props.Sim.C99_statement_false"
   ],
   "note": "violated: a waypoint exactly behind is left at full speed. Proved: bounds, turn towards the waypoint otherwise. The index of the current waypoint is not initialised in the code."
  },
  {
   "property": "C100",
   "status": "partial",
   "theorems": [
    "Verif.Props.Rest.C100_step_violated",
    "Verif.Props.Sim.C100_gives_violated",
    "Verif.Props.Sim.C100_forward_partial",
    "Verif.Props.Sim.C100_turn_iff_partial",
    "Verif.Props.Sim.C100_statement_false",
    "Verif.Props.Sim.C100_proportional_violated"
   ],
   "note": "violated: the turning acceleration is half of what was asked for at unit inertia, the mass is not used, and the time step given to the controllers is always zero. Proved: forward acceleration right at unit mass, exact result."
  },
  {
   "property": "C101",
   "status": "proved",
   "theorems": [
    "Verif.Props.Wgs84.C101_surface",
    "Verif.Props.Wgs84.C101_height",
    "Verif.Props.Wgs84.C101_normal",
    "Verif.Props.Wgs84.C101_distance"
   ],
   "note": "lla2ecef: on the ellipsoid, along the normal by the height, nearest point."
  },
  {
   "property": "C102",
   "status": "proved",
   "theorems": [
    "Verif.Props.Wgs84.C102_ends",
    "Verif.Props.Wgs84.C102_roundtrip",
    "Verif.Props.Wgs84.C102_inverse",
    "Verif.Props.Wgs84.C102_stable"
   ],
   "note": "ecef2lla: at most six iterations beyond 6300 km, position back to 1e-5 m, coordinates back to 1e-12 rad, exact longitude, 2e-6 m; the result does not depend on the bound of the iterations."
  },
  {
   "property": "C103",
   "status": "proved",
   "theorems": [
    "Verif.Props.Ned.C103_frame",
    "Verif.Props.Ned.C103_directions",
    "Verif.Props.Ned.C103_local",
    "Verif.Props.Ned.C103_back",
    "Verif.Props.Ned.C103_forth"
   ],
   "note": "q_e2n has the axes north, east, down, shown to be the directions of growing latitude and longitude and of falling height with the curvature radii; lla2ned and ned2lla inverse to 1e-5 m."
  },
  {
   "property": "C104",
   "status": "proved",
   "theorems": [
    "Verif.Props.Ned.C104_direction",
    "Verif.Props.Ned.C104_measured",
    "Verif.Props.Ned.C104_horizon"
   ],
   "note": "Direction reconstructed from azimuth and elevation; measured angles are those of placement; horizon."
  },
  {
   "property": "C105",
   "status": "partial",
   "theorems": [
    "Verif.Props.Atm.C105_zenith",
    "Verif.Props.Atm.C105_slant",
    "Verif.Props.Atm.C105_nonneg",
    "Verif.Props.Atm.C105_horizon_violated",
    "Verif.Props.Atm.C105_jump_violated",
    "Verif.Props.Atm.C105_statement_false"
   ],
   "note": "Zenith delay in [0.49, 2.5] m, slant delay decreasing and at most 4/el; unbounded at the horizon and a jump at 10 km are violations."
  },
  {
   "property": "C106",
   "status": "partial",
   "theorems": [
    "Verif.Props.Atm.C106_bounds",
    "Verif.Props.Atm.C106_defined",
    "Verif.Props.Atm.C106_day",
    "Verif.Props.Atm.C106_periodic",
    "Verif.Props.Atm.C106_below_violated",
    "Verif.Props.Atm.C106_statement_false",
    "Verif.Props.Atm.C106_correction"
   ],
   "note": "Delay in [1.49, 17.3] m above the horizon for every place, time and azimuth; periodic; denominators non-zero; more than 27 m at the nadir is a violation."
  },
  {
   "property": "C107",
   "status": "proved",
   "theorems": [
    "Verif.Props.EkfGen.C107_propagate_full",
    "Verif.Props.EkfGen.C107_update_full",
    "Verif.Props.EkfGen.C107_rtk_propagate",
    "Verif.Props.EkfGen.C107_rtk_pointPos",
    "Verif.Props.EkfGen.C107_rtk_obs",
    "Verif.Props.EkfGen.C107_rtk_fixAndHold",
    "Verif.Props.EkfGen.C107_sample_propagate",
    "Verif.Props.EkfGen.C107_sample_vector",
    "Verif.Props.EkfGen.C107_sample_varState",
    "Verif.Props.EkfGen.C107_sample_variable",
    "Verif.Props.EkfGen.C107_inverse",
    "Verif.Props.EkfGen.C107_every_propagate",
    "Verif.Props.EkfGen.C107_every_update",
    "Verif.Props.EkfGen.C107_propagate",
    "Verif.Props.EkfGen.C107_update"
   ],
   "note": "Proved for every configuration without one-dimensional states, inputs or measurements and without a state of variable size that depends both on itself and on another state, for all values and sizes: the code is generated and stores the Kalman formulas. Instantiated for rtk_ekf.yaml and example_ekf.yaml. The gating step and the C++ text are not modelled."
  },
  {
   "property": "C108",
   "status": "partial",
   "theorems": [
    "Verif.Props.EkfGen.C108_one_violated",
    "Verif.Props.EkfGen.C108_coupled_violated",
    "Verif.Props.EkfGen.C108_no_states_violated",
    "Verif.Props.EkfGen.C108_statement_false",
    "Verif.Props.EkfGen.C108_accepted_partial",
    "Verif.Props.EkfGen.C108_generated_partial"
   ],
   "note": "Violated: three kinds of configurations for which the generator raises, proved for all amounts of fuel. Every configuration without these three is accepted."
  },
  {
   "property": "C109",
   "status": "proved",
   "theorems": [
    "Verif.Props.EkfGen.C109_predict",
    "Verif.Props.EkfGen.C109_update",
    "Verif.Props.EkfGen.C109_reached"
   ],
   "note": "Exact arithmetic: rounding in the update, which the generated code does not write in the form of Joseph, is not modelled. Between two steps the blocks are assumed to be read as stored (Symmetric)."
  },
  {
   "property": "C110",
   "status": "partial",
   "theorems": [
    "Verif.Props.LogFormat.C110_reads_back_partial",
    "Verif.Props.LogFormat.C110_types",
    "Verif.Props.LogFormat.C110_streams",
    "Verif.Props.LogFormat.C110_gps_violated",
    "Verif.Props.LogFormat.C110_galileo_violated",
    "Verif.Props.LogFormat.C110_glonass_violated",
    "Verif.Props.LogFormat.C110_ephemeris_lost_violated",
    "Verif.Props.LogFormat.C110_square_transposed",
    "Verif.Props.LogFormat.C110_matrix_violated",
    "Verif.Props.LogFormat.C110_dynamic_violated",
    "Verif.Props.LogFormat.C110_same_name_violated",
    "Verif.Props.LogFormat.C110_reserved_name_violated",
    "Verif.Props.LogFormat.C110_statement_false",
    "Verif.Props.Rest.C110_header"
   ],
   "note": "Proved for every stream with at least one argument, different names other than t, type, rows and cols, and types whose header is right: the basic types, fixed-size vectors, matrices with one row or column, UTCTime, ImuSample, GnssObservation, Quat, DQuat, TangentVector, Jet, TwoJet; in particular the streams of the simulator and of the estimator. Refuted for GPS, Galileo and GLONASS ephemerides (record and header have different sizes, records are lost), for other matrices (columns taken for rows), for vectors of run-time length, for equal names and for names that are keys of the header itself. Not covered: arguments of log whose type differs from that given to initStream, and the text form of yaml."
  },
  {
   "property": "C111",
   "status": "partial",
   "theorems": [
    "Verif.Props.EkfDense.C111_vector",
    "Verif.Props.EkfDense.C111_vector_all",
    "Verif.Props.EkfDense.C111_vector_back",
    "Verif.Props.EkfDense.C111_covariance_partial",
    "Verif.Props.EkfDense.C111_covariance_one",
    "Verif.Props.EkfDense.C111_noise",
    "Verif.Props.EkfDense.C111_jacobian_partial",
    "Verif.Props.EkfDense.C111_order",
    "Verif.Props.EkfDense.C111_arguments_violated",
    "Verif.Props.EkfDense.C111_size",
    "Verif.Props.EkfDense.C111_size_violated",
    "Verif.Props.EkfDense.C111_from_process_violated",
    "Verif.Props.EkfDense.C111_tile_violated",
    "Verif.Props.EkfDense.C111_from_process_partial",
    "Verif.Props.EkfDense.C111_statement_false"
   ],
   "note": "Proved for all configurations: vectors, noise matrices, fromDense, and covariances and Jacobians whenever the argument orders agree, the counters are equal or there is at most one variable state. False in general: exchanged counters, size() for elements of more than one dimension, Covariance(ProcessCovariance) leaves entries uninitialised."
  },
  {
   "property": "C112",
   "status": "partial",
   "theorems": [
    "Verif.Props.LieSeries.C112_quat_round",
    "Verif.Props.LieSeries.C112_so3_round",
    "Verif.Props.LieSeries.C112_se3_round",
    "Verif.Props.LieSeries.C112_dquat_round",
    "Verif.Props.LieSeries.C112_abc",
    "Verif.Props.LieSeries.C112_c12",
    "Verif.Props.LieSeries.C112_expCoeffs",
    "Verif.Props.LieSeries.C112_logE",
    "Verif.Props.LieSeries.C112_so3_log",
    "Verif.Props.LieSeries.C112_quat_log",
    "Verif.Props.LieSeries.C112_dquat_log_violated"
   ],
   "note": "All coefficients of the exponentials, their Jacobians (a, b, c, C1, C2) and the logarithms are compared with the closed forms with explicit remainders. log(exp(x)) is compared with x with no lower limit of the angle: Quat to 1e-30, SO3 and SE3 to 1e-17, DQuat to 1e-8. Violated by DQuat::log below its threshold: its rotation factor and its coupling factor are not the series of the closed forms."
  },
  {
   "property": "C113",
   "status": "partial",
   "theorems": [
    "Verif.Props.Config.C113_found",
    "Verif.Props.Config.C113_sound",
    "Verif.Props.Config.C113_missing",
    "Verif.Props.Config.C113_matrix",
    "Verif.Props.Config.C113_short_violated",
    "Verif.Props.Config.C113_required_violated",
    "Verif.Props.Config.C113_number_violated",
    "Verif.Props.Config.C113_matrix_back",
    "Verif.Props.Config.C113_decode_short",
    "Verif.Props.Config.C113_covariance",
    "Verif.Props.Config.C113_noise",
    "Verif.Props.Config.C113_hold_required",
    "Verif.Props.Config.C113_shipped_violated",
    "Verif.Props.Config.C113_shipped_sd_violated",
    "Verif.Props.Config.C113_statement_false",
    "Verif.Props.Config.C113_shipped_constants"
   ],
   "note": "Reading of values and matrices proved for all trees, keys and sizes; violated for lists that are too short (read beyond the end), required values of the wrong form (silently unset) and the delivered configuration file (a required key is missing, another has the wrong form)."
  },
  {
   "property": "C114",
   "status": "partial",
   "theorems": [
    "Verif.Props.PostProcess.C114_imu_partial",
    "Verif.Props.PostProcess.C114_bundles_partial",
    "Verif.Props.PostProcess.C114_lossless_partial",
    "Verif.Props.PostProcess.C114_rate_bound_partial",
    "Verif.Props.PostProcess.C114_rate_partial",
    "Verif.Props.PostProcess.C114_nothing_violated",
    "Verif.Props.PostProcess.C114_statement_false",
    "Verif.Props.PostProcess.C114_dropped_violated"
   ],
   "note": "With the right start time: all samples are handed on, bundles are the stretches between gaps, nothing is lost when every stretch has one epoch, and the rate of the estimates is exact. Violated: the start time is never assigned, so no record of a real log is processed; a second epoch within 10 ms is dropped."
  },
  {
   "property": "C115",
   "status": "partial",
   "theorems": [
    "Verif.Props.PostInit.C115_exact",
    "Verif.Props.PostInit.C115_place_partial",
    "Verif.Props.PostInit.C115_place_violated",
    "Verif.Props.PostInit.C115_statement_false",
    "Verif.Props.PostInit.C115_full_turn_violated",
    "Verif.Props.PostInit.C115_input",
    "Verif.Props.PostInit.C115_input_violated"
   ],
   "note": "The transform in closed form for all places and headings; right for heading zero only. For others the origin misses the configured place by at least 6200 km (1 - cos(heading/2)) and the dual quaternion is not unit. The initial input agrees with the simulated accelerometer exactly for level attitudes."
  },
  {
   "property": "C116",
   "status": "partial",
   "theorems": [
    "Verif.Props.EkfState.C116_plus",
    "Verif.Props.EkfState.C116_assign",
    "Verif.Props.EkfState.C116_zero",
    "Verif.Props.EkfState.C116_same",
    "Verif.Props.EkfState.C116_round",
    "Verif.Props.EkfState.C116_self",
    "Verif.Props.EkfState.C116_back_partial",
    "Verif.Props.EkfState.C116_back_violated",
    "Verif.Props.EkfState.C116_back_statement_false",
    "Verif.Props.EkfState.C116_counter_violated",
    "Verif.Props.EkfState.C116_predict",
    "Verif.Props.EkfState.C116_finite_violated",
    "Verif.Props.Rest.C116_identity",
    "Verif.Props.Rest.C116_vectors",
    "Verif.Props.Rest.C116_steps"
   ],
   "note": "All configurations. Sum, difference, round trips and independence of unused memory proved; refuted: y + (x - y) = x for the other sign of a dual quaternion, differences of states with different counters, independence of predict of uninitialised elements."
  },
  {
   "property": "C117",
   "status": "partial",
   "theorems": [
    "Verif.Props.QuatMem.C117_copy",
    "Verif.Props.QuatMem.C117_assign",
    "Verif.Props.QuatMem.C117_mul_partial",
    "Verif.Props.QuatMem.C117_mul_violated",
    "Verif.Props.QuatMem.C117_mul_statement_false",
    "Verif.Props.QuatMem.C117_ref_violated",
    "Verif.Props.QuatMem.C117_dual",
    "Verif.Props.QuatMem.C117_eight_violated",
    "Verif.Props.QuatMem.C117_error_violated",
    "Verif.Props.Rest.C117_make"
   ],
   "note": "Copies and assignments proved for all memory layouts; refuted for q *= q, quaternions made of vectors or expressions, dual quaternions made of eight numbers, and copies of ImuErrorState."
  },
  {
   "property": "C118",
   "status": "partial",
   "theorems": [
    "Verif.Props.Gather.C118_observations_partial",
    "Verif.Props.Gather.C118_frequency_partial",
    "Verif.Props.Gather.C118_glonass_violated",
    "Verif.Props.Gather.C118_doppler_violated",
    "Verif.Props.Gather.C118_time_violated",
    "Verif.Props.Gather.C118_count_violated",
    "Verif.Props.Gather.C118_status_violated",
    "Verif.Props.Gather.C118_statement_false",
    "Verif.Props.Gather.C118_satellites",
    "Verif.Props.Gather.C118_constellations",
    "Verif.Props.Gather.C118_window",
    "Verif.Props.Gather.C118_repeat_violated",
    "Verif.Props.Rest.C118_bytes",
    "Verif.Props.Rest.C118_received",
    "Verif.Props.Rest.C118_stale_violated"
   ],
   "note": "Selection, order, independence of satellites and constellations and the time window proved for all inputs; GLONASS frequency, observation time, Doppler unit, count and repeated logging refuted."
  },
  {
   "property": "C119",
   "status": "partial",
   "theorems": [
    "Verif.Props.LogWriter.C119_defined",
    "Verif.Props.LogWriter.C119_files",
    "Verif.Props.LogWriter.C119_id",
    "Verif.Props.LogWriter.C119_end_violated",
    "Verif.Props.LogWriter.C119_kept",
    "Verif.Props.LogWriter.C119_same_second_violated",
    "Verif.Props.LogWriter.C119_reopen_violated"
   ],
   "note": "Contents, names and separation proved for all calls and file systems; the end time, logs of one second and reopening refuted."
  },
  {
   "property": "C120",
   "status": "partial",
   "theorems": [
    "Verif.Props.LogOpen.C120_chain",
    "Verif.Props.LogOpen.C120_only",
    "Verif.Props.LogOpen.C120_endless",
    "Verif.Props.LogOpen.C120_empty_violated",
    "Verif.Props.LogOpen.C120_simulate_violated",
    "Verif.Props.LogOpen.C120_written",
    "Verif.Props.LogOpen.C120_order",
    "Verif.Props.LogOpen.C120_isLogId",
    "Verif.Props.LogOpen.C120_latest"
   ],
   "note": "Chains, written logs and the latest log proved; a log without streams and the log of a simulation in the directory of its ephemeris log refuted."
  },
  {
   "property": "C121",
   "status": "partial",
   "theorems": [
    "Verif.Props.FloatSim.C121_doubles",
    "Verif.Props.FloatSim.C121_default",
    "Verif.Props.SimRun.C121_run",
    "Verif.Props.SimRun.C121_ends",
    "Verif.Props.SimRun.C121_endless_violated",
    "Verif.Props.SimRun.C121_interval",
    "Verif.Props.SimRun.C121_rate_violated"
   ],
   "note": "Records, end and intervals of the sensors proved in closed form for all options; endless runs and the default IMU rate refuted. The times of the run are proved to be the exact ones in doubles too."
  },
  {
   "property": "C122",
   "status": "partial",
   "theorems": [
    "Verif.Props.SimRun.C122_own",
    "Verif.Props.SimRun.C122_uncorrelated_partial",
    "Verif.Props.SimRun.C122_shared_violated",
    "Verif.Props.SimRun.C122_first_violated",
    "Verif.Props.SimRun.C122_statement_false",
    "Verif.Props.SimRun.C122_variance",
    "Verif.Props.SimRun.C122_rate_violated",
    "Verif.Props.SimRun.C122_walk_violated",
    "Verif.Props.SimRun.C122_clock"
   ],
   "note": "Sources of one generator proved uncorrelated; those of different generators, the strength of the walk and its independence of the rate refuted."
  },
  {
   "property": "C123",
   "status": "proved",
   "theorems": [
    "Verif.Props.NumJac.C123_vec",
    "Verif.Props.NumJac.C123_quadratic",
    "Verif.Props.NumJac.C123_linear",
    "Verif.Props.NumJac.C123_quat",
    "Verif.Props.NumJac.C123_quat_default",
    "Verif.Props.NumJac.C123_quat_fun",
    "Verif.Props.NumJac.C123_rotp",
    "Verif.Props.NumJac.C123_dquat",
    "Verif.Props.NumJac.C123_older"
   ],
   "note": "Error bounds for all functions on vectors and on quaternions; exact adjoints up to a stated factor for products and inverses; rotp; the older functions are the same."
  },
  {
   "property": "C124",
   "status": "partial",
   "theorems": [
    "Verif.Props.Messages.C124_format",
    "Verif.Props.Messages.C124_sites_partial",
    "Verif.Props.Messages.C124_log_id_violated",
    "Verif.Props.Messages.C124_overlong_violated",
    "Verif.Props.Messages.C124_statement_false",
    "Verif.Props.Messages.C124_levels_partial",
    "Verif.Props.Messages.C124_silent_exit_violated",
    "Verif.Props.Messages.C124_receiver_partial",
    "Verif.Props.Messages.C124_resumed_violated",
    "Verif.Props.Rest.C124_escape"
   ],
   "note": "All 142 calls but two print their own text with the values in the holes at the levels DEBUG to WARN and above FATAL; ubx.cxx 232 throws, simulate.cxx 115 prints only the identifier, errors and fatal messages are lost at ERROR and FATAL."
  },
  {
   "property": "C125",
   "status": "partial",
   "theorems": [
    "Verif.Props.Progress.C125_cells",
    "Verif.Props.Progress.C125_full",
    "Verif.Props.Progress.C125_throttle",
    "Verif.Props.Progress.C125_line",
    "Verif.Props.Progress.C125_long_violated",
    "Verif.Props.Progress.C125_statement_false",
    "Verif.Props.Progress.C125_zero_violated",
    "Verif.Props.Progress.C125_safe_partial",
    "Verif.Props.Progress.C125_rate",
    "Verif.Props.Progress.C125_rate_violated",
    "Verif.Props.Rest.C125_themes",
    "Verif.Props.Rest.C125_speed"
   ],
   "note": "Cells, full bar at the end, throttle, elapsed time and estimate proved for all calls; the conversion of the estimate to int is undefined for long estimates and for zero counts, and the rate is lost when two lines fall into one millisecond."
  },
  {
   "property": "C126",
   "status": "partial",
   "theorems": [
    "Verif.Props.Streams.C126_sites",
    "Verif.Props.Streams.C126_sites_violated",
    "Verif.Props.Streams.C126_streams",
    "Verif.Props.Streams.C126_estimate",
    "Verif.Props.Streams.C126_estimate_violated",
    "Verif.Props.Streams.C126_second_violated",
    "Verif.Props.Streams.C126_statement_false",
    "Verif.Props.Streams.C126_truth",
    "Verif.Props.Streams.C126_truth_violated",
    "Verif.Props.Streams.C126_residuals_violated",
    "Verif.Props.Streams.C126_residuals",
    "Verif.Props.Streams.C126_keys",
    "Verif.Props.Streams.C126_log_keys",
    "Verif.Props.Streams.C126_plot_violated",
    "Verif.Props.Streams.C126_plot_partial"
   ],
   "note": "All calls but two have matching types and all other streams read back; the estimates carry an unannounced covariance, the truth is read with one value less, and the plotting tool fails on every log."
  },
  {
   "property": "C127",
   "status": "partial",
   "theorems": [
    "Verif.Props.ImuState.C127_plus",
    "Verif.Props.ImuState.C127_round",
    "Verif.Props.ImuState.C127_self",
    "Verif.Props.ImuState.C127_back_partial",
    "Verif.Props.ImuState.C127_back_violated",
    "Verif.Props.ImuState.C127_back_statement_false",
    "Verif.Props.ImuState.C127_index",
    "Verif.Props.ImuState.C127_coordinates"
   ],
   "note": "Round trips are proved; the converse fails for a turn stored with the opposite sign, which the difference takes for no turn."
  },
  {
   "property": "C128",
   "status": "partial",
   "theorems": [
    "Verif.Props.Calendar.C128_gmtime",
    "Verif.Props.Calendar.C128_pair",
    "Verif.Props.Calendar.C128_pair_violated",
    "Verif.Props.Calendar.C128_whole",
    "Verif.Props.Calendar.C128_seconds_partial",
    "Verif.Props.Calendar.C128_seconds_violated",
    "Verif.Props.Calendar.C128_seconds_statement_false",
    "Verif.Props.Calendar.C128_week_partial",
    "Verif.Props.Calendar.C128_week_violated",
    "Verif.Props.Calendar.C128_random_violated",
    "Verif.Props.Calendar.C128_calendar",
    "Verif.Props.Calendar.C128_round_trip",
    "Verif.Props.Calendar.C128_carry",
    "Verif.Props.Calendar.C128_leap_second_violated",
    "Verif.Props.Calendar.C128_str",
    "Verif.Props.Calendar.C128_fraction_violated",
    "Verif.Props.Calendar.C128_str_statement_false",
    "Verif.Props.Calendar.C128_print",
    "Verif.Props.Calendar.C128_print_violated",
    "Verif.Props.Calendar.C128_invalid_violated",
    "Verif.Props.Calendar.C128_defined_partial"
   ],
   "note": "Conversions of dates are proved right. Violated: unpadded milliseconds, dates for negative spans, undefined printing of the markers, unnormalised negative and random times, week 0 counted twice, leap seconds."
  },
  {
   "property": "C129",
   "status": "partial",
   "theorems": [
    "Verif.Props.Rtklib.C129_timediff",
    "Verif.Props.Rtklib.C129_numbers",
    "Verif.Props.Rtklib.C129_anomaly",
    "Verif.Props.Rtklib.C129_perigee_violated",
    "Verif.Props.Rtklib.C129_gps_partial",
    "Verif.Props.Rtklib.C129_clock_violated",
    "Verif.Props.Rtklib.C129_statement_false",
    "Verif.Props.Rtklib.C129_galileo_violated",
    "Verif.Props.Rtklib.C129_variance",
    "Verif.Props.Rtklib.C129_equations",
    "Verif.Props.Rtklib.C129_step",
    "Verif.Props.Rtklib.C129_glonass_partial",
    "Verif.Props.Rtklib.C129_seeded_violated",
    "Verif.Props.Rtklib.C129_troposphere",
    "Verif.Props.Rtklib.C129_week",
    "Verif.Props.Rtklib.C129_ionosphere_partial",
    "Verif.Props.Rtklib.C129_default",
    "Verif.Props.Rtklib.C129_ionosphere_violated",
    "Verif.Props.RtklibAccuracy.C129_sisa",
    "Verif.Props.RtklibAccuracy.C129_ura",
    "Verif.Props.RtklibAccuracy.C129_unknown_violated",
    "Verif.Props.RtklibAccuracy.C129_tilt"
   ],
   "note": "Proved for positions and delays. Violated: GPS clock polynomial, anomalies near perigee, Galileo constants, states filled in before, ionosphere below the horizon. The reference gives unknown Galileo accuracies a variance of one square metre (C129_unknown_violated)."
  },
  {
   "property": "C130",
   "status": "partial",
   "theorems": [
    "Verif.Props.RtkGal.C130_bits",
    "Verif.Props.RtkGal.C130_words_partial",
    "Verif.Props.RtkGal.C130_health_violated",
    "Verif.Props.RtkGal.C130_time_violated",
    "Verif.Props.RtkGal.C130_issue_violated",
    "Verif.Props.RtkGal.C130_overflow_violated",
    "Verif.Props.RtkGal.C130_statement_false",
    "Verif.Props.RtkGal.C130_half_turn",
    "Verif.Props.RtkGal.C130_dates",
    "Verif.Props.RtkGal.C130_epoch",
    "Verif.Props.RtkGal.C130_2100_violated",
    "Verif.Props.RtkGal.C130_calendars"
   ],
   "note": "Proved for all contents of the words up to week 2524, except the members named in the violations. Violated: validity of the time, issue of data above 255, validity of E5b, weeks from 2528 on; 2100 in the reference."
  },
  {
   "property": "C131",
   "status": "partial",
   "theorems": [
    "Verif.Props.Copies.C131_own",
    "Verif.Props.Copies.C131_storage_violated",
    "Verif.Props.Copies.C131_shared_violated",
    "Verif.Props.Copies.C131_size_violated",
    "Verif.Props.Copies.C131_destroy_violated",
    "Verif.Props.Copies.C131_copy_partial",
    "Verif.Props.Copies.C131_statement_false",
    "Verif.Props.Copies.C131_error",
    "Verif.Props.Copies.C131_assign_partial",
    "Verif.Props.Copies.C131_error_violated",
    "Verif.Props.Copies.C131_through_violated"
   ],
   "note": "Proved without copies. Violated by the implicit copies, which duplicate pointers into the original."
  },
  {
   "property": "C132",
   "status": "partial",
   "theorems": [
    "Verif.Props.SdrTime.C132_days",
    "Verif.Props.SdrTime.C132_dates",
    "Verif.Props.SdrTime.C132_2100_violated",
    "Verif.Props.SdrTime.C132_adapter_violated",
    "Verif.Props.SdrTime.C132_statement_false",
    "Verif.Props.SdrTime.C132_junk_violated"
   ],
   "note": "Proved for dates up to 28 February 2100. Violated by the adapter, which gives the simulator the week for the seconds and uninitialised memory for the week."
  },
  {
   "property": "C133",
   "status": "partial",
   "theorems": [
    "Verif.Props.Sdr.C133_ends",
    "Verif.Props.Sdr.C133_place",
    "Verif.Props.Sdr.C133_ellipsoid",
    "Verif.Props.Sdr.C133_frame",
    "Verif.Props.Sdr.C133_azel",
    "Verif.Props.Sdr.C133_day",
    "Verif.Props.Sdr.C133_ionosphere",
    "Verif.Props.Sdr.C133_flags",
    "Verif.Props.Sdr.C133_rotation",
    "Verif.Props.Sdr.C133_rate",
    "Verif.Props.Sdr.C133_overwritten_violated",
    "Verif.Props.SdrOrbit.C133_anomaly",
    "Verif.Props.SdrOrbit.C133_position",
    "Verif.Props.SdrOrbit.C133_velocity",
    "Verif.Props.SdrOrbit.C133_working_violated",
    "Verif.Props.SdrOrbit.C133_week_same",
    "Verif.Props.SdrOrbit.C133_week",
    "Verif.Props.SdrOrbit.C133_clock"
   ],
   "note": "Proved with the working variables filled. Violated by the adapter, which does not fill them, and by computeRange, which moves the caller's satellite."
  },
  {
   "property": "C134",
   "status": "partial",
   "theorems": [
    "Verif.Props.Errors.C134_equal",
    "Verif.Props.Errors.C134_texts_partial",
    "Verif.Props.Errors.C134_texts_violated",
    "Verif.Props.Errors.C134_create",
    "Verif.Props.Errors.C134_empty_violated",
    "Verif.Props.Errors.C134_print_violated",
    "Verif.Props.Errors.C134_static",
    "Verif.Props.Errors.C134_local_violated",
    "Verif.Props.Errors.C134_result",
    "Verif.Props.Errors.C134_consistent",
    "Verif.Props.Errors.C134_release_violated",
    "Verif.Props.Errors.C134_first",
    "Verif.Props.Errors.C134_hygiene_partial",
    "Verif.Props.Errors.C134_hygiene_violated",
    "Verif.Props.Errors.C134_assign_partial",
    "Verif.Props.Errors.C134_twice",
    "Verif.Props.Errors.C134_skips_violated",
    "Verif.Props.Errors.C134_throws_violated",
    "Verif.Props.Errors.C134_statement_false"
   ],
   "note": "RETURN_IF_NOT_OK returns the first error and runs nothing after it, for all sequences of steps. RETURN_OR_ASSIGN is right for calls that can be repeated and violated for calls with state; errors compare by address."
  },
  {
   "property": "C135",
   "status": "partial",
   "theorems": [
    "Verif.Props.Json.C135_ends",
    "Verif.Props.Json.C135_read",
    "Verif.Props.Json.C135_round_trip_partial",
    "Verif.Props.Json.C135_six",
    "Verif.Props.Json.C135_exact_partial",
    "Verif.Props.Json.C135_again",
    "Verif.Props.Json.C135_number_violated",
    "Verif.Props.Json.C135_small_violated",
    "Verif.Props.Json.C135_key_violated",
    "Verif.Props.Json.C135_unicode_violated",
    "Verif.Props.Json.C135_open_violated",
    "Verif.Props.Json.C135_malformed_violated",
    "Verif.Props.Json.C135_exponent_partial",
    "Verif.Props.Json.C135_exponent_violated",
    "Verif.Props.Json.C135_statement_false",
    "Verif.Props.JsonText.C135_text",
    "Verif.Props.JsonText.C135_escape_violated"
   ],
   "note": "Proved for all values that are no number at the top, with keys in the escaped form the reader makes, up to rounding to six digits. Violated by numbers at the top, small numbers, raw keys, unicode escapes, exponents without plus sign and malformed texts. Every text of the grammar of RFC 8259 without exponents and \\u is read as its value, with any white space (C135_text)."
  },
  {
   "property": "C136",
   "status": "partial",
   "theorems": [
    "Verif.Props.Args.C136_literal",
    "Verif.Props.Args.C136_option",
    "Verif.Props.Args.C136_ends",
    "Verif.Props.Args.C136_required",
    "Verif.Props.Args.C136_no_crash_partial",
    "Verif.Props.Args.C136_accepts",
    "Verif.Props.Args.C136_values",
    "Verif.Props.Args.C136_one",
    "Verif.Props.Args.C136_two",
    "Verif.Props.Args.C136_gather_partial",
    "Verif.Props.Args.C136_gather_values",
    "Verif.Props.Args.C136_safe",
    "Verif.Props.Args.C136_baudrate_violated",
    "Verif.Props.Args.C136_statement_false",
    "Verif.Props.Args.C136_number",
    "Verif.Props.Args.C136_kind"
   ],
   "note": "Acceptance is characterised exactly for all command lines and the four programs. Violated by the baudrate of gather_ephemeris, whose conversion throws an exception that is not caught and ignores what follows the digits."
  },
  {
   "property": "C137",
   "status": "partial",
   "theorems": [
    "Verif.Props.CrcLib.C137_remainder",
    "Verif.Props.CrcLib.C137_table",
    "Verif.Props.CrcLib.C137_parts",
    "Verif.Props.CrcLib.C137_branchless",
    "Verif.Props.CrcLib.C137_undo_partial",
    "Verif.Props.CrcLib.C137_burst",
    "Verif.Props.CrcLib.C137_usual_partial",
    "Verif.Props.CrcLib.C137_initial_violated",
    "Verif.Props.CrcLib.C137_statement_false",
    "Verif.Props.CrcLib.C137_undo_violated",
    "Verif.Props.CrcLib.C137_catalogue",
    "Verif.Props.CrcLib.C137_crc24"
   ],
   "note": "Proved for all parameters that fit, with the initial value in the order of the input. The usual definition, where the initial value is reflected, is violated for initial values that are not palindromes; proved for all others and all 51 checks offered."
  },
  {
   "property": "C138",
   "status": "partial",
   "theorems": [
    "Verif.Props.Evaluate.C138_local",
    "Verif.Props.Evaluate.C138_dynamics",
    "Verif.Props.Evaluate.C138_carrier",
    "Verif.Props.Evaluate.C138_pseudorange",
    "Verif.Props.Evaluate.C138_pose_partial",
    "Verif.Props.Evaluate.C138_imu",
    "Verif.Props.Evaluate.C138_pattern_violated",
    "Verif.Props.Evaluate.C138_reference_violated",
    "Verif.Props.Evaluate.C138_weights_violated",
    "Verif.Props.Evaluate.C138_statement_false"
   ],
   "note": "Proved for GnssDynamics, RelativeCarrierPhase, PseudorangeModel and ImuModel with the referenced objects alive; for PoseError the residual depends on whether the Jacobian is asked for, and references to constructor arguments are kept (violations)."
  },
  {
   "property": "C139",
   "status": "partial",
   "theorems": [
    "Verif.Props.Graph.C139_collection",
    "Verif.Props.Graph.C139_states",
    "Verif.Props.Graph.C139_factor",
    "Verif.Props.Graph.C139_expects",
    "Verif.Props.Graph.C139_imu",
    "Verif.Props.Graph.C139_models_violated",
    "Verif.Props.Graph.C139_order_violated",
    "Verif.Props.Graph.C139_links_violated",
    "Verif.Props.Graph.C139_gone_violated",
    "Verif.Props.Graph.C139_graph",
    "Verif.Props.Graph.C139_statement_false",
    "Verif.Props.GraphWindow.C139_window"
   ],
   "note": "Proved for collections, states, the items of all factors, factor Imu with its model, and new graphs. Violated for the other factors: the states are not the blocks their models read."
  },
  {
   "property": "C140",
   "status": "partial",
   "theorems": [
    "Verif.Props.TestHelpers.C140_matrix_partial",
    "Verif.Props.TestHelpers.C140_report_partial",
    "Verif.Props.TestHelpers.C140_nan_violated",
    "Verif.Props.TestHelpers.C140_allnan_violated",
    "Verif.Props.TestHelpers.C140_scale",
    "Verif.Props.TestHelpers.C140_quat",
    "Verif.Props.TestHelpers.C140_dquat",
    "Verif.Props.TestHelpers.C140_rotation",
    "Verif.Props.TestHelpers.C140_translation",
    "Verif.Props.TestHelpers.C140_sign",
    "Verif.Props.TestHelpers.C140_halfturn_violated",
    "Verif.Props.TestHelpers.C140_edge_violated",
    "Verif.Props.TestHelpers.C140_nanquat_violated",
    "Verif.Props.TestHelpers.C140_statement_false"
   ],
   "note": "Proved for finite matrices and for quaternions away from half turns. Violated: NaN and infinite elements are accepted for everything; equal rotations by half turns are refused."
  },
  {
   "property": "C141",
   "status": "partial",
   "theorems": [
    "Verif.Props.TestHelpers.C141_fill",
    "Verif.Props.TestHelpers.C141_normal",
    "Verif.Props.TestHelpers.C141_uniform_partial",
    "Verif.Props.TestHelpers.C141_width_violated",
    "Verif.Props.TestHelpers.C141_overflow_violated",
    "Verif.Props.TestHelpers.C141_statement_false"
   ],
   "note": "Proved: elements, places and bounds. Violated: the width is cut to an integer."
  },
  {
   "property": "C142",
   "status": "partial",
   "theorems": [
    "Verif.Props.Plot.C142_vector",
    "Verif.Props.Plot.C142_names",
    "Verif.Props.Plot.C142_whole",
    "Verif.Props.Plot.C142_missing",
    "Verif.Props.Plot.C142_truth",
    "Verif.Props.Plot.C142_rotation",
    "Verif.Props.Plot.C142_imu",
    "Verif.Props.Plot.C142_calls",
    "Verif.Props.Plot.C142_clock_violated",
    "Verif.Props.Plot.C142_between",
    "Verif.Props.Plot.C142_exact",
    "Verif.Props.Plot.C142_difference",
    "Verif.Props.Plot.C142_same",
    "Verif.Props.Plot.C142_range_violated",
    "Verif.Props.Plot.C142_statement_false"
   ],
   "note": "Proved for all logs: panels, keys, interpolation. Violated: the truth is cut to the number of estimates, so that the difference fails when it is logged more often; the GLONASS clock is never drawn."
  },
  {
   "property": "C143",
   "status": "partial",
   "theorems": [
    "Verif.Props.Plot.C143_rows_partial",
    "Verif.Props.Plot.C143_single_violated",
    "Verif.Props.Plot.C143_unknown_violated",
    "Verif.Props.Plot.C143_titles_violated",
    "Verif.Props.Plot.C143_column_violated",
    "Verif.Props.Plot.C143_residual",
    "Verif.Props.Plot.C143_many_violated",
    "Verif.Props.Plot.C143_title_violated",
    "Verif.Props.Plot.C143_statement_false"
   ],
   "note": "Proved for known constellations with at least two satellites or frequencies. Violated: one satellite, unknown constellations, titles, the name of the column."
  },
  {
   "property": "C144",
   "status": "partial",
   "theorems": [
    "Verif.Props.TestRunner.C144_runs",
    "Verif.Props.TestRunner.C144_lastline",
    "Verif.Props.TestRunner.C144_missing_violated",
    "Verif.Props.TestRunner.C144_stdin_violated",
    "Verif.Props.TestRunner.C144_fresh",
    "Verif.Props.TestRunner.C144_incremental",
    "Verif.Props.TestRunner.C144_reconfigure_violated",
    "Verif.Props.TestRunner.C144_script_violated",
    "Verif.Props.TestRunner.C144_registered_violated",
    "Verif.Props.TestRunner.C144_statement_false"
   ],
   "note": "Proved for fresh directories and for rebuilding without cmake. Violated: after cmake only the tests linked again are run; two files of tests are in no program; the generated script tells only the last status."
  },
  {
   "property": "C145",
   "status": "partial",
   "theorems": [
    "Verif.Props.FloatTime.C145_add",
    "Verif.Props.FloatTime.C145_short",
    "Verif.Props.FloatTime.C145_monotone",
    "Verif.Props.FloatTime.C145_whole",
    "Verif.Props.FloatTime.C145_decimal",
    "Verif.Props.FloatTime.C145_ofSec",
    "Verif.Props.FloatTime.C145_negative_violated",
    "Verif.Props.FloatTime.C145_statement_false",
    "Verif.Props.FloatTime.C145_decimal_lost",
    "Verif.Props.FloatTime.C145_centisecond",
    "Verif.Props.FloatTime.C145_beyond"
   ],
   "note": "Proved for sums and differences. Violated: UTCTime(s) of a negative s that is not whole is not normalised."
  },
  {
   "property": "C146",
   "status": "proved",
   "theorems": [
    "Verif.Props.FloatCompare.C146_quantised",
    "Verif.Props.FloatCompare.C146_threshold",
    "Verif.Props.FloatCompare.C146_stale",
    "Verif.Props.FloatCompare.C146_ends",
    "Verif.Props.FloatCompare.C146_gap",
    "Verif.Props.FloatCompare.C146_accuracy",
    "Verif.Props.FloatCompare.C146_monotone",
    "Verif.Props.FloatCompare.C146_round_trip",
    "Verif.Props.FloatCompare.C146_absolute",
    "Verif.Props.FloatCompare.C146_due",
    "Verif.Props.FloatCompare.C146_imu",
    "Verif.Props.FloatCompare.C146_fresh"
   ],
   "note": "Proved for every rounding to nearest, with and without fused multiplication and addition; the sampling of a sensor for every rate whose period is a whole number of nanoseconds up to a second."
  },
  {
   "property": "C147",
   "status": "partial",
   "theorems": [
    "Verif.Props.Scale.C147_gps",
    "Verif.Props.Scale.C147_galileo",
    "Verif.Props.Scale.C147_glonass",
    "Verif.Props.Scale.C147_exact_partial",
    "Verif.Props.Scale.C147_never_exact_violated",
    "Verif.Props.Scale.C147_statement_false",
    "Verif.Props.Scale.C147_order",
    "Verif.Props.Scale.C147_ends"
   ],
   "note": "Proved: every field within 2^-50 (Galileo af2 2^-48) relative for every rounding to nearest, order kept. Violated: exactness of the fields whose constants are decimal literals with too few digits."
  },
  {
   "property": "C148",
   "status": "proved",
   "theorems": [
    "Verif.Props.FloatLambda.C148_terminates",
    "Verif.Props.FloatLambda.C148_terminates_finite",
    "Verif.Props.FloatLambda.C148_terminates_doubles",
    "Verif.Props.FloatLambda.C148_reduced",
    "Verif.Props.FloatLambda.C148_exact_model",
    "Verif.Props.FloatLambda.C148_exact_search",
    "Verif.Props.FloatLambda.C148_only_rounded",
    "Verif.Props.FloatLambda.C148_whole",
    "Verif.Props.FloatLambda.C148_unimodular",
    "Verif.Props.FloatLambda.C148_candidates",
    "Verif.Props.FloatLambda.C148_fix_whole",
    "Verif.Props.FloatLambda.C148_fix_exact",
    "Verif.Props.FloatSearch.C148_search_ends",
    "Verif.Props.FloatSearch.C148_search_beyond",
    "Verif.Props.FloatSearch.C148_factors",
    "Verif.Props.FloatSearch.C148_lambda_ends"
   ],
   "note": "Termination of the reduction for every arithmetic with an irreflexive transitive < on finitely many numbers; termination of the search in doubles for up to 512 ambiguities below 2^41, variances up to 2^20 and factors up to one, and a witness beyond those limits for which it never ends; integrality for every rounding to nearest; unimodularity and exact back-transformation under explicit bounds of 2^53. Decorrelation in doubles leaves factors of at most a half, so that the whole resolution ends."
  },
  {
   "property": "C149",
   "status": "proved",
   "theorems": [
    "Verif.Props.FloatLoops.C149_glonass_model",
    "Verif.Props.FloatLoops.C149_glonass_exact",
    "Verif.Props.FloatLoops.C149_glonass_ends",
    "Verif.Props.FloatLoops.C149_glonass_beyond",
    "Verif.Props.FloatLoops.C149_day",
    "Verif.Props.FloatLoops.C149_midnight",
    "Verif.Props.FloatLoops.C149_anomaly"
   ],
   "note": "Operations are rounded one by one (no fused products); the library's sine and cosine are assumed right to 2^-52 absolutely. The limits 1/2 and 62 cover the message fields (eccentricity below 1/2, |M0| ≤ pi, half a week at the mean motion of the orbits)."
  },
  {
   "property": "C150",
   "status": "proved",
   "theorems": [
    "Verif.Props.FloatExp.C150_normalize",
    "Verif.Props.FloatExp.C150_exp",
    "Verif.Props.FloatExp.C150_integrate",
    "Verif.Props.FloatExpAcc.C150_exp_accuracy",
    "Verif.Props.FloatExpAcc.C150_integrate_accuracy",
    "Verif.Props.FloatQuat.C150_product",
    "Verif.Props.FloatQuat.C150_compose",
    "Verif.Props.FloatQuat.C150_rotate"
   ],
   "note": "Proved for every rounding to nearest, with and without fused operations; sine and cosine are assumed right to 2^-52 absolutely, square roots correctly rounded; overflow is not modelled."
  },
  {
   "property": "C151",
   "status": "partial",
   "theorems": [
    "Verif.Props.GenNames.C151_files",
    "Verif.Props.GenNames.C151_members_partial",
    "Verif.Props.GenNames.C151_digit_violated",
    "Verif.Props.GenNames.C151_statement_false",
    "Verif.Props.GenNames.C151_shipped"
   ],
   "note": "The characterisation of the file names is exact. Members are distinct for names in snake case and for all names of the two configurations of the project; for arbitrary identifiers the statement is false (C151_digit_violated, C151_statement_false)."
  },
  {
   "property": "C152",
   "status": "partial",
   "theorems": [
    "Verif.Props.Gate.C152_argmin",
    "Verif.Props.Gate.C152_mahal",
    "Verif.Props.Gate.C152_limit_partial",
    "Verif.Props.Gate.C152_chance_violated",
    "Verif.Props.Gate.C152_scalar_violated",
    "Verif.Props.Gate.C152_statement_false"
   ],
   "note": "False as stated: the limit is the best of the grid for one degree of freedom less (C152_limit_partial); the chance to pass is too small for every size (C152_chance_violated) and zero for size one (C152_scalar_violated). Real arithmetic; scipy and numpy as documented."
  },
  {
   "property": "C153",
   "status": "partial",
   "theorems": [
    "Verif.Props.LightTimeSwitch.C153_ends_partial",
    "Verif.Props.LightTimeSwitch.C153_accuracy_partial",
    "Verif.Props.LightTimeSwitch.C153_endless_violated",
    "Verif.Props.LightTimeSwitch.C153_statement_false"
   ],
   "note": "False as stated: endless for a jump of 300 m (C153_endless_violated, C153_statement_false). Proved: termination from every start while jump times speed is at most 2.9e5 m^2/s, and for jumps up to 25 m the accuracy for a satellite of at least one kilometre per second, if there is a time of transmission. Real arithmetic for times."
  },
  {
   "property": "C154",
   "status": "partial",
   "theorems": [
    "Verif.Props.QuatInPlace.C154_normalize",
    "Verif.Props.QuatInPlace.C154_invert_partial",
    "Verif.Props.QuatInPlace.C154_invert_violated",
    "Verif.Props.QuatInPlace.C154_invert_statement_false"
   ],
   "note": "False as stated: invert flows off its end (C154_invert_violated). Proved: normalize, and the memory at the end of invert's body. Real arithmetic."
  },
  {
   "property": "C155",
   "status": "partial",
   "theorems": [
    "Verif.Props.Jet.C155_motion",
    "Verif.Props.Jet.C155_sign_violated",
    "Verif.Props.Jet.C155_statement_false",
    "Verif.Props.Jet.C155_equal_partial",
    "Verif.Props.Jet.C155_identity"
   ],
   "note": "False as stated: opposite numbers are the same motion and not == (C155_sign_violated). Proved: equal or opposite numbers if and only if the same motion; == is right for positive scalar parts; identity jets. Real arithmetic, no NaN."
  },
  {
   "property": "C156",
   "status": "partial",
   "theorems": [
    "Verif.Props.QuatShort.C156_sum",
    "Verif.Props.QuatShort.C156_short_partial",
    "Verif.Props.QuatShort.C156_long_violated",
    "Verif.Props.QuatShort.C156_jump_violated",
    "Verif.Props.QuatShort.C156_statement_false"
   ],
   "note": "False as stated: for negative scalar parts the long way (C156_long_violated), and a jump by nearly a full turn between the branches (C156_jump_violated). Proved for scalar parts that are not negative, and the sum of both lengths. Real arithmetic."
  }
 ]
}