{
"C01": {
"status": "proved",
"theorems": [
"C01_modulo"
],
"note": "exact reals"
},
"C02": {
"status": "proved",
"theorems": [
"C02_wrap"
],
"note": "wrapAngle, wrapPosNegPI, wrapTwoPI; M_PI = exact pi"
},
"C03": {
"status": "proved",
"theorems": [
"C03_modulo_range_any_m",
"C03_modulo_range_any_m_neg",
"C03_modulo_range_rounded"
],
"note": "arbitrary intermediate m, and full rounded evaluation with any monotone faithful rounding"
},
"C05": {
"status": "proved",
"theorems": [
"C05_quaternion_algebra",
"C05_laws",
"C05_quaternion_matrices",
"C05_constructors"
],
"note": "against Mathlib Quaternion"
},
"C06": {
"status": "partial",
"theorems": [
"C06_unit_closed",
"C06_inverse",
"C06_normalized",
"C06_identity_partial",
"C06_UnitQuaternion_setIdentity_broken"
],
"note": "true for RotationQuaternion; UnitQuaternion::setIdentity stores the zero quaternion (finding, proved)"
},
"C07": {
"status": "proved",
"theorems": [
"C07_conversion",
"C07_conversion_unconditional",
"C07_chain",
"C07_chain_list",
"C59_conversion"
],
"note": "all 36 pairs, outside the small-angle branches as the property says"
},
"C09": {
"status": "proved",
"theorems": [
"C09_conversion_valid",
"C09_angle_axis_range",
"C09_conversion_never_throws",
"C09_conversion_never_throws_all"
],
"note": ""
},
"C10": {
"status": "proved",
"theorems": [
"C10_rotate_spec",
"C10_rotate_isometry",
"C10_rotate_columns",
"C10_rotate_linear",
"C10_rotate_all"
],
"note": ""
},
"C11": {
"status": "proved",
"theorems": [
"C11_concatenation",
"C11_concatenation_unconditional",
"C11_associative",
"C59_concatenation"
],
"note": ""
},
"C12": {
"status": "proved",
"theorems": [
"C12_inverted",
"C12_mult_inverted"
],
"note": ""
},
"C13": {
"status": "proved",
"theorems": [
"C13_identity"
],
"note": ""
},
"C14": {
"status": "proved",
"theorems": [
"C14_quaternion_unique"
],
"note": ""
},
"C15": {
"status": "proved",
"theorems": [
"C15_angle_axis_unique",
"C15_eq_of_same"
],
"note": ""
},
"C16": {
"status": "proved",
"theorems": [
"C16_rotation_vector_unique",
"C16_cutoff"
],
"note": ""
},
"C27": {
"status": "proved",
"theorems": [
"C27_compareRelative",
"C27_compareRelative_iff",
"C27_compareRelativePeriodic"
],
"note": ""
},
"C47": {
"status": "proved",
"theorems": [
"C47_history",
"C47_history_unconditional",
"C59_history",
"C59_history_quat"
],
"note": ""
},
"C04": {
"status": "proved",
"theorems": [
"C04_skew"
],
"note": ""
},
"C08": {
"status": "proved",
"theorems": [
"C08_rv_to_quat",
"C08_quat_to_rv",
"C08_rv_to_aa",
"C08_mat_to_rv"
],
"note": "explicit error bound per small-angle branch"
},
"C17": {
"status": "partial",
"theorems": [
"C17_unique_partial",
"C17_within_tolerance",
"C17_counterexamples",
"C17_exact_iff"
],
"note": "holds outside the 1e-3 band around gimbal lock; inside the band the code changes the rotation (counterexamples proved, error bounded). C17_exact_iff characterizes exactly the inputs for which the claim holds."
},
"C18": {
"status": "partial",
"theorems": [
"C18_unique_partial",
"C18_band_error",
"C18_counterexamples",
"C18_exact_iff"
],
"note": "holds outside the band; inside it the code uses the wrong sign (counterexamples proved). C18_exact_iff characterizes exactly the inputs for which the claim holds."
},
"C19": {
"status": "proved",
"theorems": [
"C19_disparity_angle",
"C19_symmetric",
"C19_bi_invariant",
"C19_triangle",
"C19_metric_unconditional",
"C59_disparity_angle"
],
"note": ""
},
"C20": {
"status": "proved",
"theorems": [
"C20_isNear",
"C20_refl_trans",
"C59_isNear"
],
"note": ""
},
"C21": {
"status": "proved",
"theorems": [
"C21_exp_log",
"C21_log_exp",
"C21_log_norm_le_pi",
"C21_matrix_exponential",
"C59_logarithmicMap"
],
"note": "outside the small-angle branches; C08 bounds the error inside them"
},
"C22": {
"status": "proved",
"theorems": [
"C22_boxPlus_boxMinus",
"C22_boxMinus_boxPlus",
"C59_boxPlus",
"C59_boxMinus"
],
"note": "outside the small-angle branches"
},
"C23": {
"status": "proved",
"theorems": [
"C23_interpolate",
"C59_interpolate"
],
"note": "outside the small-angle branches"
},
"C24": {
"status": "partial",
"theorems": [
"C24_aligned_partial",
"C24_band_error",
"C24_throws_iff",
"C24_isSvdAxis_satisfiable",
"C24_band_counterexample",
"C24_exact_iff"
],
"note": "exact alignment outside Eigen's antiparallel band; inside it the error is bounded and a counterexample to exactness is proved. C24_exact_iff characterizes exactly the inputs for which the claim holds."
},
"C25": {
"status": "partial",
"theorems": [
"C25_fix_quaternion",
"C25_fix_angle_axis",
"C25_fix_valid",
"C25_fix_matrix_partial",
"C25_fix_matrix_counterexample"
],
"note": "RotationMatrix::fix only restores the determinant, not orthogonality (proved)"
},
"C26": {
"status": "proved",
"theorems": [
"C26_quaternion_ctor",
"C26_angle_axis_ctor",
"C26_matrix_ctor"
],
"note": ""
},
"C44": {
"status": "proved",
"theorems": [
"C44_pseudoInverse",
"C44_pseudoInverse_truncated",
"C44_penrose_unique",
"C44_inverse"
],
"note": "relative to the SVD contract of Eigen::JacobiSVD"
},
"C48": {
"status": "proved",
"theorems": [
"C48_random"
],
"note": ""
},
"C28": {
"status": "proved",
"theorems": [
"C28_local_global",
"C28_same_motion"
],
"note": "all kinds"
},
"C29": {
"status": "proved",
"theorems": [
"C29_roundtrip",
"C29_quaternion_curve"
],
"note": "HasDerivAt along arbitrary unit-quaternion curves"
},
"C30": {
"status": "proved",
"theorems": [
"C30_matrix_curve",
"C30_roundtrip"
],
"note": "arbitrary SO(3) curves"
},
"C31": {
"status": "proved",
"theorems": [
"C31_xyz_rates",
"C31_xyz_inverse_mapping",
"C31_xyz_roundtrip"
],
"note": "including the throwing guard at cos(pitch)=0"
},
"C32": {
"status": "proved",
"theorems": [
"C32_zyx_rates",
"C32_zyx_inverse_mapping",
"C32_zyx_roundtrip"
],
"note": "including the throwing guard at cos(pitch)=0"
},
"C33": {
"status": "proved",
"theorems": [
"C33_second_diff_to_velocity",
"C33_velocity_to_second_diff",
"C33_acceleration",
"C33_angle_acceleration"
],
"note": "HasDerivAt of the mapping matrices"
},
"C34": {
"status": "proved",
"theorems": [
"C34_angular_velocity_vector_space",
"C34_diff_groups",
"C34_conversions_linear",
"C34_conversions_linear_all"
],
"note": ""
},
"C35": {
"status": "proved",
"theorems": [
"C35_jacobian",
"C35_jacobian_exponentialMap",
"C35_radial",
"C35_small_error"
],
"note": "small branch with explicit error bound"
},
"C45": {
"status": "proved",
"theorems": [
"C45_euler_components",
"C45_euler_order",
"C45_rotation_vector",
"C45_angle_axis",
"C45_rotation_quaternion"
],
"note": "setter histories of any length"
},
"C50": {
"status": "proved",
"theorems": [
"C50_velocity_of_product",
"C50_velocity_of_inverse",
"C50_inverse_same_frame"
],
"note": ""
},
"C51": {
"status": "proved",
"theorems": [
"C51_velocity_representation_independent",
"C51_derivative_classes_agree"
],
"note": ""
},
"C52": {
"status": "proved",
"theorems": [
"C52_product_derivative",
"C52_velocity_invariance"
],
"note": ""
},
"C53": {
"status": "partial",
"theorems": [
"C53_mixed_frame_sum_partial",
"C53_mixed_frame_sum_counterexample"
],
"note": "holds only when the rotation fixes the right operand; the code adds coordinates without changing frames (finding, counterexample proved)"
},
"C36": {
"status": "proved",
"theorems": [
"C36_last_write_wins",
"C36_get_set",
"C36_reassemble",
"C36_constructors_eq"
],
"note": "all dimensions, positions and lengths"
},
"C37": {
"status": "proved",
"theorems": [
"C37_linear",
"C37_vector_space_laws",
"C37_inner_product",
"C37_norm_laws",
"C37_normalized",
"C37_cross",
"C37_vector_products",
"C37_reductions"
],
"note": "all dimensions"
},
"C38": {
"status": "proved",
"theorems": [
"C38_projectOn_is_projection",
"C38_projectOn",
"C38_projectOn_zero_nan",
"C38_projectOn_finite",
"C38_isSimilarTo_iff",
"C38_isSimilarTo_relation",
"C38_isSimilarTo_chain"
],
"note": "all dimensions"
},
"C39": {
"status": "partial",
"theorems": [
"C39_table_unambiguous",
"C39_mult_symmetric",
"C39_div_inverts_mult",
"C39_mult_inverts_div",
"C39_si_dimensions",
"C39_typeless_unit_partial",
"C39_typeless_counterexample",
"C39_self_quotient",
"C39_laws_exact"
],
"note": "Typeless is neutral except for Mass, Inertia, Power, Energy, which have no table entry (finding, proved)"
},
"C40": {
"status": "proved",
"theorems": [
"C40_vector_roundtrip",
"C40_vector_space",
"C40_setters"
],
"note": ""
},
"C41": {
"status": "proved",
"theorems": [
"C41_vector_roundtrip",
"C41_generic_vector",
"C41_setters",
"C41_generic_vector_motion"
],
"note": ""
},
"C42": {
"status": "proved",
"theorems": [
"C42_transform_spec",
"C42_compose",
"C42_compose_unconditional",
"C42_associative",
"C42_identity",
"C42_inverse",
"C42_rigid",
"C42_conversion",
"C42_equality",
"C59_pose"
],
"note": "all rotation kinds"
},
"C43": {
"status": "proved",
"theorems": [
"C43_matrix_action",
"C43_homomorphism",
"C43_faithful"
],
"note": ""
},
"C54": {
"status": "proved",
"theorems": [
"C54_point_velocity",
"C54_point_velocity_local",
"C54_transform_velocity"
],
"note": ""
},
"C55": {
"status": "proved",
"theorems": [
"C55_pose_history",
"C55_pose_history_all_classes",
"C55_pose_history_error",
"C55_pose_history_error_quat"
],
"note": "induction on lists; exact for all classes under the small-angle side conditions of rotation vectors, and error bounds without side condition (matrix accumulators: no bound can hold, C60)"
},
"C46": {
"status": "partial",
"theorems": [
"C46_sound_partial",
"C46_matrix_left",
"C46_quaternion_left",
"C46_rotation_vector_left",
"C46_xyz_left",
"C46_zyx_left",
"C46_not_symmetric_counterexample",
"C46_xyz_counterexample"
],
"note": "true implies same rotation for every pair; decides equality for matrix on the left and for several other pairs; exact characterization for Euler angles on the left; the full claim and symmetry are refuted (finding)"
},
"C49": {
"status": "partial",
"theorems": [
"C49_angle_axis_eq_partial",
"C49_not_transitive_counterexample"
],
"note": "everything but transitivity, which is refuted"
},
"C56": {
"status": "proved",
"theorems": [
"C56_history_error",
"C56_history_accepted",
"C56_double_float",
"C56_matrix_history_error",
"C56_matrix_history_accepted",
"C56_exact_arithmetic"
],
"note": "rounding model: every operation has relative error at most u (no overflow/underflow); the debug check itself is evaluated exactly"
},
"C57": {
"status": "proved",
"theorems": [
"C57_fix_rounded"
],
"note": ""
},
"C58": {
"status": "proved",
"theorems": [
"C58_rotate_accurate",
"C58_rotate_matrix_accurate"
],
"note": ""
},
"C59": {
"status": "proved",
"theorems": [
"C59_conversion",
"C59_rotate",
"C59_concatenation",
"C59_disparity_angle",
"C59_isNear",
"C59_logarithmicMap",
"C59_boxMinus",
"C59_boxPlus",
"C59_interpolate",
"C59_geodesic_speed",
"C59_history",
"C59_history_quat",
"C59_pose",
"C59_double_numbers"
],
"note": "No side condition on the size of rotations. Exact real arithmetic between the approximation branches (rounding: C56-C58). Matrix accumulators are not covered by the history theorem: C60 shows that no such bound holds for them."
},
"C60": {
"status": "proved",
"theorems": [
"C60_amplification",
"C60_matrix_history_unstable"
],
"note": "Finding (defect): long products RotationMatrix * (non-matrix rotation) diverge from rounding-size errors. Exact rotation matrices are unaffected in exact arithmetic (C11)."
},
"C61": {
"status": "proved",
"theorems": [
"Matlab.C61_elementary",
"Matlab.C61_snap",
"Matlab.C61_snap_hits",
"Matlab.C61_euler_maps"
],
"note": ""
},
"C62": {
"status": "proved",
"theorems": [
"Matlab.C62_extract",
"Matlab.C62_ranges",
"Matlab.C62_roundtrip",
"Matlab.C62_lock",
"Matlab.C62_lock_not_reproduced"
],
"note": "Off gimbal lock; the behaviour at lock is characterised by C62_lock / C62_lock_not_reproduced (finding)."
},
"C63": {
"status": "proved",
"theorems": [
"Matlab.C63_zyx_rates",
"Matlab.C63_zxz_rates",
"Matlab.C63_zyz_rates_wrong",
"Matlab.C63_zyx_acceleration",
"Matlab.C63_zyx_base_acceleration_wrong"
],
"note": "Includes two findings (ZYZ rates, ZYX base-frame acceleration) as theorems about all / some motions."
},
"C64": {
"status": "proved",
"theorems": [
"Matlab.C64_accepts_rotations",
"Matlab.C64_accepted",
"Matlab.C64_accepts_reflections",
"Matlab.exists_spectralNorm"
],
"note": "Finding: reflections are accepted."
},
"C65": {
"status": "proved",
"theorems": [
"Matlab.C65_defined",
"Matlab.C65_correct"
],
"note": "Finding: undefined at the identity and at half turns."
},
"C66": {
"status": "proved",
"theorems": [
"Matlab.C66_quaternion_rotation",
"Matlab.C66_quaternion_to_rotation_vector",
"Matlab.C66_rotation_vector_to_matrix",
"Matlab.C66_skew"
],
"note": ""
},
"C67": {
"status": "proved",
"theorems": [
"Matlab.C67_boxMinus_boxPlus",
"Matlab.C67_boxPlus_boxMinus",
"Matlab.C67_agrees_with_cpp",
"Matlab.exists_expm_logm"
],
"note": ""
},
"C68": {
"status": "proved",
"theorems": [
"Matlab.C68_central_differences",
"Matlab.C68_exact_for_quadratics",
"Matlab.C68_accuracy",
"Matlab.C68_converges",
"Matlab.C68_time_derivative"
],
"note": ""
},
"C69": {
"status": "proved",
"theorems": [
"C69_pose_equality",
"C69_pose_mixed_matrix",
"C69_pose_mixed_sound",
"C69_pose_mixed_counterexample"
],
"note": "Same class for all but AngleAxis (its == is tolerant, see C49); different classes with the matrix on the left exactly, otherwise soundness, with a proved counterexample to completeness."
},
"C70": {
"status": "proved",
"theorems": [
"C70_test_disparity"
],
"note": ""
},
"C71": {
"status": "proved",
"theorems": [
"C71_compareRelative_nonfinite",
"C71_finite_agrees",
"C71_checks_accept_nonfinite"
],
"note": "Special-value model (Model/Special.lean): IEEE special values, arbitrary rounding and overflow; sign of zero not modelled."
},
"C72": {
"status": "proved",
"theorems": [
"C72_getUnique_nonfinite",
"C72_logarithmicMap_nan",
"C72_quaternion_nan",
"C72_equals_identity",
"C72_finite_agrees",
"C72_comparison_finite_agrees"
],
"note": "Special-value model; == with the identity needs that pi and 1/2 are represented exactly by the arithmetic (M_PI stands for pi)."
},
"C73": {
"status": "proved",
"theorems": [
"C73_macros_ordered",
"C73_near",
"C73_macros_nan"
],
"note": ""
},
"C74": {
"status": "proved",
"theorems": [
"C74_verdict",
"C74_diagnosis",
"C74_nan"
],
"note": "Any size; induction over the loops."
},
"C75": {
"status": "proved",
"theorems": [
"C75_boxPlus_loop",
"C75_integrates_motion",
"C75_constant_velocity"
],
"note": "Real arithmetic; the error constants include the small-angle branches."
},
"C76": {
"status": "proved",
"theorems": [
"C76_velocity_by_differences",
"C76_dead_zone",
"C76_boxMinus_boxPlus"
],
"note": "C76_dead_zone states the cutoff (rotation angle below dp gives logarithm zero)."
},
"C77": {
"status": "proved",
"theorems": [
"C77_program_refinement",
"C77_program_unconditional"
],
"note": "Trace refinement between the library machine (Spec/Program.lean run) and a machine on Mathlib matrices (runIdeal)."
},
"C78": {
"status": "proved",
"theorems": [
"C78_renormalized_history"
],
"note": "Standard model of floating point (FloatArith), no overflow/underflow; compare C56, where without fix() the norm bound grows with n."
},
"C79": {
"status": "proved",
"theorems": [
"C79_machine_refinement",
"C79_machine_unconditional"
],
"note": "Small-step semantics of a while language (Spec/Machine.lean), lock-step simulation. Exact arithmetic; side conditions are about the ideal run only."
},
"C80": {
"status": "proved",
"theorems": [
"C80_modulo_closed",
"C80_modulo_half_open",
"C80_modulo_accuracy",
"C80_modulo_fixed",
"C80_wrapTwoPI_accuracy",
"C80_wrapPosNegPI_accuracy",
"C80_wrapTwoPI_range",
"C80_wrapPosNegPI_range",
"C80_wrapTwoPI_idempotent",
"C80_float_not_half_open"
],
"note": "Bit-level binary rounding (any mode); unbounded exponent range, i.e. no underflow/overflow. Which overload of floor is selected depends on the standard library; both are modelled."
},
"C81": {
"status": "proved",
"theorems": [
"C81_cast_action",
"C81_accepted",
"C81_accepted_rounded",
"C81_widening_exact",
"C81_stored",
"C81_roundtrip",
"C81_convert",
"C81_convert_quat_float",
"C81_same_type",
"C81_pose"
],
"note": "Only the conversions of stored numbers between scalar types round; the arithmetic of the conversion formulas in between is exact. Unbounded exponent range."
},
"C82": {
"status": "proved",
"theorems": [
"C82_accepted",
"C82_accepted_rotate"
],
"note": "Exact arithmetic; the tolerances are stated per class in Spec/Accepted.lean."
},
"C83": {
"status": "proved",
"theorems": [
"C83_accepts",
"C83_kindr_implements",
"C83_kindr_passes",
"C83_matrix_pinned",
"C83_rotateVector_pinned",
"C83_reversed_concatenation",
"C83_transposed_matrix",
"C83_local_boxPlus",
"C83_documented_tests_miss_axes"
],
"note": "Exact arithmetic. The soundness theorem (2) assumes that the library follows some fixed convention (kindr's rotation or its inverse, in fixed orthogonal axes); without that a test on finitely many rotations cannot imply anything about the others."
},
"C84": {
"status": "proved",
"theorems": [
"C84_quaternion",
"C84_matrix",
"C84_safe",
"C84_division_by_zero",
"C84_accepted_nan",
"C84_boxMinus_self"
],
"note": "Exact characterization in exact arithmetic with IEEE special values; the NaN result is proved for every arithmetic."
},
"C85": {
"status": "proved",
"theorems": [
"C85_convert",
"C85_rv_defined",
"C85_convert_exact_input",
"C85_rotate",
"C85_mult",
"C85_mult_matrix",
"C85_inverted",
"C85_exact_table",
"C85_exact_operations",
"C85_double_float",
"C85_inverseRotate",
"C85_angle_size",
"C85_round_trip",
"C85_inverseRotate_double"
],
"note": "Overflow, underflow and NaN are not modelled; the error bounds of the mathematical library are fields of FloatLib (instances for correctly rounded float and double are constructed)."
},
"C86": {
"status": "proved",
"theorems": [
"C86_loop",
"C86_integrates_motion",
"C86_double"
],
"note": "Rounding model as in C85. The increments and sample times are taken as given numbers."
},
"C87": {
"status": "proved",
"theorems": [
"C87_log",
"C87_boxMinus",
"C87_disparity",
"C87_isNear",
"C87_interpolate",
"C87_double",
"C87_interpolate_double",
"C87_exact_operations"
],
"note": "Rounding model as in C85 with a second rounding for the double parts of wrapPosNegPI. A matrix a needs a dummy precision of at least 75 times the quaternion error (met in double, not in float)."
},
"C88": {
"status": "proved",
"theorems": [
"C88_transform",
"C88_inverseTransform",
"C88_chain",
"C88_chain_double",
"C88_round_trip_double",
"C88_exact_operations"
],
"note": "Rounding model as in C85. A chain stored with a matrix is only covered for matrix factors: multiplying a stored matrix by other classes is unstable (C60)."
},
"C89": {
"status": "proved",
"theorems": [
"C89_quat_velocity",
"C89_quat_rates",
"C89_matrix_velocity",
"C89_matrix_rates",
"C89_xyz_velocity",
"C89_zyx_velocity",
"C89_xyz_rates",
"C89_zyx_rates",
"C89_frames",
"C89_gimbal_check_dead",
"C89_jacobian",
"C89_jacobian_float_identity",
"C89_jacobian_float_error",
"C89_exact_operations"
],
"note": "Rounding model as in C85. The float findings on the Jacobian assume that cos/sin resolve to the float overloads; where an unqualified cos resolves to the double function, only the general bound applies."
},
"C90": {
"status": "proved",
"theorems": [
"C90_quaternion",
"C90_matrix",
"C90_angle_axis",
"C90_rotation_vector",
"C90_xyz",
"C90_zyx",
"C90_zyx_band",
"C90_zyx_band_example",
"C90_exact_operations"
],
"note": "Rounding model as in C85/C87. The Zyx band is the finding C18, now shown to persist in rounded arithmetic."
},
"C91": {
"status": "proved",
"theorems": [
"C91_program",
"C91_log",
"C91_boxMinus",
"C91_double",
"C91_exact_operations",
"C91_example"
],
"note": "Rounding model as in C85-C90 (no overflow or underflow). Within/Fits/boundStep/outErrs and the cost analysis Cheap/costErrs are in Spec/FloatProgram.lean; C91_example is a program that uses every class and every kind of command. In the analysis nothing is known of EulerAnglesZyx after setUnique() (C18)."
},
"C92": {
"status": "proved",
"theorems": [
"C92_log_rate",
"C92_boxMinus_rate",
"C92_interpolate_rate",
"C92_perturb_left",
"C92_perturb_right",
"C92_perturb_inverse",
"C92_perturb_rotate",
"C92_invertible",
"C92_identities",
"C92_inverse_approximation",
"C92_doc_inverse_identity_refuted",
"C92_doc_sign_refuted",
"C92_example"
],
"note": "Real arithmetic. Velocities are those of Spec/Deriv.lean (defined through the action on every fixed vector). The rates need the logarithm to be at least 1e-4 long (the branch point of getJacobianOfExponentialMap) and shorter than pi (at a half turn the logarithm jumps). Clear/RvClear/PairClear are the small-angle side conditions of C01-C23."
},
"C93": {
"status": "proved",
"theorems": [
"C93_speed_limit",
"C93_speed_limit_local",
"C93_rotation_vector",
"C93_euler_angles",
"C93_angle_axis",
"C93_matrix",
"C93_quaternion",
"C93_unique_quaternion",
"C93_logarithm",
"C93_logarithm_jump",
"C93_disparity",
"C93_sharp"
],
"note": "Real arithmetic. rotAngle(A B^T) is the angle of the relative rotation; C93_disparity restates the bounds for getDisparityAngle. C93_sharp shows that the hypotheses can be met and that the bounds are attained."
},
"C94": {
"status": "proved",
"theorems": [
"C94_every_rotation",
"C94_inverse",
"C94_small_angles",
"C94_half_turns",
"C94_not_uniform",
"C94_example"
],
"note": "The documentation says only 'a random rotation'; C94_not_uniform is a finding for users who need uniform samples. Lebesgue measure on the cube of draws; ideal generator, real arithmetic. For the classes converted from the rotation vector, draws shorter than 1/32 (they may fall into the small-angle branches) are excluded where the statement says so."
},
"C95": {
"status": "proved",
"theorems": [
"C95_conversions",
"C95_operations",
"C95_precisions",
"C95_setFromVectors",
"C95_fix",
"C95_euler_rates",
"C95_jacobian_poses",
"C95_programs",
"C95_programs_ok",
"C95_example"
],
"note": "Model/SpecialOps.lean is the whole interface over numbers extended with infinities and NaN; XArith.exact is exact arithmetic where x/0 is infinite or NaN and sqrt of a negative number is NaN. The theorems also discharge a modelling assumption: Lean's conventions x/0 = 0 and sqrt x = 0 for x < 0 are never used by the real-number model on admissible inputs. Overflow and rounding are not part of this property (C85-C91, C96)."
},
"C96": {
"status": "proved",
"theorems": [
"C96_binary",
"C96_operations",
"C96_log",
"C96_programs",
"C96_setFromVectors",
"C96_euler_rates",
"C96_jacobian_poses",
"C96_example"
],
"note": "RoundsTo: monotone, keeps stored numbers, 0, 1 and negatives stored; C96_binary shows every p-bit binary rounding mode has it (exponents unbounded: overflow excluded; underflow to zero is allowed except for the second-derivative mappings and the Jacobian, which assume NoUnderflow). Constants such as pi are exact. RotationMatrix::fix is excluded (C95_fix). Eigen's SVD axis is assumed finite."
},
"C97": {
"status": "proved",
"theorems": [
"C97_classes",
"C97_frames",
"C97_reversal",
"C97_subdivision",
"C97_speed",
"C97_half_turn",
"C97_example_reversal",
"C97_example_half_turn"
],
"note": "The side condition InterpClear (as in C23) keeps the conversions through RotationVector out of the small-angle band; for the other six classes interpClear_of_nonrv discharges it from a distance bound."
},
"C98": {
"status": "proved",
"theorems": [
"Matlab.C98_first",
"Matlab.C98_second",
"Matlab.C98_errors",
"Matlab.C98_terminates",
"Matlab.C98_prefix",
"Matlab.C98_q10",
"Matlab.C98_example"
],
"note": "Model/FullDiff.lean transcribes the row table of fulldiff2.m with its string comparisons (strfind = infix, strmatch = prefix). Matlab's symbolic engine is a parameter with the contract Spec.IsToolbox; expressions simplify products and sums with 0."
},
"C99": {
"status": "proved",
"theorems": [
"Matlab.C99_steady",
"Matlab.C99_exp_map",
"Matlab.C99_euler_axes",
"Matlab.C99_euler_wrong",
"Matlab.C99_frame",
"Matlab.C99_label",
"Matlab.C99_rotation_vector",
"Matlab.C99_angle_axis",
"Matlab.C99_transform",
"Matlab.C99_point_velocity",
"Matlab.C99_linear_frames",
"Matlab.C99_linearization",
"Matlab.C99_linearization_time",
"Matlab.C99_examples"
],
"note": "Model/MatlabVis.lean has the numbers handed to the graphics functions; drawing, colours and timing are not modelled. Spec.SteadyRotation defines the motion independently of exponentials (starts at the identity, constant angular velocity); C99_steady shows it exists and is unique. The findings are the exact statements C99_euler_wrong, C99_transform (label within 0.1 of the wrong point) and C99_linearization_time."
},
"C100": {
"status": "proved",
"theorems": [
"C100_rotations",
"C100_lines",
"C100_classes",
"C100_read_back",
"C100_precision",
"C100_six_digits",
"C100_class_lost",
"C100_source_pos",
"C100_example"
],
"note": "The formatting of one number by the stream (precision, flags, locale) is a parameter; Eigen's default matrix format is transcribed (padding to the widest entry, one space between columns, one line per row); stream width 0. Words and lines are defined in Spec/Print.lean independently of the printing code."
},
"C101": {
"status": "proved",
"theorems": [
"C101_vectors",
"C101_wrench",
"C101_quaternion_call",
"C101_rotations",
"C101_statement",
"C101_program",
"C101_overlap",
"C101_example"
],
"note": "Memory model: one number per address, temporaries at an address of their own, coefficient loops in an arbitrary order (Model/Memory.lean). A function that returns a value is taken to read its arguments before its result is stored, which C++ guarantees; lazily evaluated Eigen expressions occur in the modelled methods only inside coefficient loops and in the transposition, which are modelled load by load."
},
"C102": {
"status": "proved",
"theorems": [
"C102_accesses",
"C102_isolated",
"C102_threads",
"C102_race",
"C102_example"
],
"note": "Calls are lists of single loads and stores with thread-local temporaries (Model/Threads.lean), proved equivalent to the calls of C101. Sequentially consistent memory, which C++ guarantees for programs without data race. setRandom uses the global generator of the C library and is not among the calls."
},
"C103": {
"status": "proved",
"theorems": [
"C103_bits",
"C103_identity",
"C103_neutral",
"C103_rotate",
"C103_inverse",
"C103_vectors",
"C103_pose",
"C103_self",
"C103_boxPlus",
"C103_ieee",
"C103_double",
"C103_float",
"C103_example"
],
"note": "Rounding to p bits with unbounded exponent range (no overflow, underflow, NaN); +0 and -0 identified. C103_ieee shows that round-to-nearest-even double and float meet the assumptions. The self distance of the Euler classes goes through the quaternion and is not claimed bit for bit. The float finding is stated for both overloads of floor."
},
"C104": {
"status": "proved",
"theorems": [
"C104_double_idempotent",
"C104_float_step",
"C104_float_drift",
"C104_float_drift_example",
"C104_axis_norm",
"C104_half_turn_double",
"C104_unique_double",
"C104_unique_double_not_idempotent",
"C104_half_turn_float",
"C104_rotation_vector"
],
"note": "Round to nearest even, unbounded exponent range. C104_rotation_vector is stated along the first axis (the norm of a general vector is rounded); C104_axis_norm shows the norm exact along the axes."
},
"C105": {
"status": "proved",
"theorems": [
"C105_norm_zero",
"C105_overflow",
"C105_accuracy",
"C105_throws",
"C105_huge",
"C105_scale",
"C105_setFromVectors_scale",
"C105_between"
],
"note": "Arithmetic: IEEE 754 round to nearest even with gradual underflow and overflow (Model/Range.lean), sum of squares in Eigen's order x^2+(y^2+z^2); the sign of zero is not modelled and the sign of overflow follows the exact result. Release build (the debug assertion of the quaternion constructor is C96/C70)."
},
"C106": {
"status": "proved",
"theorems": [
"C106_accuracy",
"C106_debug",
"C106_double",
"C106_single",
"C106_float"
],
"note": "Arithmetic of C105 (round to nearest even, subnormals, overflow). Accuracy is stated for the quaternion; the conversion to the other classes is C86/C96. Inside the antiparallel band the axis comes from Eigen's SVD, which is an arbitrary function here."
},
"C107": {
"status": "proved",
"theorems": [
"C107_zyx_values",
"C107_xyz_values",
"C107_gimbal_values",
"C107_ranges",
"C107_identity_jump",
"C107_unique",
"C107_modulus",
"C107_gimbal_jump",
"C107_angle_axis",
"C107_no_continuous_choice",
"C107_conversion_jumps"
],
"note": "Exact real arithmetic; IEEE signed zeros are not modelled, so on the borders +pi may come out as -pi."
},
"C108": {
"status": "proved",
"theorems": [
"C108_product",
"C108_fix",
"C108_loop",
"C108_products",
"C108_rotate",
"C108_rotate_matrix",
"C108_transform",
"C108_rotate_normal",
"C108_loop_rotate",
"C108_overflow",
"C108_underflow",
"C108_double",
"C108_float"
],
"note": "Round to nearest, ties to even; the sign of zero is not modelled. Closes the no-underflow/no-overflow assumption of C56-C58 and C78 for these operations."
},
"C109": {
"status": "proved",
"theorems": [
"C109_reference",
"C109_exp",
"C109_integrate",
"C109_rotate",
"C109_stall",
"C109_double",
"C109_float",
"C109_tiny_increment"
],
"note": "Round to nearest, ties to even; sin, cos and sqrt correctly rounded; the sign of zero is not modelled. Closes the no-underflow assumption of C86 for quaternions."
},
"C110": {
"status": "proved",
"theorems": [
"C110_angle_axis",
"C110_quaternion",
"C110_history",
"C110_release",
"C110_stuck",
"C110_tolerance"
],
"note": "Real arithmetic; checks of intermediate temporaries in conversions are not modelled (the write comes last, so they cannot change the object)."
},
"C111": {
"status": "proved",
"theorems": [
"C111_text",
"C111_values",
"C111_relations",
"C111_evaluations",
"C111_contradiction",
"C111_release",
"C111_if",
"C111_else",
"C111_finite",
"C111_labels"
],
"note": "Operands as state transformers, statements as a small language; KINDR_ASSERT_NEAR and SCALAR_NEAR are not modelled as text."
},
"C112": {
"status": "proved",
"theorems": [
"C112_product_programs",
"C112_product_order",
"C112_quotient_programs",
"C112_spellings",
"C112_int_factor",
"C112_int_fraction",
"C112_int_mean",
"C112_int_projectOn",
"C112_float_factor",
"C112_float_factor_range",
"C112_double_factor",
"C112_float_int_factor"
],
"note": "int has 32 bits; undefined behaviour is the result none; a zero divisor is taken as +0."
},
"C113": {
"status": "proved",
"theorems": [
"C113_log",
"C113_boxMinus",
"C113_disparity",
"C113_isNear",
"C113_round_trip",
"C113_interpolate",
"C113_double",
"C113_float",
"C113_example"
],
"note": "sin, cos, atan2 and sqrt are taken to be correctly rounded; the sign of zero is not modelled; the ratio of interpolate is a number of the scalar type."
},
"C114": {
"status": "proved",
"theorems": [
"C114_inverseTransform",
"C114_round_trip",
"C114_chain",
"C114_chain_transform",
"C114_far",
"C114_double",
"C114_float",
"C114_example"
],
"note": "poses with a quaternion; the sign of zero is not modelled."
},
"C115": {
"status": "proved",
"theorems": [
"C115_sum",
"C115_sum_exact",
"C115_dot",
"C115_mean",
"C115_accumulate",
"C115_order",
"C115_accumulate_exact",
"C115_order_matters",
"C115_move",
"C115_stall",
"C115_nearby",
"C115_cross_antisymmetric",
"C115_cross",
"C115_cross_self",
"C115_wrench",
"C115_double",
"C115_float",
"C115_stall_float",
"C115_mean_of_equal",
"C115_example"
],
"note": "no contraction of product and sum into one rounding (FMA); the sign of zero is not modelled."
},
"C116": {
"status": "proved",
"theorems": [
"C116_quaternion",
"C116_angle_axis",
"C116_half_turn",
"C116_rotation_vector",
"C116_rotation_vector_twice",
"C116_xyz",
"C116_zyx",
"C116_manual_false",
"C116_example"
],
"note": "over the reals; C104 and C90 treat getUnique in floating point."
},
"C117": {
"status": "proved",
"theorems": [
"C117_steps",
"C117_odometry",
"C117_velocity_by_differences",
"C117_linear_velocity",
"C117_minute",
"C117_example"
],
"note": "exact arithmetic with the library's small-angle cut-offs, as in C75 and C76; C114 treats pose chains in IEEE arithmetic."
},
"C118": {
"status": "proved",
"theorems": [
"C118_loop",
"C118_loop_rotate",
"C118_inverse",
"C118_rewrap",
"C118_stored",
"C118_loop_rewrap",
"C118_double",
"C118_accepted_product_throws",
"C118_example"
],
"note": "no contraction to fused multiply-add; the tolerances written as decimal literals in the checks are taken as reals."
},
"C119": {
"status": "proved",
"theorems": [
"C119_similar_iff",
"C119_similar_nan",
"C119_similar_symmetric",
"C119_similar",
"C119_project_tiny",
"C119_project_huge",
"C119_project",
"C119_example"
],
"note": "maxCoeff() combines coefficients with std::max (scalar code without NaN propagation), no contraction to fused multiply-add."
},
"C120": {
"status": "proved",
"theorems": [
"C120_cosine",
"C120_rates",
"C120_no_exception",
"C120_example"
],
"note": "std::sin and std::cos correctly rounded; for float the C++ expression 1.0/t2 is a division in double rounded to float, modelled as one division in float."
},
"C121": {
"status": "proved",
"theorems": [
"C121_second",
"C121_no_exception",
"C121_rates",
"C121_rates_no_exception",
"C121_inverse",
"C121_example"
],
"note": "std::sin and std::cos correctly rounded; for float, divisions written with the double literal 1.0 are modelled as one division in float; matrix-vector products add from left to right."
},
"C122": {
"status": "proved",
"theorems": [
"C122_velocity",
"C122_roundtrip",
"C122_component_lost"
],
"note": "std::sin and std::cos correctly rounded; matrix-vector products add from left to right."
}
}