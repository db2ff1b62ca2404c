{
 "claims": [
  {
   "property": "C01",
   "status": "proved",
   "theorems": [
    "Kindr.C01_modulo"
   ],
   "note": "exact reals"
  },
  {
   "property": "C02",
   "status": "proved",
   "theorems": [
    "Kindr.C02_wrap"
   ],
   "note": "wrapAngle, wrapPosNegPI, wrapTwoPI; M_PI = exact pi"
  },
  {
   "property": "C03",
   "status": "proved",
   "theorems": [
    "Kindr.C03_modulo_range_any_m",
    "Kindr.C03_modulo_range_any_m_neg",
    "Kindr.C03_modulo_range_rounded"
   ],
   "note": "arbitrary intermediate m, and full rounded evaluation with any monotone faithful rounding"
  },
  {
   "property": "C04",
   "status": "proved",
   "theorems": [
    "Kindr.C04_skew"
   ],
   "note": ""
  },
  {
   "property": "C05",
   "status": "proved",
   "theorems": [
    "Kindr.C05_quaternion_algebra",
    "Kindr.C05_laws",
    "Kindr.C05_quaternion_matrices",
    "Kindr.C05_constructors"
   ],
   "note": "against Mathlib Quaternion"
  },
  {
   "property": "C06",
   "status": "partial",
   "theorems": [
    "Kindr.C06_unit_closed",
    "Kindr.C06_inverse",
    "Kindr.C06_normalized",
    "Kindr.C06_identity_partial",
    "Kindr.C06_UnitQuaternion_setIdentity_broken"
   ],
   "note": "true for RotationQuaternion; UnitQuaternion::setIdentity stores the zero quaternion (finding, proved)"
  },
  {
   "property": "C07",
   "status": "proved",
   "theorems": [
    "Kindr.C07_conversion",
    "Kindr.C07_conversion_unconditional",
    "Kindr.C07_chain",
    "Kindr.C07_chain_list",
    "Kindr.C59_conversion"
   ],
   "note": "all 36 pairs, outside the small-angle branches as the property says"
  },
  {
   "property": "C08",
   "status": "proved",
   "theorems": [
    "Kindr.C08_rv_to_quat",
    "Kindr.C08_quat_to_rv",
    "Kindr.C08_rv_to_aa",
    "Kindr.C08_mat_to_rv"
   ],
   "note": "explicit error bound per small-angle branch"
  },
  {
   "property": "C09",
   "status": "proved",
   "theorems": [
    "Kindr.C09_conversion_valid",
    "Kindr.C09_angle_axis_range",
    "Kindr.C09_conversion_never_throws",
    "Kindr.C09_conversion_never_throws_all"
   ],
   "note": ""
  },
  {
   "property": "C10",
   "status": "proved",
   "theorems": [
    "Kindr.C10_rotate_spec",
    "Kindr.C10_rotate_isometry",
    "Kindr.C10_rotate_columns",
    "Kindr.C10_rotate_linear",
    "Kindr.C10_rotate_all"
   ],
   "note": ""
  },
  {
   "property": "C11",
   "status": "proved",
   "theorems": [
    "Kindr.C11_concatenation",
    "Kindr.C11_concatenation_unconditional",
    "Kindr.C11_associative",
    "Kindr.C59_concatenation"
   ],
   "note": ""
  },
  {
   "property": "C12",
   "status": "proved",
   "theorems": [
    "Kindr.C12_inverted",
    "Kindr.C12_mult_inverted"
   ],
   "note": ""
  },
  {
   "property": "C13",
   "status": "proved",
   "theorems": [
    "Kindr.C13_identity"
   ],
   "note": ""
  },
  {
   "property": "C14",
   "status": "proved",
   "theorems": [
    "Kindr.C14_quaternion_unique"
   ],
   "note": ""
  },
  {
   "property": "C15",
   "status": "proved",
   "theorems": [
    "Kindr.C15_angle_axis_unique",
    "Kindr.C15_eq_of_same"
   ],
   "note": ""
  },
  {
   "property": "C16",
   "status": "proved",
   "theorems": [
    "Kindr.C16_rotation_vector_unique",
    "Kindr.C16_cutoff"
   ],
   "note": ""
  },
  {
   "property": "C17",
   "status": "partial",
   "theorems": [
    "Kindr.C17_unique_partial",
    "Kindr.C17_within_tolerance",
    "Kindr.C17_counterexamples",
    "Kindr.C17_exact_iff"
   ],
   "note": "holds outside the 1e-3 band around gimbal lock; inside the band the code changes the rotation (counterexamples proved, error bounded). C17_exact_iff characterizes exactly the inputs for which the claim holds."
  },
  {
   "property": "C18",
   "status": "partial",
   "theorems": [
    "Kindr.C18_unique_partial",
    "Kindr.C18_band_error",
    "Kindr.C18_counterexamples",
    "Kindr.C18_exact_iff"
   ],
   "note": "holds outside the band; inside it the code uses the wrong sign (counterexamples proved). C18_exact_iff characterizes exactly the inputs for which the claim holds."
  },
  {
   "property": "C19",
   "status": "proved",
   "theorems": [
    "Kindr.C19_disparity_angle",
    "Kindr.C19_symmetric",
    "Kindr.C19_bi_invariant",
    "Kindr.C19_triangle",
    "Kindr.C19_metric_unconditional",
    "Kindr.C59_disparity_angle"
   ],
   "note": ""
  },
  {
   "property": "C20",
   "status": "proved",
   "theorems": [
    "Kindr.C20_isNear",
    "Kindr.C20_refl_trans",
    "Kindr.C59_isNear"
   ],
   "note": ""
  },
  {
   "property": "C21",
   "status": "proved",
   "theorems": [
    "Kindr.C21_exp_log",
    "Kindr.C21_log_exp",
    "Kindr.C21_log_norm_le_pi",
    "Kindr.C21_matrix_exponential",
    "Kindr.C59_logarithmicMap"
   ],
   "note": "outside the small-angle branches; C08 bounds the error inside them"
  },
  {
   "property": "C22",
   "status": "proved",
   "theorems": [
    "Kindr.C22_boxPlus_boxMinus",
    "Kindr.C22_boxMinus_boxPlus",
    "Kindr.C59_boxPlus",
    "Kindr.C59_boxMinus"
   ],
   "note": "outside the small-angle branches"
  },
  {
   "property": "C23",
   "status": "proved",
   "theorems": [
    "Kindr.C23_interpolate",
    "Kindr.C59_interpolate"
   ],
   "note": "outside the small-angle branches"
  },
  {
   "property": "C24",
   "status": "partial",
   "theorems": [
    "Kindr.C24_aligned_partial",
    "Kindr.C24_band_error",
    "Kindr.C24_throws_iff",
    "Kindr.C24_isSvdAxis_satisfiable",
    "Kindr.C24_band_counterexample",
    "Kindr.C24_exact_iff"
   ],
   "note": "exact alignment outside Eigen's antiparallel band; inside it the error is bounded and a counterexample to exactness is proved. C24_exact_iff characterizes exactly the inputs for which the claim holds."
  },
  {
   "property": "C25",
   "status": "partial",
   "theorems": [
    "Kindr.C25_fix_quaternion",
    "Kindr.C25_fix_angle_axis",
    "Kindr.C25_fix_valid",
    "Kindr.C25_fix_matrix_partial",
    "Kindr.C25_fix_matrix_counterexample"
   ],
   "note": "RotationMatrix::fix only restores the determinant, not orthogonality (proved)"
  },
  {
   "property": "C26",
   "status": "proved",
   "theorems": [
    "Kindr.C26_quaternion_ctor",
    "Kindr.C26_angle_axis_ctor",
    "Kindr.C26_matrix_ctor"
   ],
   "note": ""
  },
  {
   "property": "C27",
   "status": "proved",
   "theorems": [
    "Kindr.C27_compareRelative",
    "Kindr.C27_compareRelative_iff",
    "Kindr.C27_compareRelativePeriodic"
   ],
   "note": ""
  },
  {
   "property": "C28",
   "status": "proved",
   "theorems": [
    "Kindr.C28_local_global",
    "Kindr.C28_same_motion"
   ],
   "note": "all kinds"
  },
  {
   "property": "C29",
   "status": "proved",
   "theorems": [
    "Kindr.C29_roundtrip",
    "Kindr.C29_quaternion_curve"
   ],
   "note": "HasDerivAt along arbitrary unit-quaternion curves"
  },
  {
   "property": "C30",
   "status": "proved",
   "theorems": [
    "Kindr.C30_matrix_curve",
    "Kindr.C30_roundtrip"
   ],
   "note": "arbitrary SO(3) curves"
  },
  {
   "property": "C31",
   "status": "proved",
   "theorems": [
    "Kindr.C31_xyz_rates",
    "Kindr.C31_xyz_inverse_mapping",
    "Kindr.C31_xyz_roundtrip"
   ],
   "note": "including the throwing guard at cos(pitch)=0"
  },
  {
   "property": "C32",
   "status": "proved",
   "theorems": [
    "Kindr.C32_zyx_rates",
    "Kindr.C32_zyx_inverse_mapping",
    "Kindr.C32_zyx_roundtrip"
   ],
   "note": "including the throwing guard at cos(pitch)=0"
  },
  {
   "property": "C33",
   "status": "proved",
   "theorems": [
    "Kindr.C33_second_diff_to_velocity",
    "Kindr.C33_velocity_to_second_diff",
    "Kindr.C33_acceleration",
    "Kindr.C33_angle_acceleration"
   ],
   "note": "HasDerivAt of the mapping matrices"
  },
  {
   "property": "C34",
   "status": "proved",
   "theorems": [
    "Kindr.C34_angular_velocity_vector_space",
    "Kindr.C34_diff_groups",
    "Kindr.C34_conversions_linear",
    "Kindr.C34_conversions_linear_all"
   ],
   "note": ""
  },
  {
   "property": "C35",
   "status": "proved",
   "theorems": [
    "Kindr.C35_jacobian",
    "Kindr.C35_jacobian_exponentialMap",
    "Kindr.C35_radial",
    "Kindr.C35_small_error"
   ],
   "note": "small branch with explicit error bound"
  },
  {
   "property": "C36",
   "status": "proved",
   "theorems": [
    "Kindr.C36_last_write_wins",
    "Kindr.C36_get_set",
    "Kindr.C36_reassemble",
    "Kindr.C36_constructors_eq"
   ],
   "note": "all dimensions, positions and lengths"
  },
  {
   "property": "C37",
   "status": "proved",
   "theorems": [
    "Kindr.C37_linear",
    "Kindr.C37_vector_space_laws",
    "Kindr.C37_inner_product",
    "Kindr.C37_norm_laws",
    "Kindr.C37_normalized",
    "Kindr.C37_cross",
    "Kindr.C37_vector_products",
    "Kindr.C37_reductions"
   ],
   "note": "all dimensions"
  },
  {
   "property": "C38",
   "status": "proved",
   "theorems": [
    "Kindr.C38_projectOn_is_projection",
    "Kindr.C38_projectOn",
    "Kindr.C38_projectOn_zero_nan",
    "Kindr.C38_projectOn_finite",
    "Kindr.C38_isSimilarTo_iff",
    "Kindr.C38_isSimilarTo_relation",
    "Kindr.C38_isSimilarTo_chain"
   ],
   "note": "all dimensions"
  },
  {
   "property": "C39",
   "status": "partial",
   "theorems": [
    "Kindr.C39_table_unambiguous",
    "Kindr.C39_mult_symmetric",
    "Kindr.C39_div_inverts_mult",
    "Kindr.C39_mult_inverts_div",
    "Kindr.C39_si_dimensions",
    "Kindr.C39_typeless_unit_partial",
    "Kindr.C39_typeless_counterexample",
    "Kindr.C39_self_quotient",
    "Kindr.C39_laws_exact"
   ],
   "note": "Typeless is neutral except for Mass, Inertia, Power, Energy, which have no table entry (finding, proved)"
  },
  {
   "property": "C40",
   "status": "proved",
   "theorems": [
    "Kindr.C40_vector_roundtrip",
    "Kindr.C40_vector_space",
    "Kindr.C40_setters"
   ],
   "note": ""
  },
  {
   "property": "C41",
   "status": "proved",
   "theorems": [
    "Kindr.C41_vector_roundtrip",
    "Kindr.C41_generic_vector",
    "Kindr.C41_setters",
    "Kindr.C41_generic_vector_motion"
   ],
   "note": ""
  },
  {
   "property": "C42",
   "status": "proved",
   "theorems": [
    "Kindr.C42_transform_spec",
    "Kindr.C42_compose",
    "Kindr.C42_compose_unconditional",
    "Kindr.C42_associative",
    "Kindr.C42_identity",
    "Kindr.C42_inverse",
    "Kindr.C42_rigid",
    "Kindr.C42_conversion",
    "Kindr.C42_equality",
    "Kindr.C59_pose"
   ],
   "note": "all rotation kinds"
  },
  {
   "property": "C43",
   "status": "proved",
   "theorems": [
    "Kindr.C43_matrix_action",
    "Kindr.C43_homomorphism",
    "Kindr.C43_faithful"
   ],
   "note": ""
  },
  {
   "property": "C44",
   "status": "proved",
   "theorems": [
    "Kindr.C44_pseudoInverse",
    "Kindr.C44_pseudoInverse_truncated",
    "Kindr.C44_penrose_unique",
    "Kindr.C44_inverse"
   ],
   "note": "relative to the SVD contract of Eigen::JacobiSVD"
  },
  {
   "property": "C45",
   "status": "proved",
   "theorems": [
    "Kindr.C45_euler_components",
    "Kindr.C45_euler_order",
    "Kindr.C45_rotation_vector",
    "Kindr.C45_angle_axis",
    "Kindr.C45_rotation_quaternion"
   ],
   "note": "setter histories of any length"
  },
  {
   "property": "C46",
   "status": "partial",
   "theorems": [
    "Kindr.C46_sound_partial",
    "Kindr.C46_matrix_left",
    "Kindr.C46_quaternion_left",
    "Kindr.C46_rotation_vector_left",
    "Kindr.C46_xyz_left",
    "Kindr.C46_zyx_left",
    "Kindr.C46_not_symmetric_counterexample",
    "Kindr.C46_xyz_counterexample"
   ],
   "note": "true implies same rotation for every pair; decides equality for matrix on the left and for several other pairs; exact characterization for Euler angles on the left; the full claim and symmetry are refuted (finding)"
  },
  {
   "property": "C47",
   "status": "proved",
   "theorems": [
    "Kindr.C47_history",
    "Kindr.C47_history_unconditional",
    "Kindr.C59_history",
    "Kindr.C59_history_quat"
   ],
   "note": ""
  },
  {
   "property": "C48",
   "status": "proved",
   "theorems": [
    "Kindr.C48_random"
   ],
   "note": ""
  },
  {
   "property": "C49",
   "status": "partial",
   "theorems": [
    "Kindr.C49_angle_axis_eq_partial",
    "Kindr.C49_not_transitive_counterexample"
   ],
   "note": "everything but transitivity, which is refuted"
  },
  {
   "property": "C50",
   "status": "proved",
   "theorems": [
    "Kindr.C50_velocity_of_product",
    "Kindr.C50_velocity_of_inverse",
    "Kindr.C50_inverse_same_frame"
   ],
   "note": ""
  },
  {
   "property": "C51",
   "status": "proved",
   "theorems": [
    "Kindr.C51_velocity_representation_independent",
    "Kindr.C51_derivative_classes_agree"
   ],
   "note": ""
  },
  {
   "property": "C52",
   "status": "proved",
   "theorems": [
    "Kindr.C52_product_derivative",
    "Kindr.C52_velocity_invariance"
   ],
   "note": ""
  },
  {
   "property": "C53",
   "status": "partial",
   "theorems": [
    "Kindr.C53_mixed_frame_sum_partial",
    "Kindr.C53_mixed_frame_sum_counterexample"
   ],
   "note": "holds only when the rotation fixes the right operand; the code adds coordinates without changing frames (finding, counterexample proved)"
  },
  {
   "property": "C54",
   "status": "proved",
   "theorems": [
    "Kindr.C54_point_velocity",
    "Kindr.C54_point_velocity_local",
    "Kindr.C54_transform_velocity"
   ],
   "note": ""
  },
  {
   "property": "C55",
   "status": "proved",
   "theorems": [
    "Kindr.C55_pose_history",
    "Kindr.C55_pose_history_all_classes",
    "Kindr.C55_pose_history_error",
    "Kindr.C55_pose_history_error_quat"
   ],
   "note": "induction on lists; exact for all classes under the small-angle side conditions of rotation vectors, and error bounds without side condition (matrix accumulators: no bound can hold, C60)"
  },
  {
   "property": "C56",
   "status": "proved",
   "theorems": [
    "Kindr.C56_history_error",
    "Kindr.C56_history_accepted",
    "Kindr.C56_double_float",
    "Kindr.C56_matrix_history_error",
    "Kindr.C56_matrix_history_accepted",
    "Kindr.C56_exact_arithmetic"
   ],
   "note": "rounding model: every operation has relative error at most u (no overflow/underflow); the debug check itself is evaluated exactly"
  },
  {
   "property": "C57",
   "status": "proved",
   "theorems": [
    "Kindr.C57_fix_rounded"
   ],
   "note": ""
  },
  {
   "property": "C58",
   "status": "proved",
   "theorems": [
    "Kindr.C58_rotate_accurate",
    "Kindr.C58_rotate_matrix_accurate"
   ],
   "note": ""
  },
  {
   "property": "C59",
   "status": "proved",
   "theorems": [
    "Kindr.C59_conversion",
    "Kindr.C59_rotate",
    "Kindr.C59_concatenation",
    "Kindr.C59_disparity_angle",
    "Kindr.C59_isNear",
    "Kindr.C59_logarithmicMap",
    "Kindr.C59_boxMinus",
    "Kindr.C59_boxPlus",
    "Kindr.C59_interpolate",
    "Kindr.C59_geodesic_speed",
    "Kindr.C59_history",
    "Kindr.C59_history_quat",
    "Kindr.C59_pose",
    "Kindr.C59_double_numbers"
   ],
   "note": "No side condition on the size of rotations. Exact real arithmetic between the approximation branches (rounding: C56-C58). Matrix accumulators are not covered by the history theorem: C60 shows that no such bound holds for them."
  },
  {
   "property": "C60",
   "status": "proved",
   "theorems": [
    "Kindr.C60_amplification",
    "Kindr.C60_matrix_history_unstable"
   ],
   "note": "Finding (defect): long products RotationMatrix * (non-matrix rotation) diverge from rounding-size errors. Exact rotation matrices are unaffected in exact arithmetic (C11)."
  },
  {
   "property": "C61",
   "status": "proved",
   "theorems": [
    "Kindr.Matlab.C61_elementary",
    "Kindr.Matlab.C61_snap",
    "Kindr.Matlab.C61_snap_hits",
    "Kindr.Matlab.C61_euler_maps"
   ],
   "note": ""
  },
  {
   "property": "C62",
   "status": "proved",
   "theorems": [
    "Kindr.Matlab.C62_extract",
    "Kindr.Matlab.C62_ranges",
    "Kindr.Matlab.C62_roundtrip",
    "Kindr.Matlab.C62_lock",
    "Kindr.Matlab.C62_lock_not_reproduced"
   ],
   "note": "Off gimbal lock; the behaviour at lock is characterised by C62_lock / C62_lock_not_reproduced (finding)."
  },
  {
   "property": "C63",
   "status": "proved",
   "theorems": [
    "Kindr.Matlab.C63_zyx_rates",
    "Kindr.Matlab.C63_zxz_rates",
    "Kindr.Matlab.C63_zyz_rates_wrong",
    "Kindr.Matlab.C63_zyx_acceleration",
    "Kindr.Matlab.C63_zyx_base_acceleration_wrong"
   ],
   "note": "Includes two findings (ZYZ rates, ZYX base-frame acceleration) as theorems about all / some motions."
  },
  {
   "property": "C64",
   "status": "proved",
   "theorems": [
    "Kindr.Matlab.C64_accepts_rotations",
    "Kindr.Matlab.C64_accepted",
    "Kindr.Matlab.C64_accepts_reflections",
    "Kindr.Matlab.exists_spectralNorm"
   ],
   "note": "Finding: reflections are accepted."
  },
  {
   "property": "C65",
   "status": "proved",
   "theorems": [
    "Kindr.Matlab.C65_defined",
    "Kindr.Matlab.C65_correct"
   ],
   "note": "Finding: undefined at the identity and at half turns."
  },
  {
   "property": "C66",
   "status": "proved",
   "theorems": [
    "Kindr.Matlab.C66_quaternion_rotation",
    "Kindr.Matlab.C66_quaternion_to_rotation_vector",
    "Kindr.Matlab.C66_rotation_vector_to_matrix",
    "Kindr.Matlab.C66_skew"
   ],
   "note": ""
  },
  {
   "property": "C67",
   "status": "proved",
   "theorems": [
    "Kindr.Matlab.C67_boxMinus_boxPlus",
    "Kindr.Matlab.C67_boxPlus_boxMinus",
    "Kindr.Matlab.C67_agrees_with_cpp",
    "Kindr.Matlab.exists_expm_logm"
   ],
   "note": ""
  },
  {
   "property": "C68",
   "status": "proved",
   "theorems": [
    "Kindr.Matlab.C68_central_differences",
    "Kindr.Matlab.C68_exact_for_quadratics",
    "Kindr.Matlab.C68_accuracy",
    "Kindr.Matlab.C68_converges",
    "Kindr.Matlab.C68_time_derivative"
   ],
   "note": ""
  },
  {
   "property": "C69",
   "status": "proved",
   "theorems": [
    "Kindr.C69_pose_equality",
    "Kindr.C69_pose_mixed_matrix",
    "Kindr.C69_pose_mixed_sound",
    "Kindr.C69_pose_mixed_counterexample"
   ],
   "note": "Same class for all but AngleAxis (its == is tolerant, see C49); different classes with the matrix on the left exactly, otherwise soundness, with a proved counterexample to completeness."
  },
  {
   "property": "C70",
   "status": "proved",
   "theorems": [
    "Kindr.C70_test_disparity"
   ],
   "note": ""
  },
  {
   "property": "C71",
   "status": "proved",
   "theorems": [
    "Kindr.C71_compareRelative_nonfinite",
    "Kindr.C71_finite_agrees",
    "Kindr.C71_checks_accept_nonfinite"
   ],
   "note": "Special-value model (Model/Special.lean): IEEE special values, arbitrary rounding and overflow; sign of zero not modelled."
  },
  {
   "property": "C72",
   "status": "proved",
   "theorems": [
    "Kindr.C72_getUnique_nonfinite",
    "Kindr.C72_logarithmicMap_nan",
    "Kindr.C72_quaternion_nan",
    "Kindr.C72_equals_identity",
    "Kindr.C72_finite_agrees",
    "Kindr.C72_comparison_finite_agrees"
   ],
   "note": "Special-value model; == with the identity needs that pi and 1/2 are represented exactly by the arithmetic (M_PI stands for pi)."
  },
  {
   "property": "C73",
   "status": "proved",
   "theorems": [
    "Kindr.C73_macros_ordered",
    "Kindr.C73_near",
    "Kindr.C73_macros_nan"
   ],
   "note": ""
  },
  {
   "property": "C74",
   "status": "proved",
   "theorems": [
    "Kindr.C74_verdict",
    "Kindr.C74_diagnosis",
    "Kindr.C74_nan"
   ],
   "note": "Any size; induction over the loops."
  },
  {
   "property": "C75",
   "status": "proved",
   "theorems": [
    "Kindr.C75_boxPlus_loop",
    "Kindr.C75_integrates_motion",
    "Kindr.C75_constant_velocity"
   ],
   "note": "Real arithmetic; the error constants include the small-angle branches."
  },
  {
   "property": "C76",
   "status": "proved",
   "theorems": [
    "Kindr.C76_velocity_by_differences",
    "Kindr.C76_dead_zone",
    "Kindr.C76_boxMinus_boxPlus"
   ],
   "note": "C76_dead_zone states the cutoff (rotation angle below dp gives logarithm zero)."
  },
  {
   "property": "C77",
   "status": "proved",
   "theorems": [
    "Kindr.C77_program_refinement",
    "Kindr.C77_program_unconditional"
   ],
   "note": "Trace refinement between the library machine (Spec/Program.lean run) and a machine on Mathlib matrices (runIdeal)."
  },
  {
   "property": "C78",
   "status": "proved",
   "theorems": [
    "Kindr.C78_renormalized_history"
   ],
   "note": "Standard model of floating point (FloatArith), no overflow/underflow; compare C56, where without fix() the norm bound grows with n."
  },
  {
   "property": "C79",
   "status": "proved",
   "theorems": [
    "Kindr.C79_machine_refinement",
    "Kindr.C79_machine_unconditional"
   ],
   "note": "Small-step semantics of a while language (Spec/Machine.lean), lock-step simulation. Exact arithmetic; side conditions are about the ideal run only."
  },
  {
   "property": "C80",
   "status": "proved",
   "theorems": [
    "Kindr.C80_modulo_closed",
    "Kindr.C80_modulo_half_open",
    "Kindr.C80_modulo_accuracy",
    "Kindr.C80_modulo_fixed",
    "Kindr.C80_wrapTwoPI_accuracy",
    "Kindr.C80_wrapPosNegPI_accuracy",
    "Kindr.C80_wrapTwoPI_range",
    "Kindr.C80_wrapPosNegPI_range",
    "Kindr.C80_wrapTwoPI_idempotent",
    "Kindr.C80_float_not_half_open"
   ],
   "note": "Bit-level binary rounding (any mode); unbounded exponent range, i.e. no underflow/overflow. Which overload of floor is selected depends on the standard library; both are modelled."
  },
  {
   "property": "C81",
   "status": "proved",
   "theorems": [
    "Kindr.C81_cast_action",
    "Kindr.C81_accepted",
    "Kindr.C81_accepted_rounded",
    "Kindr.C81_widening_exact",
    "Kindr.C81_stored",
    "Kindr.C81_roundtrip",
    "Kindr.C81_convert",
    "Kindr.C81_convert_quat_float",
    "Kindr.C81_same_type",
    "Kindr.C81_pose"
   ],
   "note": "Only the conversions of stored numbers between scalar types round; the arithmetic of the conversion formulas in between is exact. Unbounded exponent range."
  },
  {
   "property": "C82",
   "status": "proved",
   "theorems": [
    "Kindr.C82_accepted",
    "Kindr.C82_accepted_rotate"
   ],
   "note": "Exact arithmetic; the tolerances are stated per class in Spec/Accepted.lean."
  },
  {
   "property": "C83",
   "status": "proved",
   "theorems": [
    "Kindr.C83_accepts",
    "Kindr.C83_kindr_implements",
    "Kindr.C83_kindr_passes",
    "Kindr.C83_matrix_pinned",
    "Kindr.C83_rotateVector_pinned",
    "Kindr.C83_reversed_concatenation",
    "Kindr.C83_transposed_matrix",
    "Kindr.C83_local_boxPlus",
    "Kindr.C83_documented_tests_miss_axes"
   ],
   "note": "Exact arithmetic. The soundness theorem (2) assumes that the library follows some fixed convention (kindr's rotation or its inverse, in fixed orthogonal axes); without that a test on finitely many rotations cannot imply anything about the others."
  },
  {
   "property": "C84",
   "status": "proved",
   "theorems": [
    "Kindr.C84_quaternion",
    "Kindr.C84_matrix",
    "Kindr.C84_safe",
    "Kindr.C84_division_by_zero",
    "Kindr.C84_accepted_nan",
    "Kindr.C84_boxMinus_self"
   ],
   "note": "Exact characterization in exact arithmetic with IEEE special values; the NaN result is proved for every arithmetic."
  },
  {
   "property": "C85",
   "status": "proved",
   "theorems": [
    "Kindr.FloatLib.C85_convert",
    "Kindr.FloatLib.C85_rv_defined",
    "Kindr.FloatLib.C85_convert_exact_input",
    "Kindr.FloatLib.C85_rotate",
    "Kindr.FloatLib.C85_mult",
    "Kindr.FloatLib.C85_mult_matrix",
    "Kindr.FloatLib.C85_inverted",
    "Kindr.FloatLib.C85_exact_table",
    "Kindr.FloatLib.C85_exact_operations",
    "Kindr.FloatLib.C85_double_float",
    "Kindr.FloatLib.C85_inverseRotate",
    "Kindr.FloatLib.C85_angle_size",
    "Kindr.FloatLib.C85_round_trip",
    "Kindr.FloatLib.C85_inverseRotate_double"
   ],
   "note": "Overflow, underflow and NaN are not modelled; the error bounds of the mathematical library are fields of FloatLib (instances for correctly rounded float and double are constructed)."
  },
  {
   "property": "C86",
   "status": "proved",
   "theorems": [
    "Kindr.FloatLib.C86_loop",
    "Kindr.FloatLib.C86_integrates_motion",
    "Kindr.FloatLib.C86_double"
   ],
   "note": "Rounding model as in C85. The increments and sample times are taken as given numbers."
  },
  {
   "property": "C87",
   "status": "proved",
   "theorems": [
    "Kindr.FloatWide.C87_log",
    "Kindr.FloatWide.C87_boxMinus",
    "Kindr.FloatWide.C87_disparity",
    "Kindr.FloatWide.C87_isNear",
    "Kindr.FloatWide.C87_interpolate",
    "Kindr.FloatWide.C87_double",
    "Kindr.FloatWide.C87_interpolate_double",
    "Kindr.FloatWide.C87_exact_operations"
   ],
   "note": "Rounding model as in C85 with a second rounding for the double parts of wrapPosNegPI. A matrix a needs a dummy precision of at least 75 times the quaternion error (met in double, not in float)."
  },
  {
   "property": "C88",
   "status": "proved",
   "theorems": [
    "Kindr.FloatLib.C88_transform",
    "Kindr.FloatLib.C88_inverseTransform",
    "Kindr.FloatLib.C88_chain",
    "Kindr.FloatLib.C88_chain_double",
    "Kindr.FloatLib.C88_round_trip_double",
    "Kindr.FloatLib.C88_exact_operations"
   ],
   "note": "Rounding model as in C85. A chain stored with a matrix is only covered for matrix factors: multiplying a stored matrix by other classes is unstable (C60)."
  },
  {
   "property": "C89",
   "status": "proved",
   "theorems": [
    "Kindr.FloatLib.C89_quat_velocity",
    "Kindr.FloatLib.C89_quat_rates",
    "Kindr.FloatLib.C89_matrix_velocity",
    "Kindr.FloatLib.C89_matrix_rates",
    "Kindr.FloatLib.C89_xyz_velocity",
    "Kindr.FloatLib.C89_zyx_velocity",
    "Kindr.FloatLib.C89_xyz_rates",
    "Kindr.FloatLib.C89_zyx_rates",
    "Kindr.FloatLib.C89_frames",
    "Kindr.FloatLib.C89_gimbal_check_dead",
    "Kindr.FloatLib.C89_jacobian",
    "Kindr.FloatLib.C89_jacobian_float_identity",
    "Kindr.FloatLib.C89_jacobian_float_error",
    "Kindr.FloatLib.C89_exact_operations"
   ],
   "note": "Rounding model as in C85. The float findings on the Jacobian assume that cos/sin resolve to the float overloads; where an unqualified cos resolves to the double function, only the general bound applies."
  },
  {
   "property": "C90",
   "status": "proved",
   "theorems": [
    "Kindr.FloatWide.C90_quaternion",
    "Kindr.FloatWide.C90_matrix",
    "Kindr.FloatWide.C90_angle_axis",
    "Kindr.FloatWide.C90_rotation_vector",
    "Kindr.FloatWide.C90_xyz",
    "Kindr.FloatWide.C90_zyx",
    "Kindr.FloatWide.C90_zyx_band",
    "Kindr.FloatWide.C90_zyx_band_example",
    "Kindr.FloatWide.C90_exact_operations"
   ],
   "note": "Rounding model as in C85/C87. The Zyx band is the finding C18, now shown to persist in rounded arithmetic."
  },
  {
   "property": "C91",
   "status": "proved",
   "theorems": [
    "Kindr.FloatWide.C91_program",
    "Kindr.FloatWide.C91_log",
    "Kindr.FloatWide.C91_boxMinus",
    "Kindr.FloatWide.C91_double",
    "Kindr.FloatWide.C91_exact_operations",
    "Kindr.FloatWide.C91_example"
   ],
   "note": "Rounding model as in C85-C90 (no overflow or underflow). Within/Fits/boundStep/outErrs and the cost analysis Cheap/costErrs are in Spec/FloatProgram.lean; C91_example is a program that uses every class and every kind of command. In the analysis nothing is known of EulerAnglesZyx after setUnique() (C18)."
  },
  {
   "property": "C92",
   "status": "proved",
   "theorems": [
    "Kindr.C92_log_rate",
    "Kindr.C92_boxMinus_rate",
    "Kindr.C92_interpolate_rate",
    "Kindr.C92_perturb_left",
    "Kindr.C92_perturb_right",
    "Kindr.C92_perturb_inverse",
    "Kindr.C92_perturb_rotate",
    "Kindr.C92_invertible",
    "Kindr.C92_identities",
    "Kindr.C92_inverse_approximation",
    "Kindr.C92_doc_inverse_identity_refuted",
    "Kindr.C92_doc_sign_refuted",
    "Kindr.C92_example"
   ],
   "note": "Real arithmetic. Velocities are those of Spec/Deriv.lean (defined through the action on every fixed vector). The rates need the logarithm to be at least 1e-4 long (the branch point of getJacobianOfExponentialMap) and shorter than pi (at a half turn the logarithm jumps). Clear/RvClear/PairClear are the small-angle side conditions of C01-C23."
  },
  {
   "property": "C93",
   "status": "proved",
   "theorems": [
    "Kindr.C93_speed_limit",
    "Kindr.C93_speed_limit_local",
    "Kindr.C93_rotation_vector",
    "Kindr.C93_euler_angles",
    "Kindr.C93_angle_axis",
    "Kindr.C93_matrix",
    "Kindr.C93_quaternion",
    "Kindr.C93_unique_quaternion",
    "Kindr.C93_logarithm",
    "Kindr.C93_logarithm_jump",
    "Kindr.C93_disparity",
    "Kindr.C93_sharp"
   ],
   "note": "Real arithmetic. rotAngle(A B^T) is the angle of the relative rotation; C93_disparity restates the bounds for getDisparityAngle. C93_sharp shows that the hypotheses can be met and that the bounds are attained."
  },
  {
   "property": "C94",
   "status": "proved",
   "theorems": [
    "Kindr.C94_every_rotation",
    "Kindr.C94_inverse",
    "Kindr.C94_small_angles",
    "Kindr.C94_half_turns",
    "Kindr.C94_not_uniform",
    "Kindr.C94_example"
   ],
   "note": "The documentation says only 'a random rotation'; C94_not_uniform is a finding for users who need uniform samples. Lebesgue measure on the cube of draws; ideal generator, real arithmetic. For the classes converted from the rotation vector, draws shorter than 1/32 (they may fall into the small-angle branches) are excluded where the statement says so."
  },
  {
   "property": "C95",
   "status": "proved",
   "theorems": [
    "Kindr.C95_conversions",
    "Kindr.C95_operations",
    "Kindr.C95_precisions",
    "Kindr.C95_setFromVectors",
    "Kindr.C95_fix",
    "Kindr.C95_euler_rates",
    "Kindr.C95_jacobian_poses",
    "Kindr.C95_programs",
    "Kindr.C95_programs_ok",
    "Kindr.C95_example"
   ],
   "note": "Model/SpecialOps.lean is the whole interface over numbers extended with infinities and NaN; XArith.exact is exact arithmetic where x/0 is infinite or NaN and sqrt of a negative number is NaN. The theorems also discharge a modelling assumption: Lean's conventions x/0 = 0 and sqrt x = 0 for x < 0 are never used by the real-number model on admissible inputs. Overflow and rounding are not part of this property (C85-C91, C96)."
  },
  {
   "property": "C96",
   "status": "proved",
   "theorems": [
    "Kindr.C96_binary",
    "Kindr.C96_operations",
    "Kindr.C96_log",
    "Kindr.C96_programs",
    "Kindr.C96_setFromVectors",
    "Kindr.C96_euler_rates",
    "Kindr.C96_jacobian_poses",
    "Kindr.C96_example"
   ],
   "note": "RoundsTo: monotone, keeps stored numbers, 0, 1 and negatives stored; C96_binary shows every p-bit binary rounding mode has it (exponents unbounded: overflow excluded; underflow to zero is allowed except for the second-derivative mappings and the Jacobian, which assume NoUnderflow). Constants such as pi are exact. RotationMatrix::fix is excluded (C95_fix). Eigen's SVD axis is assumed finite."
  },
  {
   "property": "C97",
   "status": "proved",
   "theorems": [
    "Kindr.C97_classes",
    "Kindr.C97_frames",
    "Kindr.C97_reversal",
    "Kindr.C97_subdivision",
    "Kindr.C97_speed",
    "Kindr.C97_half_turn",
    "Kindr.C97_example_reversal",
    "Kindr.C97_example_half_turn"
   ],
   "note": "The side condition InterpClear (as in C23) keeps the conversions through RotationVector out of the small-angle band; for the other six classes interpClear_of_nonrv discharges it from a distance bound."
  },
  {
   "property": "C98",
   "status": "proved",
   "theorems": [
    "Kindr.Matlab.C98_first",
    "Kindr.Matlab.C98_second",
    "Kindr.Matlab.C98_errors",
    "Kindr.Matlab.C98_terminates",
    "Kindr.Matlab.C98_prefix",
    "Kindr.Matlab.C98_q10",
    "Kindr.Matlab.C98_example"
   ],
   "note": "Model/FullDiff.lean transcribes the row table of fulldiff2.m with its string comparisons (strfind = infix, strmatch = prefix). Matlab's symbolic engine is a parameter with the contract Spec.IsToolbox; expressions simplify products and sums with 0."
  },
  {
   "property": "C99",
   "status": "proved",
   "theorems": [
    "Kindr.Matlab.C99_steady",
    "Kindr.Matlab.C99_exp_map",
    "Kindr.Matlab.C99_euler_axes",
    "Kindr.Matlab.C99_euler_wrong",
    "Kindr.Matlab.C99_frame",
    "Kindr.Matlab.C99_label",
    "Kindr.Matlab.C99_rotation_vector",
    "Kindr.Matlab.C99_angle_axis",
    "Kindr.Matlab.C99_transform",
    "Kindr.Matlab.C99_point_velocity",
    "Kindr.Matlab.C99_linear_frames",
    "Kindr.Matlab.C99_linearization",
    "Kindr.Matlab.C99_linearization_time",
    "Kindr.Matlab.C99_examples"
   ],
   "note": "Model/MatlabVis.lean has the numbers handed to the graphics functions; drawing, colours and timing are not modelled. Spec.SteadyRotation defines the motion independently of exponentials (starts at the identity, constant angular velocity); C99_steady shows it exists and is unique. The findings are the exact statements C99_euler_wrong, C99_transform (label within 0.1 of the wrong point) and C99_linearization_time."
  },
  {
   "property": "C100",
   "status": "proved",
   "theorems": [
    "Kindr.C100_rotations",
    "Kindr.C100_lines",
    "Kindr.C100_classes",
    "Kindr.C100_read_back",
    "Kindr.C100_precision",
    "Kindr.C100_six_digits",
    "Kindr.C100_class_lost",
    "Kindr.C100_source_pos",
    "Kindr.C100_example"
   ],
   "note": "The formatting of one number by the stream (precision, flags, locale) is a parameter; Eigen's default matrix format is transcribed (padding to the widest entry, one space between columns, one line per row); stream width 0. Words and lines are defined in Spec/Print.lean independently of the printing code."
  },
  {
   "property": "C101",
   "status": "proved",
   "theorems": [
    "Kindr.Spec.C101_vectors",
    "Kindr.Spec.C101_wrench",
    "Kindr.Spec.C101_quaternion_call",
    "Kindr.Spec.C101_rotations",
    "Kindr.Spec.C101_statement",
    "Kindr.Spec.C101_program",
    "Kindr.Spec.C101_overlap",
    "Kindr.Spec.C101_example"
   ],
   "note": "Memory model: one number per address, temporaries at an address of their own, coefficient loops in an arbitrary order (Model/Memory.lean). A function that returns a value is taken to read its arguments before its result is stored, which C++ guarantees; lazily evaluated Eigen expressions occur in the modelled methods only inside coefficient loops and in the transposition, which are modelled load by load."
  },
  {
   "property": "C102",
   "status": "proved",
   "theorems": [
    "Kindr.Spec.C102_accesses",
    "Kindr.Spec.C102_isolated",
    "Kindr.Spec.C102_threads",
    "Kindr.Spec.C102_race",
    "Kindr.Spec.C102_example"
   ],
   "note": "Calls are lists of single loads and stores with thread-local temporaries (Model/Threads.lean), proved equivalent to the calls of C101. Sequentially consistent memory, which C++ guarantees for programs without data race. setRandom uses the global generator of the C library and is not among the calls."
  },
  {
   "property": "C103",
   "status": "proved",
   "theorems": [
    "Kindr.FloatLib.C103_bits",
    "Kindr.FloatLib.C103_identity",
    "Kindr.FloatLib.C103_neutral",
    "Kindr.FloatLib.C103_rotate",
    "Kindr.FloatLib.C103_inverse",
    "Kindr.FloatLib.C103_vectors",
    "Kindr.FloatLib.C103_pose",
    "Kindr.FloatWide.C103_self",
    "Kindr.FloatWide.C103_boxPlus",
    "Kindr.FloatWide.C103_ieee",
    "Kindr.FloatWide.C103_double",
    "Kindr.FloatWide.C103_float",
    "Kindr.FloatWide.C103_example"
   ],
   "note": "Rounding to p bits with unbounded exponent range (no overflow, underflow, NaN); +0 and -0 identified. C103_ieee shows that round-to-nearest-even double and float meet the assumptions. The self distance of the Euler classes goes through the quaternion and is not claimed bit for bit. The float finding is stated for both overloads of floor."
  },
  {
   "property": "C104",
   "status": "proved",
   "theorems": [
    "Kindr.C104_double_idempotent",
    "Kindr.C104_float_step",
    "Kindr.C104_float_drift",
    "Kindr.C104_float_drift_example",
    "Kindr.FloatWide.C104_axis_norm",
    "Kindr.FloatWide.C104_half_turn_double",
    "Kindr.FloatWide.C104_unique_double",
    "Kindr.FloatWide.C104_unique_double_not_idempotent",
    "Kindr.FloatWide.C104_half_turn_float",
    "Kindr.FloatWide.C104_rotation_vector"
   ],
   "note": "Round to nearest even, unbounded exponent range. C104_rotation_vector is stated along the first axis (the norm of a general vector is rounded); C104_axis_norm shows the norm exact along the axes."
  },
  {
   "property": "C105",
   "status": "proved",
   "theorems": [
    "Kindr.Format.C105_norm_zero",
    "Kindr.Format.C105_overflow",
    "Kindr.Format.C105_accuracy",
    "Kindr.Format.C105_throws",
    "Kindr.Format.C105_huge",
    "Kindr.Format.C105_scale",
    "Kindr.Format.C105_setFromVectors_scale",
    "Kindr.Format.C105_between"
   ],
   "note": "Arithmetic: IEEE 754 round to nearest even with gradual underflow and overflow (Model/Range.lean), sum of squares in Eigen's order x^2+(y^2+z^2); the sign of zero is not modelled and the sign of overflow follows the exact result. Release build (the debug assertion of the quaternion constructor is C96/C70)."
  },
  {
   "property": "C106",
   "status": "proved",
   "theorems": [
    "Kindr.Format.C106_accuracy",
    "Kindr.Format.C106_debug",
    "Kindr.Format.C106_double",
    "Kindr.Format.C106_single",
    "Kindr.Format.C106_float"
   ],
   "note": "Arithmetic of C105 (round to nearest even, subnormals, overflow). Accuracy is stated for the quaternion; the conversion to the other classes is C86/C96. Inside the antiparallel band the axis comes from Eigen's SVD, which is an arbitrary function here."
  },
  {
   "property": "C107",
   "status": "proved",
   "theorems": [
    "Kindr.C107_zyx_values",
    "Kindr.C107_xyz_values",
    "Kindr.C107_gimbal_values",
    "Kindr.C107_ranges",
    "Kindr.C107_identity_jump",
    "Kindr.C107_unique",
    "Kindr.C107_modulus",
    "Kindr.C107_gimbal_jump",
    "Kindr.C107_angle_axis",
    "Kindr.C107_no_continuous_choice",
    "Kindr.C107_conversion_jumps"
   ],
   "note": "Exact real arithmetic; IEEE signed zeros are not modelled, so on the borders +pi may come out as -pi."
  },
  {
   "property": "C108",
   "status": "proved",
   "theorems": [
    "Kindr.Format.C108_product",
    "Kindr.Format.C108_fix",
    "Kindr.Format.C108_loop",
    "Kindr.Format.C108_products",
    "Kindr.Format.C108_rotate",
    "Kindr.Format.C108_rotate_matrix",
    "Kindr.Format.C108_transform",
    "Kindr.Format.C108_rotate_normal",
    "Kindr.Format.C108_loop_rotate",
    "Kindr.Format.C108_overflow",
    "Kindr.Format.C108_underflow",
    "Kindr.Format.C108_double",
    "Kindr.Format.C108_float"
   ],
   "note": "Round to nearest, ties to even; the sign of zero is not modelled. Closes the no-underflow/no-overflow assumption of C56-C58 and C78 for these operations."
  },
  {
   "property": "C109",
   "status": "proved",
   "theorems": [
    "Kindr.Format.C109_reference",
    "Kindr.Format.C109_exp",
    "Kindr.Format.C109_integrate",
    "Kindr.Format.C109_rotate",
    "Kindr.Format.C109_stall",
    "Kindr.Format.C109_double",
    "Kindr.Format.C109_float",
    "Kindr.Format.C109_tiny_increment"
   ],
   "note": "Round to nearest, ties to even; sin, cos and sqrt correctly rounded; the sign of zero is not modelled. Closes the no-underflow assumption of C86 for quaternions."
  },
  {
   "property": "C110",
   "status": "proved",
   "theorems": [
    "Kindr.C110_angle_axis",
    "Kindr.C110_quaternion",
    "Kindr.C110_history",
    "Kindr.C110_release",
    "Kindr.C110_stuck",
    "Kindr.C110_tolerance"
   ],
   "note": "Real arithmetic; checks of intermediate temporaries in conversions are not modelled (the write comes last, so they cannot change the object)."
  },
  {
   "property": "C111",
   "status": "proved",
   "theorems": [
    "Kindr.C111_text",
    "Kindr.C111_values",
    "Kindr.C111_relations",
    "Kindr.C111_evaluations",
    "Kindr.C111_contradiction",
    "Kindr.C111_release",
    "Kindr.C111_if",
    "Kindr.C111_else",
    "Kindr.C111_finite",
    "Kindr.C111_labels"
   ],
   "note": "Operands as state transformers, statements as a small language; KINDR_ASSERT_NEAR and SCALAR_NEAR are not modelled as text."
  },
  {
   "property": "C112",
   "status": "proved",
   "theorems": [
    "Kindr.C112_product_programs",
    "Kindr.C112_product_order",
    "Kindr.C112_quotient_programs",
    "Kindr.C112_spellings",
    "Kindr.C112_int_factor",
    "Kindr.C112_int_fraction",
    "Kindr.C112_int_mean",
    "Kindr.C112_int_projectOn",
    "Kindr.C112_float_factor",
    "Kindr.C112_float_factor_range",
    "Kindr.C112_double_factor",
    "Kindr.C112_float_int_factor"
   ],
   "note": "int has 32 bits; undefined behaviour is the result none; a zero divisor is taken as +0."
  },
  {
   "property": "C113",
   "status": "proved",
   "theorems": [
    "Kindr.Inst.C113_log",
    "Kindr.Inst.C113_boxMinus",
    "Kindr.Inst.C113_disparity",
    "Kindr.Inst.C113_isNear",
    "Kindr.Inst.C113_round_trip",
    "Kindr.Inst.C113_interpolate",
    "Kindr.Inst.C113_double",
    "Kindr.Inst.C113_float",
    "Kindr.Inst.C113_example"
   ],
   "note": "sin, cos, atan2 and sqrt are taken to be correctly rounded; the sign of zero is not modelled; the ratio of interpolate is a number of the scalar type."
  },
  {
   "property": "C114",
   "status": "proved",
   "theorems": [
    "Kindr.Format.C114_inverseTransform",
    "Kindr.Format.C114_round_trip",
    "Kindr.Format.C114_chain",
    "Kindr.Format.C114_chain_transform",
    "Kindr.Format.C114_far",
    "Kindr.Format.C114_double",
    "Kindr.Format.C114_float",
    "Kindr.Format.C114_example"
   ],
   "note": "poses with a quaternion; the sign of zero is not modelled."
  },
  {
   "property": "C115",
   "status": "proved",
   "theorems": [
    "Kindr.Format.C115_sum",
    "Kindr.Format.C115_sum_exact",
    "Kindr.Format.C115_dot",
    "Kindr.Format.C115_mean",
    "Kindr.Format.C115_accumulate",
    "Kindr.Format.C115_order",
    "Kindr.Format.C115_accumulate_exact",
    "Kindr.Format.C115_order_matters",
    "Kindr.Format.C115_move",
    "Kindr.Format.C115_stall",
    "Kindr.Format.C115_nearby",
    "Kindr.Format.C115_cross_antisymmetric",
    "Kindr.Format.C115_cross",
    "Kindr.Format.C115_cross_self",
    "Kindr.Format.C115_wrench",
    "Kindr.Format.C115_double",
    "Kindr.Format.C115_float",
    "Kindr.Format.C115_stall_float",
    "Kindr.Format.C115_mean_of_equal",
    "Kindr.Format.C115_example"
   ],
   "note": "no contraction of product and sum into one rounding (FMA); the sign of zero is not modelled."
  },
  {
   "property": "C116",
   "status": "proved",
   "theorems": [
    "Kindr.C116_quaternion",
    "Kindr.C116_angle_axis",
    "Kindr.C116_half_turn",
    "Kindr.C116_rotation_vector",
    "Kindr.C116_rotation_vector_twice",
    "Kindr.C116_xyz",
    "Kindr.C116_zyx",
    "Kindr.C116_manual_false",
    "Kindr.C116_example"
   ],
   "note": "over the reals; C104 and C90 treat getUnique in floating point."
  },
  {
   "property": "C117",
   "status": "proved",
   "theorems": [
    "Kindr.C117_steps",
    "Kindr.C117_odometry",
    "Kindr.C117_velocity_by_differences",
    "Kindr.C117_linear_velocity",
    "Kindr.C117_minute",
    "Kindr.C117_example"
   ],
   "note": "exact arithmetic with the library's small-angle cut-offs, as in C75 and C76; C114 treats pose chains in IEEE arithmetic."
  },
  {
   "property": "C118",
   "status": "proved",
   "theorems": [
    "Kindr.Format.C118_loop",
    "Kindr.Format.C118_loop_rotate",
    "Kindr.Format.C118_inverse",
    "Kindr.Format.C118_rewrap",
    "Kindr.Format.C118_stored",
    "Kindr.Format.C118_loop_rewrap",
    "Kindr.Format.C118_double",
    "Kindr.Format.C118_accepted_product_throws",
    "Kindr.Format.C118_example"
   ],
   "note": "no contraction to fused multiply-add; the tolerances written as decimal literals in the checks are taken as reals."
  },
  {
   "property": "C119",
   "status": "proved",
   "theorems": [
    "Kindr.C119_similar_iff",
    "Kindr.C119_similar_nan",
    "Kindr.Format.C119_similar_symmetric",
    "Kindr.Format.C119_similar",
    "Kindr.Format.C119_project_tiny",
    "Kindr.Format.C119_project_huge",
    "Kindr.Format.C119_project",
    "Kindr.Format.C119_example"
   ],
   "note": "maxCoeff() combines coefficients with std::max (scalar code without NaN propagation), no contraction to fused multiply-add."
  },
  {
   "property": "C120",
   "status": "proved",
   "theorems": [
    "Kindr.Format.C120_cosine",
    "Kindr.Format.C120_rates",
    "Kindr.Format.C120_no_exception",
    "Kindr.Format.C120_example"
   ],
   "note": "std::sin and std::cos correctly rounded; for float the C++ expression 1.0/t2 is a division in double rounded to float, modelled as one division in float."
  },
  {
   "property": "C121",
   "status": "proved",
   "theorems": [
    "Kindr.Format.C121_second",
    "Kindr.Format.C121_no_exception",
    "Kindr.Format.C121_rates",
    "Kindr.Format.C121_rates_no_exception",
    "Kindr.Format.C121_inverse",
    "Kindr.Format.C121_example"
   ],
   "note": "std::sin and std::cos correctly rounded; for float, divisions written with the double literal 1.0 are modelled as one division in float; matrix-vector products add from left to right."
  },
  {
   "property": "C122",
   "status": "proved",
   "theorems": [
    "Kindr.Format.C122_velocity",
    "Kindr.Format.C122_roundtrip",
    "Kindr.Format.C122_component_lost"
   ],
   "note": "std::sin and std::cos correctly rounded; matrix-vector products add from left to right."
  }
 ]
}