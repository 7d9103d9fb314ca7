{
 "claims": [
  {
   "property": "C01",
   "status": "proved",
   "theorems": [
    "Mathter.Props.C01_unary",
    "Mathter.Props.C01_binary",
    "Mathter.Props.C01_ternary",
    "Mathter.Props.C01_add",
    "Mathter.Props.C01_sub",
    "Mathter.Props.C01_mul",
    "Mathter.Props.C01_neg",
    "Mathter.Props.C01_vec_scalar",
    "Mathter.Props.C01_scalar_vec",
    "Mathter.Props.C01_fma",
    "Mathter.Props.C01_fmta",
    "Mathter.Props.C01_config_independent"
   ],
   "note": "Level S (storage model with padding lanes); every packing/configuration, any uninitialised memory."
  },
  {
   "property": "C02",
   "status": "proved",
   "theorems": [
    "Mathter.Props.C02_div_defined_iff",
    "Mathter.Props.C02_div_value",
    "Mathter.Props.C02_div_scalar",
    "Mathter.Props.C02_scalar_div"
   ],
   "note": "Traps exactly on a zero among the visible divisor elements."
  },
  {
   "property": "C03",
   "status": "proved",
   "theorems": [
    "Mathter.Props.C03_sum",
    "Mathter.Props.C03_dot",
    "Mathter.Props.C03_min",
    "Mathter.Props.C03_max",
    "Mathter.Props.C03_config_independent"
   ],
   "note": ""
  },
  {
   "property": "C04",
   "status": "proved",
   "theorems": [
    "Mathter.Props.C04_eq_vec_swizzle",
    "Mathter.Props.C04_eq_swizzle_swizzle",
    "Mathter.Props.C04_eq_iff",
    "Mathter.Props.C04_eq_elementwise"
   ],
   "note": ""
  },
  {
   "property": "C05",
   "status": "proved",
   "theorems": [
    "Mathter.Props.C05_read",
    "Mathter.Props.C05_index",
    "Mathter.Props.C05_index_assert_violated"
   ],
   "note": "The debug assertion of operator[] tests the wrong bound: C05_index_assert_violated records that; the reading property itself holds."
  },
  {
   "property": "C06",
   "status": "proved",
   "theorems": [
    "Mathter.Props.C06_assign_vec_consistent",
    "Mathter.Props.C06_assign_vec",
    "Mathter.Props.C06_assign_swizzle",
    "Mathter.Props.C06_self_permute",
    "Mathter.Props.C06_assign_scalar"
   ],
   "note": ""
  },
  {
   "property": "C07",
   "status": "partial",
   "theorems": [
    "Mathter.Props.C07_repeated_letters_violated",
    "Mathter.Props.C07_out_of_range_violated",
    "Mathter.Props.C07_partial"
   ],
   "note": "The property is violated by the code: C07_repeated_letters_violated and C07_out_of_range_violated are concrete counterexamples; C07_partial is the part that holds."
  },
  {
   "property": "C08",
   "status": "partial",
   "theorems": [
    "Mathter.Props.C08_same_letters_violated",
    "Mathter.Props.C08_same_letters_copies_all",
    "Mathter.Props.C08_partial"
   ],
   "note": "The property is violated by the code (implicit copy assignment copies the whole array): C08_same_letters_violated; C08_partial is the part that holds."
  },
  {
   "property": "C09",
   "status": "proved",
   "theorems": [
    "Mathter.Props.C09_generator_complete",
    "Mathter.Props.C09_names_unique",
    "Mathter.Props.C09_tables_are_generated"
   ],
   "note": ""
  },
  {
   "property": "C10",
   "status": "proved",
   "theorems": [
    "Mathter.Props.C10_concat"
   ],
   "note": ""
  },
  {
   "property": "C11",
   "status": "proved",
   "theorems": [
    "Mathter.Props.C11_homogenize",
    "Mathter.Props.C11_dehomogenize",
    "Mathter.Props.C11_roundtrip",
    "Mathter.Props.C11_scale_invariant"
   ],
   "note": ""
  },
  {
   "property": "C12",
   "status": "proved",
   "theorems": [
    "Mathter.Props.C12_convert",
    "Mathter.Props.C12_convert_roundtrip",
    "Mathter.Props.C12_fill",
    "Mathter.Props.C12_ptr",
    "Mathter.Props.C12_padding",
    "Mathter.Props.C12_set_get"
   ],
   "note": ""
  },
  {
   "property": "C13",
   "status": "proved",
   "theorems": [
    "Mathter.Props.C13_dot_formula",
    "Mathter.Props.C13_dot_linear",
    "Mathter.Props.C13_dot_conj",
    "Mathter.Props.C13_dot_self",
    "Mathter.Props.C13_length",
    "Mathter.Props.C13_length_scale",
    "Mathter.Props.C13_cauchy_schwarz",
    "Mathter.Props.C13_triangle"
   ],
   "note": ""
  },
  {
   "property": "C14",
   "status": "proved",
   "theorems": [
    "Mathter.Props.C14_length_precise",
    "Mathter.Props.C14_distance_precise",
    "Mathter.Props.C14_no_overflow"
   ],
   "note": ""
  },
  {
   "property": "C15",
   "status": "proved",
   "theorems": [
    "Mathter.Props.C15_normalize",
    "Mathter.Props.C15_normalize_precise",
    "Mathter.Props.C15_normalize_precise_unit",
    "Mathter.Props.C15_normalize_precise_default"
   ],
   "note": ""
  },
  {
   "property": "C16",
   "status": "partial",
   "theorems": [
    "Mathter.Props.C16_unique",
    "Mathter.Props.C16_orthogonal",
    "Mathter.Props.C16_alternating",
    "Mathter.Props.C16_cross_2_to_5",
    "Mathter.Props.C16_too_few",
    "Mathter.Props.C16_exact_partial",
    "Mathter.Props.C16_cross_partial",
    "Mathter.Props.C16_violated"
   ],
   "note": "Proved for dimensions 2-5; violated for dimensions 6 and above (C16_violated, consequence of C29); C16_exact_partial tells exactly for which inputs it holds there."
  },
  {
   "property": "C17",
   "status": "proved",
   "theorems": [
    "Mathter.Props.C17_gram_schmidt",
    "Mathter.Props.C17_dependent_prefix"
   ],
   "note": ""
  },
  {
   "property": "C18",
   "status": "proved",
   "theorems": [
    "Mathter.Props.C18_clamp",
    "Mathter.Props.C18_clamp_idempotent",
    "Mathter.Props.C18_saturate",
    "Mathter.Props.C18_minmax"
   ],
   "note": ""
  },
  {
   "property": "C19",
   "status": "proved",
   "theorems": [
    "Mathter.Props.C19_exact",
    "Mathter.Props.C19_dot_exact",
    "Mathter.Props.C19_error_bound",
    "Mathter.Props.C19_binary"
   ],
   "note": "Real element types; overflow and underflow not represented (exponent unbounded)."
  },
  {
   "property": "C20",
   "status": "proved",
   "theorems": [
    "Mathter.Props.C20_index",
    "Mathter.Props.C20_col_matrix_of_vec",
    "Mathter.Props.C20_set_get",
    "Mathter.Props.C20_element_list",
    "Mathter.Props.C20_row_matrix_of_vec"
   ],
   "note": ""
  },
  {
   "property": "C21",
   "status": "proved",
   "theorems": [
    "Mathter.Props.C21_convert",
    "Mathter.Props.C21_convert_order",
    "Mathter.Props.C21_order_roundtrip",
    "Mathter.Props.C21_eq",
    "Mathter.Props.C21_order_preserves_transform"
   ],
   "note": ""
  },
  {
   "property": "C22",
   "status": "proved",
   "theorems": [
    "Mathter.Props.C22_row_col_get",
    "Mathter.Props.C22_row_set",
    "Mathter.Props.C22_col_set",
    "Mathter.Props.C22_extract",
    "Mathter.Props.C22_insert",
    "Mathter.Props.C22_extract_insert",
    "Mathter.Props.C22_insert_extract"
   ],
   "note": ""
  },
  {
   "property": "C23",
   "status": "proved",
   "theorems": [
    "Mathter.Props.C23_mul",
    "Mathter.Props.C23_assoc",
    "Mathter.Props.C23_storage_independent",
    "Mathter.Props.C23_mul_assign"
   ],
   "note": ""
  },
  {
   "property": "C24",
   "status": "proved",
   "theorems": [
    "Mathter.Props.C24_vec_mul",
    "Mathter.Props.C24_mul_vec",
    "Mathter.Props.C24_vec_mul_mul",
    "Mathter.Props.C24_mul_mul_vec"
   ],
   "note": ""
  },
  {
   "property": "C25",
   "status": "proved",
   "theorems": [
    "Mathter.Props.C25_homogeneous",
    "Mathter.Props.C25_homogeneous_precede",
    "Mathter.Props.C25_affine",
    "Mathter.Props.C25_affine_precede"
   ],
   "note": ""
  },
  {
   "property": "C26",
   "status": "proved",
   "theorems": [
    "Mathter.Props.C26_add",
    "Mathter.Props.C26_sub",
    "Mathter.Props.C26_hadamard",
    "Mathter.Props.C26_div",
    "Mathter.Props.C26_scalar",
    "Mathter.Props.C26_neg",
    "Mathter.Props.C26_div_scalar",
    "Mathter.Props.C26_scalar_div"
   ],
   "note": ""
  },
  {
   "property": "C27",
   "status": "proved",
   "theorems": [
    "Mathter.Props.C27_transpose",
    "Mathter.Props.C27_conj",
    "Mathter.Props.C27_conj_transpose",
    "Mathter.Props.C27_involutive",
    "Mathter.Props.C27_reverse"
   ],
   "note": ""
  },
  {
   "property": "C28",
   "status": "proved",
   "theorems": [
    "Mathter.Props.C28_det2",
    "Mathter.Props.C28_det3",
    "Mathter.Props.C28_det4",
    "Mathter.Props.C28_determinant"
   ],
   "note": ""
  },
  {
   "property": "C29",
   "status": "partial",
   "theorems": [
    "Mathter.Props.C29_bareiss_partial",
    "Mathter.Props.C29_zero_partial",
    "Mathter.Props.C29_exact_partial",
    "Mathter.Props.C29_field_partial",
    "Mathter.Props.C29_int_partial",
    "Mathter.Props.C29_dim1",
    "Mathter.Props.C29_violated"
   ],
   "note": "Violated by the code (pivot search): C29_violated. C29_exact_partial tells exactly when the result is right (leading principal minors nonzero, or determinant zero); otherwise it is zero (C29_zero_partial). Any dimension, fields and integers."
  },
  {
   "property": "C30",
   "status": "proved",
   "theorems": [
    "Mathter.Props.C30_inv2",
    "Mathter.Props.C30_inv3",
    "Mathter.Props.C30_inv4"
   ],
   "note": ""
  },
  {
   "property": "C31",
   "status": "proved",
   "theorems": [
    "Mathter.Props.C31_inverse",
    "Mathter.Props.C31_inverse_follow",
    "Mathter.Props.C31_singular"
   ],
   "note": ""
  },
  {
   "property": "C32",
   "status": "proved",
   "theorems": [
    "Mathter.Props.C32_trace",
    "Mathter.Props.C32_trace_cyclic",
    "Mathter.Props.C32_trace_transpose",
    "Mathter.Props.C32_sum",
    "Mathter.Props.C32_min",
    "Mathter.Props.C32_max",
    "Mathter.Props.C32_norm_squared",
    "Mathter.Props.C32_norm",
    "Mathter.Props.C32_norm_zero",
    "Mathter.Props.C32_norm_precise_real",
    "Mathter.Props.C32_norm_precise_complex",
    "Mathter.Props.C32_norm_precise_range"
   ],
   "note": ""
  },
  {
   "property": "C33",
   "status": "proved",
   "theorems": [
    "Mathter.Props.C33_upper",
    "Mathter.Props.C33_lower",
    "Mathter.Props.C33_upper_follow",
    "Mathter.Props.C33_lower_follow",
    "Mathter.Props.C33_reads_other_triangle"
   ],
   "note": ""
  },
  {
   "property": "C34",
   "status": "proved",
   "theorems": [
    "Mathter.Props.C34_factors",
    "Mathter.Props.C34_pivots",
    "Mathter.Props.C34_unique"
   ],
   "note": ""
  },
  {
   "property": "C35",
   "status": "proved",
   "theorems": [
    "Mathter.Props.C35_factors",
    "Mathter.Props.C35_expanded",
    "Mathter.Props.C35_expand_perm",
    "Mathter.Props.C35_singular"
   ],
   "note": ""
  },
  {
   "property": "C36",
   "status": "proved",
   "theorems": [
    "Mathter.Props.C36_lu",
    "Mathter.Props.C36_lu_follow",
    "Mathter.Props.C36_lup",
    "Mathter.Props.C36_lup_follow",
    "Mathter.Props.C36_lup_vector",
    "Mathter.Props.C36_lup_vector_follow",
    "Mathter.Props.C36_lup_singular",
    "Mathter.Props.C36_permute",
    "Mathter.Props.C36_permute_follow"
   ],
   "note": ""
  },
  {
   "property": "C37",
   "status": "proved",
   "theorems": [
    "Mathter.Props.C37_qr",
    "Mathter.Props.C37_square"
   ],
   "note": ""
  },
  {
   "property": "C38",
   "status": "proved",
   "theorems": [
    "Mathter.Props.C38_lq"
   ],
   "note": ""
  },
  {
   "property": "C39",
   "status": "proved",
   "theorems": [
    "Mathter.Props.C39_least_squares",
    "Mathter.Props.C39_exact",
    "Mathter.Props.C39_vector",
    "Mathter.Props.C39_pseudoinverse",
    "Mathter.Props.C39_square_inverse",
    "Mathter.Props.C39_lq_vector",
    "Mathter.Props.C39_lq_matrix",
    "Mathter.Props.C39_lq_pseudoinverse",
    "Mathter.Props.C39_rank_deficient"
   ],
   "note": ""
  },
  {
   "property": "C40",
   "status": "partial",
   "theorems": [
    "Mathter.Props.C40_two_sided",
    "Mathter.Props.C40_residue_partial",
    "Mathter.Props.C40_complex_violated",
    "Mathter.Props.C40_wide",
    "Mathter.Props.C40_two_rows",
    "Mathter.Props.C40_early_exit_violated",
    "Mathter.Props.C40_one_sided",
    "Mathter.Props.C40_one_sided_reconstruct",
    "Mathter.Props.C40_one_sided_orthonormal",
    "Mathter.Props.C40_one_sided_real_partial",
    "Mathter.Props.C40_one_sided_complex_violated",
    "Mathter.Props.C40_two_columns"
   ],
   "note": "The invariant U*X*V = A with unitary factors is proved for any number of sweeps, both algorithms. What the product reproduces is proved when the last sweep rotated nothing (C40_residue_partial, C40_one_sided_reconstruct) and without conditions for two rows or columns. In general it is violated: the loop can end early (C40_early_exit_violated, real 3x3), and imaginary parts are dropped (C40_complex_violated, C40_one_sided_complex_violated)."
  },
  {
   "property": "C41",
   "status": "proved",
   "theorems": [
    "Mathter.Props.C41_minimize",
    "Mathter.Props.C41_hermitian",
    "Mathter.Props.C41_triangular",
    "Mathter.Props.C41_rq",
    "Mathter.Props.C41_scaled_orthogonal",
    "Mathter.Props.C41_svd"
   ],
   "note": ""
  },
  {
   "property": "C42",
   "status": "partial",
   "theorems": [
    "Mathter.Props.C42_two_sided_partial",
    "Mathter.Props.C42_two_sided_nonneg",
    "Mathter.Props.C42_diagonal",
    "Mathter.Props.C42_violated",
    "Mathter.Props.C42_zero_violated",
    "Mathter.Props.C42_defined",
    "Mathter.Props.C42_one_sided_sorted",
    "Mathter.Props.C42_one_sided_negative",
    "Mathter.Props.C42_one_sided_violated",
    "Mathter.Props.C42_one_sided_zero_violated",
    "Mathter.Props.C42_sort_exists"
   ],
   "note": "Violated: negative values for diag(-1,1) (C42_violated), nothing for the zero matrix (C42_zero_violated); the partial theorems say exactly when values are nonnegative."
  },
  {
   "property": "C43",
   "status": "partial",
   "theorems": [
    "Mathter.Props.C43_pseudoinverse",
    "Mathter.Props.C43_inverse",
    "Mathter.Props.C43_solve_precede_partial",
    "Mathter.Props.C43_solve_follow_partial",
    "Mathter.Props.C43_solve_precede_violated",
    "Mathter.Props.C43_solve_follow_violated",
    "Mathter.Props.C43_deficient_violated",
    "Mathter.Props.C43_one_sided"
   ],
   "note": "Violated: Solve loops over the wrong bound (C43_solve_precede_violated, C43_solve_follow_violated) and Inverse divides by zero for deficient matrices (C43_deficient_violated); proved where the bound is right and the singular values are nonzero."
  },
  {
   "property": "C44",
   "status": "partial",
   "theorems": [
    "Mathter.Props.C44_hamilton",
    "Mathter.Props.C44_components",
    "Mathter.Props.C44_assoc",
    "Mathter.Props.C44_distrib",
    "Mathter.Props.C44_one",
    "Mathter.Props.C44_units",
    "Mathter.Props.C44_componentwise_partial",
    "Mathter.Props.C44_div",
    "Mathter.Props.C44_canonical_write",
    "Mathter.Props.C44_layout",
    "Mathter.Props.C44_eq",
    "Mathter.Props.C44_mixed_scalar_violated"
   ],
   "note": "The algebra is proved for every layout; the property is violated when a quaternion is combined with a wider scalar type (C44_mixed_scalar_violated)."
  },
  {
   "property": "C45",
   "status": "proved",
   "theorems": [
    "Mathter.Props.C45_conj",
    "Mathter.Props.C45_conj_components",
    "Mathter.Props.C45_mul_conj",
    "Mathter.Props.C45_length",
    "Mathter.Props.C45_inverse",
    "Mathter.Props.C45_inverse_zero",
    "Mathter.Props.C45_normalize"
   ],
   "note": ""
  },
  {
   "property": "C46",
   "status": "proved",
   "theorems": [
    "Mathter.Props.C46_sandwich",
    "Mathter.Props.C46_rotation",
    "Mathter.Props.C46_isometry",
    "Mathter.Props.C46_compose",
    "Mathter.Props.C46_scale",
    "Mathter.Props.C46_zero"
   ],
   "note": ""
  },
  {
   "property": "C47",
   "status": "proved",
   "theorems": [
    "Mathter.Props.C47_rotates",
    "Mathter.Props.C47_orthogonal",
    "Mathter.Props.C47_rest",
    "Mathter.Props.C47_compose"
   ],
   "note": ""
  },
  {
   "property": "C48",
   "status": "partial",
   "theorems": [
    "Mathter.Props.C48_roundtrip_partial",
    "Mathter.Props.C48_half_turn_violated",
    "Mathter.Props.C48_half_turn_exists"
   ],
   "note": "The round trip is proved for all rotations except half turns; violated for those (C48_half_turn_violated)."
  },
  {
   "property": "C49",
   "status": "proved",
   "theorems": [
    "Mathter.Props.C49_exp",
    "Mathter.Props.C49_exp_length",
    "Mathter.Props.C49_exp_log",
    "Mathter.Props.C49_log_zero",
    "Mathter.Props.C49_log_exp",
    "Mathter.Props.C49_pow"
   ],
   "note": ""
  },
  {
   "property": "C50",
   "status": "proved",
   "theorems": [
    "Mathter.Props.C50_axis_angle",
    "Mathter.Props.C50_reconstruct",
    "Mathter.Props.C50_other_angles"
   ],
   "note": ""
  },
  {
   "property": "C51",
   "status": "proved",
   "theorems": [
    "Mathter.Props.C51_rotation2D",
    "Mathter.Props.C51_rotation2D_proper",
    "Mathter.Props.C51_rotation2D_add",
    "Mathter.Props.C51_axis_angle",
    "Mathter.Props.C51_axis_angle_rejects",
    "Mathter.Props.C51_single_axis",
    "Mathter.Props.C51_single_axis_rejects",
    "Mathter.Props.C51_proper",
    "Mathter.Props.C51_named_axes",
    "Mathter.Props.C51_add"
   ],
   "note": ""
  },
  {
   "property": "C52",
   "status": "proved",
   "theorems": [
    "Mathter.Props.C52_axis_angle",
    "Mathter.Props.C52_single_axis",
    "Mathter.Props.C52_tri_axis"
   ],
   "note": ""
  },
  {
   "property": "C53",
   "status": "proved",
   "theorems": [
    "Mathter.Props.C53_matrix",
    "Mathter.Props.C53_quat",
    "Mathter.Props.C53_named"
   ],
   "note": ""
  },
  {
   "property": "C54",
   "status": "proved",
   "theorems": [
    "Mathter.Props.C54_identity",
    "Mathter.Props.C54_identity_quat",
    "Mathter.Props.C54_zero",
    "Mathter.Props.C54_scale",
    "Mathter.Props.C54_translation"
   ],
   "note": ""
  },
  {
   "property": "C55",
   "status": "proved",
   "theorems": [
    "Mathter.Props.C55_aligned",
    "Mathter.Props.C55_aligned_rejects",
    "Mathter.Props.C55_general",
    "Mathter.Props.C55_inverse"
   ],
   "note": ""
  },
  {
   "property": "C56",
   "status": "proved",
   "theorems": [
    "Mathter.Props.C56_rejects",
    "Mathter.Props.C56_map",
    "Mathter.Props.C56_corners",
    "Mathter.Props.C56_inside"
   ],
   "note": ""
  },
  {
   "property": "C57",
   "status": "partial",
   "theorems": [
    "Mathter.Props.C57_rejects",
    "Mathter.Props.C57_projection_partial",
    "Mathter.Props.C57_planes_partial",
    "Mathter.Props.C57_line_of_sight_partial",
    "Mathter.Props.C57_inversion_partial",
    "Mathter.Props.C57_inversion_violated",
    "Mathter.Props.C57_2D_violated",
    "Mathter.Props.C57_3D_violated",
    "Mathter.Props.C57_3D_partial"
   ],
   "note": "The projection itself, planes, line of sight and depth ordering hold for all inputs; the documented axis inversion is violated when the first ratio is negative (C57_inversion_violated, C57_2D_violated, C57_3D_violated)."
  },
  {
   "property": "C58",
   "status": "partial",
   "theorems": [
    "Mathter.Props.C58_look_at",
    "Mathter.Props.C58_look_at_partial",
    "Mathter.Props.C58_degenerate",
    "Mathter.Props.C58_points",
    "Mathter.Props.C58_2D",
    "Mathter.Props.C58_3D"
   ],
   "note": "Proved for dimensions 2-5 (C58_look_at, C58_2D, C58_3D); from dimension 6 on conditional on the cross product being right (C58_look_at_partial), which it is not always (C16_violated)."
  },
  {
   "property": "C59",
   "status": "proved",
   "theorems": [
    "Mathter.Props.C59_bernstein",
    "Mathter.Props.C59_endpoints",
    "Mathter.Props.C59_affine",
    "Mathter.Props.C59_convex_hull"
   ],
   "note": ""
  },
  {
   "property": "C60",
   "status": "proved",
   "theorems": [
    "Mathter.Props.C60_through",
    "Mathter.Props.C60_point_at",
    "Mathter.Props.C60_interpol_ends",
    "Mathter.Props.C60_interpol_of",
    "Mathter.Props.C60_segment",
    "Mathter.Props.C60_segment_of_direction",
    "Mathter.Props.C60_plane_base",
    "Mathter.Props.C60_plane_distance",
    "Mathter.Props.C60_line_to_plane",
    "Mathter.Props.C60_plane_to_line",
    "Mathter.Props.C60_base_needs_unit"
   ],
   "note": ""
  },
  {
   "property": "C61",
   "status": "proved",
   "theorems": [
    "Mathter.Props.C61_area",
    "Mathter.Props.C61_order",
    "Mathter.Props.C61_rigid",
    "Mathter.Props.C61_zero",
    "Mathter.Props.C61_centroid"
   ],
   "note": ""
  },
  {
   "property": "C62",
   "status": "partial",
   "theorems": [
    "Mathter.Props.C62_line",
    "Mathter.Props.C62_line_parallel",
    "Mathter.Props.C62_line_any_normal",
    "Mathter.Props.C62_ray",
    "Mathter.Props.C62_segment_partial",
    "Mathter.Props.C62_segment_end_violated",
    "Mathter.Props.C62_segment_end_exists"
   ],
   "note": "Lines and rays complete. Segments: violated at the end point with parameter 1 (C62_segment_end_violated); the rest is C62_segment_partial."
  },
  {
   "property": "C63",
   "status": "partial",
   "theorems": [
    "Mathter.Props.C63_lines",
    "Mathter.Props.C63_max_element",
    "Mathter.Props.C63_is_within",
    "Mathter.Props.C63_segments",
    "Mathter.Props.C63_line_segment_partial",
    "Mathter.Props.C63_line_segment_end_violated"
   ],
   "note": "Lines and segments complete. Line against segment: violated at the end point (C63_line_segment_end_violated)."
  },
  {
   "property": "C64",
   "status": "proved",
   "theorems": [
    "Mathter.Props.C64_ray_triangle",
    "Mathter.Props.C64_unique",
    "Mathter.Props.C64_small_triangle"
   ],
   "note": "Up to the epsilon band of the statement, which is absolute: C64_small_triangle shows that every small enough triangle is missed."
  },
  {
   "property": "C65",
   "status": "proved",
   "theorems": [
    "Mathter.Props.C65_round_trip",
    "Mathter.Props.C65_nested",
    "Mathter.Props.C65_scalars",
    "Mathter.Props.C65_wrong_count",
    "Mathter.Props.C65_missing_open",
    "Mathter.Props.C65_missing_close",
    "Mathter.Props.C65_integers",
    "Mathter.Props.C65_malformed_accepted"
   ],
   "note": "C65_malformed_accepted records texts outside the statement that are accepted."
  },
  {
   "property": "C66",
   "status": "proved",
   "theorems": [
    "Mathter.Props.C66_round_trip",
    "Mathter.Props.C66_integers",
    "Mathter.Props.C66_rejects"
   ],
   "note": ""
  },
  {
   "property": "C67",
   "status": "partial",
   "theorems": [
    "Mathter.Props.C67_partial",
    "Mathter.Props.C67_blank_rejected",
    "Mathter.Props.C67_violated"
   ],
   "note": "Violated: an element with zero imaginary part prints a text that reads as another value or fails (C67_violated); C67_partial is the rest."
  },
  {
   "property": "C68",
   "status": "proved",
   "theorems": [
    "Mathter.Props.C68_text",
    "Mathter.Props.C68_round_trip",
    "Mathter.Props.C68_leading_space_rejected",
    "Mathter.Props.C68_no_space_rejected",
    "Mathter.Props.C68_missing_angle_rejected"
   ],
   "note": "C68_*_rejected record that only the exact printed spacing is read."
  },
  {
   "property": "C69",
   "status": "partial",
   "theorems": [
    "Mathter.Props.C69_ascending",
    "Mathter.Props.C69_descending_partial",
    "Mathter.Props.C69_descending_violated",
    "Mathter.Props.C69_unique"
   ],
   "note": "Ascending loops complete. Descending loops are violated (C69_descending_violated), C69_descending_partial is what they do."
  },
  {
   "property": "C70",
   "status": "proved",
   "theorems": [
    "Mathter.Props.C70_degrees",
    "Mathter.Props.C70_clamp",
    "Mathter.Props.C70_saturate",
    "Mathter.Props.C70_clamp_reversed",
    "Mathter.Props.C70_normalize"
   ],
   "note": ""
  },
  {
   "property": "C71",
   "status": "partial",
   "theorems": [
    "Mathter.Props.C71_mixed_packing_violated",
    "Mathter.Props.C71_partial"
   ],
   "note": "The property is violated by the code (copy past the end of the packed array): C71_mixed_packing_violated; C71_partial is the part that holds."
  },
  {
   "property": "C72",
   "status": "proved",
   "theorems": [
    "Mathter.Props.C72_vec_swizzle",
    "Mathter.Props.C72_swizzle_vec",
    "Mathter.Props.C72_swizzle_swizzle",
    "Mathter.Props.C72_swizzle_scalar",
    "Mathter.Props.C72_scalar_swizzle",
    "Mathter.Props.C72_neg",
    "Mathter.Props.C72_vec_div_swizzle",
    "Mathter.Props.C72_swizzle_div_vec",
    "Mathter.Props.C72_swizzle_div_swizzle",
    "Mathter.Props.C72_swizzle_div_scalar",
    "Mathter.Props.C72_scalar_div_swizzle"
   ],
   "note": ""
  },
  {
   "property": "C73",
   "status": "proved",
   "theorems": [
    "Mathter.Props.C73_vector",
    "Mathter.Props.C73_scalar",
    "Mathter.Props.C73_swizzle_vec",
    "Mathter.Props.C73_swizzle_swizzle",
    "Mathter.Props.C73_swizzle_scalar"
   ],
   "note": ""
  },
  {
   "property": "C74",
   "status": "proved",
   "theorems": [
    "Mathter.Props.C74_fmta",
    "Mathter.Props.C74_zero_iff"
   ],
   "note": ""
  },
  {
   "property": "C75",
   "status": "proved",
   "theorems": [
    "Mathter.Props.C75_cross3",
    "Mathter.Props.C75_zero_iff"
   ],
   "note": ""
  },
  {
   "property": "C76",
   "status": "proved",
   "theorems": [
    "Mathter.Props.C76_sum",
    "Mathter.Props.C76_dot",
    "Mathter.Props.C76_lengthSquared",
    "Mathter.Props.C76_length",
    "Mathter.Props.C76_distance"
   ],
   "note": ""
  },
  {
   "property": "C77",
   "status": "proved",
   "theorems": [
    "Mathter.Props.C77_lengthPrecise"
   ],
   "note": ""
  },
  {
   "property": "C78",
   "status": "proved",
   "theorems": [
    "Mathter.Props.C78_normalizePrecise",
    "Mathter.Props.C78_degenerate"
   ],
   "note": ""
  },
  {
   "property": "C79",
   "status": "proved",
   "theorems": [
    "Mathter.Props.C79_vector",
    "Mathter.Props.C79_matrix",
    "Mathter.Props.C79_quaternion"
   ],
   "note": ""
  },
  {
   "property": "C80",
   "status": "proved",
   "theorems": [
    "Mathter.Props.C80_vector",
    "Mathter.Props.C80_matrix",
    "Mathter.Props.C80_invalid",
    "Mathter.Props.C80_mode"
   ],
   "note": ""
  },
  {
   "property": "C81",
   "status": "proved",
   "theorems": [
    "Mathter.Props.C81_concat",
    "Mathter.Props.C81_assoc",
    "Mathter.Props.C81_literals",
    "Mathter.Props.C81_literal_sum"
   ],
   "note": ""
  },
  {
   "property": "C82",
   "status": "proved",
   "theorems": [
    "Mathter.Props.C82_mul",
    "Mathter.Props.C82_vec_mul",
    "Mathter.Props.C82_mul_vec"
   ],
   "note": ""
  },
  {
   "property": "C83",
   "status": "proved",
   "theorems": [
    "Mathter.Props.C83_roundoff",
    "Mathter.Props.C83_upper",
    "Mathter.Props.C83_lower",
    "Mathter.Props.C83_upper_follow",
    "Mathter.Props.C83_lower_follow"
   ],
   "note": ""
  },
  {
   "property": "C84",
   "status": "proved",
   "theorems": [
    "Mathter.Props.C84_lu",
    "Mathter.Props.C84_lup",
    "Mathter.Props.C84_lu_solve",
    "Mathter.Props.C84_lup_solve",
    "Mathter.Props.C84_lup_solve_follow",
    "Mathter.Props.C84_inverse"
   ],
   "note": ""
  },
  {
   "property": "C85",
   "status": "proved",
   "theorems": [
    "Mathter.Props.C85_two_sided_rotation",
    "Mathter.Props.C85_two_sided_sweep",
    "Mathter.Props.C85_two_sided_errors",
    "Mathter.Props.C85_two_sided_ends",
    "Mathter.Props.C85_one_sided_rotation",
    "Mathter.Props.C85_one_sided_sweep",
    "Mathter.Props.C85_one_sided_errors",
    "Mathter.Props.C85_ends_finite"
   ],
   "note": ""
  },
  {
   "property": "C86",
   "status": "proved",
   "theorems": [
    "Mathter.Props.C86_preserve",
    "Mathter.Props.C86_preserve_products",
    "Mathter.Props.C86_keep",
    "Mathter.Props.C86_keep_storage"
   ],
   "note": ""
  },
  {
   "property": "C87",
   "status": "proved",
   "theorems": [
    "Mathter.Props.C87_vector",
    "Mathter.Props.C87_vector_real",
    "Mathter.Props.C87_sqrt",
    "Mathter.Props.C87_fill",
    "Mathter.Props.C87_matrix"
   ],
   "note": ""
  },
  {
   "property": "C88",
   "status": "proved",
   "theorems": [
    "Mathter.Props.C88_elementwise",
    "Mathter.Props.C88_self",
    "Mathter.Props.C88_div",
    "Mathter.Props.C88_vec_mul",
    "Mathter.Props.C88_vec_mul_homogeneous",
    "Mathter.Props.C88_vec_mul_affine",
    "Mathter.Props.C88_unary"
   ],
   "note": ""
  },
  {
   "property": "C89",
   "status": "proved",
   "theorems": [
    "Mathter.Props.C89_ne",
    "Mathter.Props.C89_symmetric",
    "Mathter.Props.C89_matrix_ne",
    "Mathter.Props.C89_letter",
    "Mathter.Props.C89_letter_defined"
   ],
   "note": ""
  },
  {
   "property": "C90",
   "status": "partial",
   "theorems": [
    "Mathter.Props.C90_abs_int_partial",
    "Mathter.Props.C90_abs_int_violated"
   ],
   "note": "Holds unless an element is the smallest value of its type (C90_abs_int_partial); there SIMD returns a negative number and scalar code is undefined (C90_abs_int_violated)."
  },
  {
   "property": "C91",
   "status": "partial",
   "theorems": [
    "Mathter.Props.C91_real_partial",
    "Mathter.Props.C91_perm_partial",
    "Mathter.Props.C91_complex_partial",
    "Mathter.Props.C91_order_violated",
    "Mathter.Props.C91_void_violated",
    "Mathter.Props.C91_error_violated"
   ],
   "note": "Holds for real types and for T mixed with complex<T>; violated for mixtures of several floating point types with complex ones (C91_order_violated, C91_void_violated, C91_error_violated)."
  },
  {
   "property": "C92",
   "status": "proved",
   "theorems": [
    "Mathter.Props.C92_sum",
    "Mathter.Props.C92_dot",
    "Mathter.Props.C92_length",
    "Mathter.Props.C92_distance",
    "Mathter.Props.C92_lengthPrecise",
    "Mathter.Props.C92_normalize",
    "Mathter.Props.C92_sumCompensated"
   ],
   "note": ""
  },
  {
   "property": "C93",
   "status": "proved",
   "theorems": [
    "Mathter.Props.C93_length",
    "Mathter.Props.C93_normalize",
    "Mathter.Props.C93_lengthPrecise"
   ],
   "note": ""
  },
  {
   "property": "C94",
   "status": "partial",
   "theorems": [
    "Mathter.Props.C94_null",
    "Mathter.Props.C94_finite_partial",
    "Mathter.Props.C94_violated"
   ],
   "note": "Violated: every vector with a NaN or infinite element gives the fallback (C94_violated). C94_null and C94_finite_partial cover all finite vectors."
  },
  {
   "property": "C95",
   "status": "partial",
   "theorems": [
    "Mathter.Props.C95_max_partial",
    "Mathter.Props.C95_min_partial",
    "Mathter.Props.C95_elementwise_partial",
    "Mathter.Props.C95_clamp_partial",
    "Mathter.Props.C95_scalar_clamp",
    "Mathter.Props.C95_saturate",
    "Mathter.Props.C95_order_violated",
    "Mathter.Props.C95_clamp_violated"
   ],
   "note": "Holds without NaN, infinite elements included; violated with NaN (C95_order_violated, C95_clamp_violated)."
  },
  {
   "property": "C96",
   "status": "proved",
   "theorems": [
    "Mathter.Props.C96_eq"
   ],
   "note": ""
  },
  {
   "property": "C97",
   "status": "partial",
   "theorems": [
    "Mathter.Props.C97_partial",
    "Mathter.Props.C97_finite",
    "Mathter.Props.C97_violated"
   ],
   "note": "Violated: an infinite element gives NaN although the sum is infinite (C97_violated). C97_partial covers NaN elements and infinities of both signs."
  },
  {
   "property": "C98",
   "status": "proved",
   "theorems": [
    "Mathter.Props.C98_addAssign",
    "Mathter.Props.C98_subAssign",
    "Mathter.Props.C98_mulAssign",
    "Mathter.Props.C98_scalarAssign",
    "Mathter.Props.C98_divAssign",
    "Mathter.Props.C98_ne",
    "Mathter.Props.C98_parts",
    "Mathter.Props.C98_vector4",
    "Mathter.Props.C98_literals",
    "Mathter.Props.C98_units"
   ],
   "note": ""
  },
  {
   "property": "C99",
   "status": "proved",
   "theorems": [
    "Mathter.Props.C99_mul_elements",
    "Mathter.Props.C99_mul",
    "Mathter.Props.C99_inverse",
    "Mathter.Props.C99_rotate",
    "Mathter.Props.C99_bound_float"
   ],
   "note": ""
  },
  {
   "property": "C100",
   "status": "proved",
   "theorems": [
    "Mathter.Props.C100_backward",
    "Mathter.Props.C100_size",
    "Mathter.Props.C100_product",
    "Mathter.Props.C100_lq"
   ],
   "note": "standard rounding model without overflow and underflow; lengths, quotients, products and differences rounded one by one; the Householder vector, the updates and the scaling are those of the code"
  },
  {
   "property": "C101",
   "status": "proved",
   "theorems": [
    "Mathter.Props.C101_solve",
    "Mathter.Props.C101_regular"
   ],
   "note": "as C100; the product with the transposed Q is that of the storage level model (C82), the back substitution that of C83; vectors as one-column matrices"
  },
  {
   "property": "C102",
   "status": "proved",
   "theorems": [
    "Mathter.Props.C102_det2",
    "Mathter.Props.C102_det3",
    "Mathter.Props.C102_det4"
   ],
   "note": "standard rounding model without overflow and underflow; every product, sum and product difference of the closed forms rounded, the reductions in any order"
  },
  {
   "property": "C103",
   "status": "proved",
   "theorems": [
    "Mathter.Props.C103_inv2",
    "Mathter.Props.C103_inv3",
    "Mathter.Props.C103_inv4"
   ],
   "note": "as C102; the stripes of the inverse as the code computes them, for both layouts; the exact inverse is Mathlib's"
  },
  {
   "property": "C104",
   "status": "proved",
   "theorems": [
    "Mathter.Props.C104_annihilate",
    "Mathter.Props.C104_columns",
    "Mathter.Props.C104_assertion",
    "Mathter.Props.C104_rotation",
    "Mathter.Props.C104_reconstruct",
    "Mathter.Props.C104_orthogonal",
    "Mathter.Props.C104_size"
   ],
   "note": "real element types; standard rounding model without overflow and underflow; std::hypot, the Gram matrix sums and DecomposeQR are parameters; the case with small singular values (columns completed by QR) only for V"
  },
  {
   "property": "C105",
   "status": "partial",
   "theorems": [
    "Mathter.Props.C105_shapes_partial",
    "Mathter.Props.C105_unambiguous",
    "Mathter.Props.C105_shear_three",
    "Mathter.Props.C105_shear_violated",
    "Mathter.Props.C105_shear_2x2_violated",
    "Mathter.Props.C105_shear_leading",
    "Mathter.Props.C105_shear_large_violated"
   ],
   "note": "violated by the general shear in every dimension other than three: its conversions are fixed to 3x3, 3x4, 4x3 and 4x4 (no 2x2; assertions fail from four dimensions on)"
  },
  {
   "property": "C106",
   "status": "proved",
   "theorems": [
    "Mathter.Props.C106_annihilate",
    "Mathter.Props.C106_rotate",
    "Mathter.Props.C106_two_rows",
    "Mathter.Props.C106_kernel",
    "Mathter.Props.C106_reconstruct",
    "Mathter.Props.C106_converged",
    "Mathter.Props.C106_orthogonal",
    "Mathter.Props.C106_terminates",
    "Mathter.Props.C106_size"
   ],
   "note": "real element types; standard rounding model without overflow and underflow; std::hypot is a parameter; how fast the off-diagonal elements shrink in floating point is bounded for one rotation and for matrices with two rows only (C106_reconstruct takes what is left of them as given)"
  },
  {
   "property": "C107",
   "status": "partial",
   "theorems": [
    "Mathter.Props.C107_exact_partial",
    "Mathter.Props.C107_elementwise",
    "Mathter.Props.C107_unsigned",
    "Mathter.Props.C107_narrow",
    "Mathter.Props.C107_negate",
    "Mathter.Props.C107_divide_partial",
    "Mathter.Props.C107_overflow_violated",
    "Mathter.Props.C107_u16_violated",
    "Mathter.Props.C107_padding_violated"
   ],
   "note": "Holds whenever no result overflows (C107_exact_partial), for unsigned and for small types without conditions, for division if no padding lane holds the smallest value. Violated: signed overflow wraps with SIMD and is undefined without (C107_overflow_violated), products of uint16_t overflow int (C107_u16_violated), v / -1 traps because of a padding lane (C107_padding_violated)."
  },
  {
   "property": "C108",
   "status": "partial",
   "theorems": [
    "Mathter.Props.C108_exact_partial",
    "Mathter.Props.C108_modular",
    "Mathter.Props.C108_simd",
    "Mathter.Props.C108_order_violated",
    "Mathter.Props.C108_dot_partial",
    "Mathter.Props.C108_dot_bytes",
    "Mathter.Props.C108_distance"
   ],
   "note": "Holds if the absolute values of the summands add up to a representable number, always with SIMD, and modulo 2^bits for unsigned and small types. Violated for int and wider without SIMD, where a partial sum may overflow although the sum is representable (C108_order_violated)."
  },
  {
   "property": "C109",
   "status": "proved",
   "theorems": [
    "Mathter.Props.C109_two",
    "Mathter.Props.C109_one"
   ],
   "note": "Loops over values with NaN and infinities; arbitrary kernel, hypot, scaler and tolerance; N.card + 3 iterations suffice for a format with N.card finite numbers."
  },
  {
   "property": "C110",
   "status": "partial",
   "theorems": [
    "Mathter.Props.C110_one",
    "Mathter.Props.C110_assert",
    "Mathter.Props.C110_two_partial",
    "Mathter.Props.C110_two_violated"
   ],
   "note": "Proved for the one-sided algorithm. The two-sided algorithm violates it: a NaN above the diagonal is not noticed (C110_two_violated: ones for [[1, NaN], [0, 1]]); C110_two_partial has the cases in which NaN is reported."
  },
  {
   "property": "C111",
   "status": "partial",
   "theorems": [
    "Mathter.Props.C111_to_matrix",
    "Mathter.Props.C111_rest",
    "Mathter.Props.C111_from_matrix_partial",
    "Mathter.Props.C111_round_trip_partial",
    "Mathter.Props.C111_violated"
   ],
   "note": "Rounding model. The conversion from a matrix is proved for (u + eps)/s^2 <= 1/1000; nearer to half turns it fails: C111_violated gives, for every precision, a rotation other than a half turn whose correctly rounded matrix makes the code divide by zero."
  },
  {
   "property": "C112",
   "status": "proved",
   "theorems": [
    "Mathter.Props.C112_sum",
    "Mathter.Props.C112_dot",
    "Mathter.Props.C112_lengthSquared",
    "Mathter.Props.C112_length",
    "Mathter.Props.C112_distance",
    "Mathter.Props.C112_lengthPrecise",
    "Mathter.Props.C112_distancePrecise"
   ],
   "note": "Rounding model of complex vectors over arbitrary reduction trees; the parts of a sum are sums of the parts."
  },
  {
   "property": "C113",
   "status": "partial",
   "theorems": [
    "Mathter.Props.C113_exact",
    "Mathter.Props.C113_dot_exact",
    "Mathter.Props.C113_real_partial",
    "Mathter.Props.C113_bound",
    "Mathter.Props.C113_violated"
   ],
   "note": "Violated (C113_violated, every precision): comparing moduli loses the compensation of one part. Proved: exact in exact arithmetic, as good as for reals for real elements (C113_real_partial), never worse than of the order of a plain sum (C113_bound)."
  },
  {
   "property": "C114",
   "status": "proved",
   "theorems": [
    "Mathter.Props.C114_bezier",
    "Mathter.Props.C114_bezier_ends",
    "Mathter.Props.C114_interpol",
    "Mathter.Props.C114_interpol_ends"
   ],
   "note": "Rounding model of the in-place loops of PointAt, related pass by pass to the exact evaluation, whose Bernstein form is C59."
  },
  {
   "property": "C115",
   "status": "partial",
   "theorems": [
    "Mathter.Props.C115_partial",
    "Mathter.Props.C115_violated"
   ],
   "note": "Violated (C115_violated: every precision of at least 4 bits, every rounding to nearest): a constant segment evaluates to one unit less. C115_partial: the bounds are left by no more than the rounding error."
  },
  {
   "property": "C116",
   "status": "proved",
   "theorems": [
    "Mathter.Props.C116_point_at",
    "Mathter.Props.C116_distance",
    "Mathter.Props.C116_parallel",
    "Mathter.Props.C116_intersect",
    "Mathter.Props.C116_dot"
   ],
   "note": "Rounding model; the bound of Dot that is assumed is proved for Dot in C116_dot."
  },
  {
   "property": "C117",
   "status": "proved",
   "theorems": [
    "Mathter.Props.C117_mul",
    "Mathter.Props.C117_vec_mul",
    "Mathter.Props.C117_mul_vec",
    "Mathter.Props.C117_solve_upper",
    "Mathter.Props.C117_solve_lower",
    "Mathter.Props.C117_solve_rhs",
    "Mathter.Props.C117_lu",
    "Mathter.Props.C117_lup",
    "Mathter.Props.C117_lu_rhs",
    "Mathter.Props.C117_inverse",
    "Mathter.Props.C117_det2",
    "Mathter.Props.C117_det3",
    "Mathter.Props.C117_det4",
    "Mathter.Props.C117_inv2",
    "Mathter.Props.C117_inv3",
    "Mathter.Props.C117_inv4"
   ],
   "note": "Model with NaN and infinities; holds for every rounding function. LU/LUP: a NaN stays in U or enters L, and either makes a row of the solution NaN."
  },
  {
   "property": "C118",
   "status": "partial",
   "theorems": [
    "Mathter.Props.C118_partial",
    "Mathter.Props.C118_first_partial",
    "Mathter.Props.C118_pivots_partial",
    "Mathter.Props.C118_violated"
   ],
   "note": "Violated (C118_violated): with a zero first column the algorithm returns zero whatever the other elements are. Proved: NaN for a NaN anywhere if no pivot is zero (C118_pivots_partial), NaN or zero for a NaN in the first row (C118_partial), NaN for one in the first element (C118_first_partial)."
  },
  {
   "property": "C119",
   "status": "proved",
   "theorems": [
    "Mathter.Props.C119_rotation2D",
    "Mathter.Props.C119_axis",
    "Mathter.Props.C119_single_axis",
    "Mathter.Props.C119_axis_angle",
    "Mathter.Props.C119_quaternion",
    "Mathter.Props.C119_tri_axis",
    "Mathter.Props.C119_tri_axis_quat",
    "Mathter.Props.C119_rotationH",
    "Mathter.Props.C119_length",
    "Mathter.Props.C119_shear",
    "Mathter.Props.C119_product"
   ],
   "note": ""
  },
  {
   "property": "C120",
   "status": "proved",
   "theorems": [
    "Mathter.Props.C120_orthographic_rejects",
    "Mathter.Props.C120_orthographic",
    "Mathter.Props.C120_perspective_rejects",
    "Mathter.Props.C120_perspective"
   ],
   "note": ""
  },
  {
   "property": "C121",
   "status": "partial",
   "theorems": [
    "Mathter.Props.C121_plane_line",
    "Mathter.Props.C121_plane_line_reported",
    "Mathter.Props.C121_line_line",
    "Mathter.Props.C121_ray_triangle",
    "Mathter.Props.C121_segments_partial",
    "Mathter.Props.C121_segments_violated"
   ],
   "note": "Violated for two segments (C121_segments_violated): the segment from (0,0) to (1,NaN) gets the fallback direction (1,0) and IsWithin only looks at the first coordinate, so that a finite intersection is reported. Proved for planes, lines, rays and triangles; for segments with the NaN elsewhere (C121_segments_partial)."
  },
  {
   "property": "C122",
   "status": "partial",
   "theorems": [
    "Mathter.Props.C122_plane_ray_partial",
    "Mathter.Props.C122_plane_segment_partial",
    "Mathter.Props.C122_line_segment_partial",
    "Mathter.Props.C122_ray_triangle_violated"
   ],
   "note": "Violated for triangles (C122_ray_triangle_violated): every ray hits every triangle with a NaN. Proved for planes and lines. Two segments: C121_segments_partial, C121_segments_violated."
  },
  {
   "property": "C123",
   "status": "partial",
   "theorems": [
    "Mathter.Props.C123_plane_distance_partial",
    "Mathter.Props.C123_pointAt_partial",
    "Mathter.Props.C123_interpolOf_partial",
    "Mathter.Props.C123_area_partial",
    "Mathter.Props.C123_centroid_partial",
    "Mathter.Props.C123_through_violated",
    "Mathter.Props.C123_gramSchmidt_partial",
    "Mathter.Props.C123_gramSchmidt_null"
   ],
   "note": "Violated for directions (C123_through_violated): NormalizePrecise replaces NaN by the first unit vector. Proved for the other functions. A null vector among the inputs of the orthogonalisation also makes all later outputs NaN (C123_gramSchmidt_null)."
  },
  {
   "property": "C124",
   "status": "proved",
   "theorems": [
    "Mathter.Props.C124_sum",
    "Mathter.Props.C124_dot",
    "Mathter.Props.C124_length",
    "Mathter.Props.C124_distance",
    "Mathter.Props.C124_mul",
    "Mathter.Props.C124_vec_mul",
    "Mathter.Props.C124_mul_vec",
    "Mathter.Props.C124_det2",
    "Mathter.Props.C124_det3",
    "Mathter.Props.C124_det4",
    "Mathter.Props.C124_upper",
    "Mathter.Props.C124_lower",
    "Mathter.Props.C124_follow",
    "Mathter.Props.C124_lu",
    "Mathter.Props.C124_lup"
   ],
   "note": "Underflow is not modelled: the rounding keeps the relative error for all finite results."
  },
  {
   "property": "C125",
   "status": "partial",
   "theorems": [
    "Mathter.Props.C125_lu_solve_partial",
    "Mathter.Props.C125_lup_solve_partial",
    "Mathter.Props.C125_lup_solve_follow_partial",
    "Mathter.Props.C125_inverse_partial",
    "Mathter.Props.C125_inv2_partial",
    "Mathter.Props.C125_inv3_partial",
    "Mathter.Props.C125_inv4_partial",
    "Mathter.Props.C125_inv_violated",
    "Mathter.Props.C125_solve_violated"
   ],
   "note": "Violated: if the determinant of a 2x2 matrix overflows, Inverse returns the zero matrix (C125_inv_violated); a pivot that overflows makes unknowns zero (C125_solve_violated). Proved if the factors are finite, and for inverses with at least one element that is finite and not zero."
  },
  {
   "property": "C126",
   "status": "proved",
   "theorems": [
    "Mathter.Props.C126_multiply_add",
    "Mathter.Props.C126_mul",
    "Mathter.Props.C126_mul_exact",
    "Mathter.Props.C126_mul_defined",
    "Mathter.Props.C126_vec_mul",
    "Mathter.Props.C126_vec_mul_defined",
    "Mathter.Props.C126_mul_vec",
    "Mathter.Props.C126_mul_vec_defined",
    "Mathter.Props.C126_trace",
    "Mathter.Props.C126_trace_small",
    "Mathter.Props.C126_det2",
    "Mathter.Props.C126_det3",
    "Mathter.Props.C126_det4"
   ],
   "note": "For 4x4 matrices of small unsigned types it is left open when the promoted computation overflows (see C127_sign_violated)."
  },
  {
   "property": "C127",
   "status": "partial",
   "theorems": [
    "Mathter.Props.C127_bareiss_partial",
    "Mathter.Props.C127_unsigned_violated",
    "Mathter.Props.C127_narrow_violated",
    "Mathter.Props.C127_overflow_violated",
    "Mathter.Props.C127_zero_violated",
    "Mathter.Props.C127_sign_violated"
   ],
   "note": "Violated: an early return of 0 (C127_zero_violated), negative minors with unsigned types (C127_unsigned_violated), minors that do not fit in the element type (C127_narrow_violated), products that do not fit in the promoted type (C127_overflow_violated), the sign -1 stored in std::uint16_t (C127_sign_violated). Proved if all bordered minors and their products fit and leading minors are nonzero; dimensions 2 to 4 in C126."
  },
  {
   "property": "C128",
   "status": "proved",
   "theorems": [
    "Mathter.Props.C128_one"
   ],
   "note": "real element types, assertions disabled; underflow is not modelled; U and V are not part of this model (see C104 for them without overflow); std::hypot, fused products, reduction orders and the order found by std::sort are parameters; that the loop ends is C109"
  },
  {
   "property": "C129",
   "status": "proved",
   "theorems": [
    "Mathter.Props.C129_sound",
    "Mathter.Props.C129_complete",
    "Mathter.Props.C129_cross"
   ],
   "note": "Rounding model without overflow and underflow; what is assumed of Cross and Dot is proved for them in C129_cross and C116_dot. The direction of the ray is a float; base and corners are arbitrary."
  },
  {
   "property": "C130",
   "status": "partial",
   "theorems": [
    "Mathter.Props.C130_exact_partial",
    "Mathter.Props.C130_violated",
    "Mathter.Props.C130_dot",
    "Mathter.Props.C130_cross"
   ],
   "note": "Violated (C130_violated: single and double precision, every rounding to nearest, any epsilon, every reduction order). C130_exact_partial: holds in exact arithmetic."
  },
  {
   "property": "C131",
   "status": "proved",
   "theorems": [
    "Mathter.Props.C131_real",
    "Mathter.Props.C131_complex"
   ],
   "note": "Formats with overflow and gradual underflow; infinities and NaNs as operands are not modelled. The conditions hfmt and h\u03a9 hold for float and double and all practical sizes."
  },
  {
   "property": "C132",
   "status": "partial",
   "theorems": [
    "Mathter.Props.C132_area_partial",
    "Mathter.Props.C132_area_violated",
    "Mathter.Props.C132_centroid"
   ],
   "note": "Thin triangles are missing because the code returns NaN for some of them (C132_area_violated). No overflow or underflow; LengthPrecise is modelled with its reductions."
  },
  {
   "property": "C133",
   "status": "partial",
   "theorems": [
    "Mathter.Props.C133_span",
    "Mathter.Props.C133_orthogonal_partial",
    "Mathter.Props.C133_two_partial",
    "Mathter.Props.C133_defined",
    "Mathter.Props.C133_normalize",
    "Mathter.Props.C133_orthogonal_violated"
   ],
   "note": "Orthogonality is relative to the inputs; relative to the outputs it is violated (C133_orthogonal_violated). No overflow or underflow."
  },
  {
   "property": "C134",
   "status": "partial",
   "theorems": [
    "Mathter.Props.C134_plane",
    "Mathter.Props.C134_space_partial",
    "Mathter.Props.C134_translation",
    "Mathter.Props.C134_up_violated"
   ],
   "note": "The up column degrades with the angle between up vector and look axis (C134_up_violated). Columns and translation are modelled; copying them into the result is exact and part of the exact model. Dimensions 2 and 3. No overflow or underflow."
  },
  {
   "property": "C135",
   "status": "partial",
   "theorems": [
    "Mathter.Props.C135_angle",
    "Mathter.Props.C135_axis",
    "Mathter.Props.C135_exp",
    "Mathter.Props.C135_log_partial",
    "Mathter.Props.C135_library",
    "Mathter.Props.C135_small",
    "Mathter.Props.C135_pow_violated",
    "Mathter.Props.C135_pow_partial",
    "Mathter.Props.C135_polar",
    "Mathter.Props.C135_zpow_partial"
   ],
   "note": "Log and Pow lose all accuracy for small rotations (C135_small, C135_pow_violated); Angle, Axis and Exp are accurate; Log and Pow are accurate away from the real numbers (C135_log_partial, C135_pow_partial, C135_zpow_partial). The elementary functions are parameters. No overflow or underflow."
  },
  {
   "property": "C136",
   "status": "proved",
   "theorems": [
    "Mathter.Props.C136_solve_precede",
    "Mathter.Props.C136_residual_precede",
    "Mathter.Props.C136_solve_follow",
    "Mathter.Props.C136_residual_follow",
    "Mathter.Props.C136_inverse_tall",
    "Mathter.Props.C136_inverse_wide",
    "Mathter.Props.C136_two_sided",
    "Mathter.Props.C136_product"
   ],
   "note": "Real matrices; shapes for which Solve stays within bounds (see C43 for the others) and nonzero singular values. No overflow or underflow. Combined with C106 for the two-sided algorithm when its last sweep found nothing to do."
  },
  {
   "property": "C137",
   "status": "partial",
   "theorems": [
    "Mathter.Props.C137_direction",
    "Mathter.Props.C137_length",
    "Mathter.Props.C137_interpol_of",
    "Mathter.Props.C137_lines",
    "Mathter.Props.C137_segments_partial",
    "Mathter.Props.C137_found_partial",
    "Mathter.Props.C137_dot",
    "Mathter.Props.C137_shared_end_violated"
   ],
   "note": "The returned point is near both segments (C137_segments_partial) and crossings away from the ends are found (C137_found_partial); segments that share an end may be missed (C137_shared_end_violated). No overflow or underflow; both operands of the same element type."
  },
  {
   "property": "C138",
   "status": "partial",
   "theorems": [
    "Mathter.Props.C138_path_exact_partial",
    "Mathter.Props.C138_reported_partial",
    "Mathter.Props.C138_found_partial",
    "Mathter.Props.C138_missed_violated"
   ],
   "note": "Proved in exact arithmetic for paths of any length (C138_path_exact_partial); with rounding, a reported point is near the segment and the plane (C138_reported_partial), crossings away from the ends are found (C138_found_partial), but a path may pass the plane next to a corner (C138_missed_violated). No overflow or underflow; segment and plane of the same element type."
  },
  {
   "property": "C139",
   "status": "partial",
   "theorems": [
    "Mathter.Props.C139_vector_partial",
    "Mathter.Props.C139_matrix_partial",
    "Mathter.Props.C139_vector_near",
    "Mathter.Props.C139_matrix_near",
    "Mathter.Props.C139_quaternion_near",
    "Mathter.Props.C139_digits_kept",
    "Mathter.Props.C139_default_violated"
   ],
   "note": "Exact with enough digits (C139_vector_partial, C139_matrix_partial), near with any number of digits (C139_vector_near, C139_matrix_near, C139_quaternion_near), texts are kept (C139_digits_kept); with the default precision of streams values are lost (C139_default_violated). No NaN, infinities, subnormal numbers or overflow; for quaternions only the digits of the text are rounded."
  },
  {
   "property": "C140",
   "status": "partial",
   "theorems": [
    "Mathter.Props.C140_mul",
    "Mathter.Props.C140_inverse_partial",
    "Mathter.Props.C140_inverse_defined",
    "Mathter.Props.C140_rotate_partial",
    "Mathter.Props.C140_normalize_partial",
    "Mathter.Props.C140_normalize_quat_partial",
    "Mathter.Props.C140_normalize_violated",
    "Mathter.Props.C140_inverse_violated",
    "Mathter.Props.C140_rotate_violated"
   ],
   "note": "Finite elements of products are accurate (C140_mul); of inverses, rotations and normalised values if one element is finite and not zero (_partial theorems). If the square of an element overflows, zeros are returned (_violated theorems)."
  },
  {
   "property": "C141",
   "status": "partial",
   "theorems": [
    "Mathter.Props.C141_distance",
    "Mathter.Props.C141_point_at",
    "Mathter.Props.C141_parallel",
    "Mathter.Props.C141_plane_line",
    "Mathter.Props.C141_plane_ray",
    "Mathter.Props.C141_lines",
    "Mathter.Props.C141_segments_partial",
    "Mathter.Props.C141_plane_segment_partial",
    "Mathter.Props.C141_ray_triangle_partial",
    "Mathter.Props.C141_false_hit_violated",
    "Mathter.Props.C141_missed_violated",
    "Mathter.Props.C141_segment_end_violated",
    "Mathter.Props.C141_direction_violated"
   ],
   "note": "Planes with lines and rays, distances, points on lines: proved. Two lines through points: if coordinate differences are finite. Segments: if their length is finite; triangles: if no product is NaN (_partial). The _violated theorems show wrong and missed intersections without these."
  },
  {
   "property": "C142",
   "status": "partial",
   "theorems": [
    "Mathter.Props.C142_sum",
    "Mathter.Props.C142_compensated",
    "Mathter.Props.C142_dot",
    "Mathter.Props.C142_length_squared",
    "Mathter.Props.C142_mul",
    "Mathter.Props.C142_vec_mul",
    "Mathter.Props.C142_mul_vec",
    "Mathter.Props.C142_length_partial",
    "Mathter.Props.C142_distance_partial",
    "Mathter.Props.C142_length_violated",
    "Mathter.Props.C142_qmul_elements",
    "Mathter.Props.C142_qmul",
    "Mathter.Props.C142_ieee_dot",
    "Mathter.Props.C142_ieee_length_partial",
    "Mathter.Props.C142_normalize_violated",
    "Mathter.Props.C142_inverse_violated"
   ],
   "note": "Sums: no effect. Products: half of the smallest number each. Length and distance: absolute error only (_partial); C142_length_violated etc. show that lengths can vanish and assertions fail for vectors that are not zero."
  },
  {
   "property": "C143",
   "status": "partial",
   "theorems": [
    "Mathter.Props.C143_factors",
    "Mathter.Props.C143_solve_precede_partial",
    "Mathter.Props.C143_solve_follow_partial",
    "Mathter.Props.C143_square_many",
    "Mathter.Props.C143_inverse",
    "Mathter.Props.C143_underdetermined",
    "Mathter.Props.C143_advice_violated"
   ],
   "note": "Factors and pseudoinverse: every shape and order. Solve: unless there are fewer equations than unknowns; then it does not compile (C143_underdetermined, C143_advice_violated)."
  },
  {
   "property": "C144",
   "status": "proved",
   "theorems": [
    "Mathter.Props.C144_mul",
    "Mathter.Props.C144_vec_mul",
    "Mathter.Props.C144_mul_vec",
    "Mathter.Props.C144_parts_can_vanish"
   ],
   "note": "Relative to the moduli; C144_parts_can_vanish shows that the parts themselves have no relative accuracy."
  },
  {
   "property": "C145",
   "status": "proved",
   "theorems": [
    "Mathter.Props.C145_line_found",
    "Mathter.Props.C145_ray_found",
    "Mathter.Props.C145_ray_missed",
    "Mathter.Props.C145_ray_reported"
   ],
   "note": "Margins are stated with explicit constants; \u03b3 is the rounding error of n + 4 operations."
  },
  {
   "property": "C146",
   "status": "proved",
   "theorems": [
    "Mathter.Props.C146_roundoff",
    "Mathter.Props.C146_division",
    "Mathter.Props.C146_modulus",
    "Mathter.Props.C146_upper",
    "Mathter.Props.C146_lower",
    "Mathter.Props.C146_upper_follow",
    "Mathter.Props.C146_lower_follow",
    "Mathter.Props.C146_lu",
    "Mathter.Props.C146_lup",
    "Mathter.Props.C146_lu_solve",
    "Mathter.Props.C146_lup_solve",
    "Mathter.Props.C146_lup_solve_follow",
    "Mathter.Props.C146_inverse"
   ],
   "note": "The division and the modulus enter through their accuracy (6 and 4 rounding errors); the textbook formulas are proved to have it. Without overflow and underflow; both element types complex."
  },
  {
   "property": "C147",
   "status": "proved",
   "theorems": [
    "Mathter.Props.C147_det2",
    "Mathter.Props.C147_det3",
    "Mathter.Props.C147_det4",
    "Mathter.Props.C147_inv2",
    "Mathter.Props.C147_inv3",
    "Mathter.Props.C147_inv4"
   ],
   "note": "The division enters through its accuracy (6 rounding errors), which C146_division proves for the textbook formula. Without overflow and underflow; both element types complex."
  },
  {
   "property": "C148",
   "status": "partial",
   "theorems": [
    "Mathter.Props.C148_ends",
    "Mathter.Props.C148_inverse",
    "Mathter.Props.C148_vector_precede_partial",
    "Mathter.Props.C148_vector_follow_partial",
    "Mathter.Props.C148_vector_violated",
    "Mathter.Props.C148_many_violated",
    "Mathter.Props.C148_one_sided"
   ],
   "note": "Solve works for at least as many rows as columns (PRECEDE_VECTOR) or the reverse (FOLLOW_VECTOR); otherwise the vector overload does not compile and the matrix overload reads out of range."
  },
  {
   "property": "C149",
   "status": "partial",
   "theorems": [
    "Mathter.Props.C149_accepted",
    "Mathter.Props.C149_through",
    "Mathter.Props.C149_segment",
    "Mathter.Props.C149_plane",
    "Mathter.Props.C149_to_line_partial",
    "Mathter.Props.C149_convert_partial",
    "Mathter.Props.C149_convert_violated",
    "Mathter.Props.C149_tolerance_violated",
    "Mathter.Props.C149_length",
    "Mathter.Props.C149_null"
   ],
   "note": "Holds for all vectors the library normalised; vectors from elsewhere at the edge of the tolerance are accepted by one class or precision and not by another."
  },
  {
   "property": "C150",
   "status": "proved",
   "theorems": [
    "Mathter.Props.C150_division",
    "Mathter.Props.C150_backward",
    "Mathter.Props.C150_lq"
   ],
   "note": "Without overflow or underflow."
  },
  {
   "property": "C151",
   "status": "proved",
   "theorems": [
    "Mathter.Props.C151_solve",
    "Mathter.Props.C151_regular"
   ],
   "note": "Without overflow or underflow. DecompositionLQ::Solve is the same code on flipped matrices and is not stated separately."
  },
  {
   "property": "C152",
   "status": "partial",
   "theorems": [
    "Mathter.Props.C152_growth",
    "Mathter.Props.C152_backward_partial",
    "Mathter.Props.C152_columns_partial",
    "Mathter.Props.C152_rows_partial",
    "Mathter.Props.C152_accuracy_partial",
    "Mathter.Props.C152_exact_partial",
    "Mathter.Props.C152_violated"
   ],
   "note": "Without overflow or underflow. Violated for matrices with small pivots; proved: backward error relative to the computed factors if no pivot is zero, backward stability and relative accuracy for matrices whose rows or columns are dominated by the diagonal, and exactness for integers whose bordered minors are small."
  },
  {
   "property": "C153",
   "status": "partial",
   "theorems": [
    "Mathter.Props.C153_growth",
    "Mathter.Props.C153_backward_partial",
    "Mathter.Props.C153_columns_partial",
    "Mathter.Props.C153_rows_partial",
    "Mathter.Props.C153_accuracy_partial",
    "Mathter.Props.C153_violated"
   ],
   "note": "Without overflow or underflow. Violated for matrices with small pivots; proved: backward error relative to the computed factors if no pivot is zero; backward error relative to the matrix, and relative accuracy, for matrices dominated by their diagonal."
  },
  {
   "property": "C154",
   "status": "proved",
   "theorems": [
    "Mathter.Props.C154_pi",
    "Mathter.Props.C154_pi_half",
    "Mathter.Props.C154_pi_fourth",
    "Mathter.Props.C154_e",
    "Mathter.Props.C154_sqrt2",
    "Mathter.Props.C154_sqrt_half",
    "Mathter.Props.C154_rad2deg",
    "Mathter.Props.C154_deg2rad",
    "Mathter.Props.C154_round_trip"
   ],
   "note": "Formats of 24, 53 and 64 bits; without overflow or underflow."
  },
  {
   "property": "C155",
   "status": "proved",
   "theorems": [
    "Mathter.Props.C155_normalize",
    "Mathter.Props.C155_normalizePrecise",
    "Mathter.Props.C155_span",
    "Mathter.Props.C155_orthogonal",
    "Mathter.Props.C155_two",
    "Mathter.Props.C155_defined"
   ],
   "note": "Errors relative to the inputs; without overflow or underflow."
  },
  {
   "property": "C156",
   "status": "proved",
   "theorems": [
    "Mathter.Props.C156_sum",
    "Mathter.Props.C156_sum_complex",
    "Mathter.Props.C156_trace",
    "Mathter.Props.C156_trace_complex",
    "Mathter.Props.C156_normSquared",
    "Mathter.Props.C156_normSquared_complex",
    "Mathter.Props.C156_norm",
    "Mathter.Props.C156_norm_complex"
   ],
   "note": "Without overflow or underflow."
  },
  {
   "property": "C157",
   "status": "proved",
   "theorems": [
    "Mathter.Props.C157_sum",
    "Mathter.Props.C157_dot",
    "Mathter.Props.C157_length",
    "Mathter.Props.C157_distance",
    "Mathter.Props.C157_mul",
    "Mathter.Props.C157_vec_mul",
    "Mathter.Props.C157_mul_vec",
    "Mathter.Props.C157_matrix_sum",
    "Mathter.Props.C157_trace",
    "Mathter.Props.C157_norm",
    "Mathter.Props.C157_det2",
    "Mathter.Props.C157_det3",
    "Mathter.Props.C157_cross",
    "Mathter.Props.C157_quaternion_mul",
    "Mathter.Props.C157_sharp"
   ],
   "note": "Without overflow or underflow."
  },
  {
   "property": "C158",
   "status": "proved",
   "theorems": [
    "Mathter.Props.C158_sum_nan",
    "Mathter.Props.C158_trace_nan",
    "Mathter.Props.C158_norm_nan",
    "Mathter.Props.C158_norm_nonneg",
    "Mathter.Props.C158_norm_inf",
    "Mathter.Props.C158_sum_finite",
    "Mathter.Props.C158_trace_finite",
    "Mathter.Props.C158_norm_finite"
   ],
   "note": "Real element types; underflow is not modelled in the bounds for finite results."
  }
 ]
}