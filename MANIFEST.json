{
 "claims": [
  {
   "property": "C01",
   "status": "proved",
   "theorems": [
    "Magnesia.C01_eval_power_sum",
    "Magnesia.C01_eval_ref_agrees",
    "Magnesia.C01_eval_empty",
    "Magnesia.C01_eval_panics_only_from_elements",
    "Magnesia.C01_eval_returns"
   ],
   "note": ""
  },
  {
   "property": "C02",
   "status": "proved",
   "theorems": [
    "Magnesia.C02_add",
    "Magnesia.C02_add_assign",
    "Magnesia.C02_add_assign_ref",
    "Magnesia.C02_operators_agree",
    "Magnesia.C02_add_returns",
    "Magnesia.C02_add_panics_only_from_elements",
    "Magnesia.C02_eval_add"
   ],
   "note": ""
  },
  {
   "property": "C03",
   "status": "proved",
   "theorems": [
    "Magnesia.C03_sub",
    "Magnesia.C03_sub_assign",
    "Magnesia.C03_sub_assign_ref",
    "Magnesia.C03_neg",
    "Magnesia.C03_operators_agree",
    "Magnesia.C03_sub_returns",
    "Magnesia.C03_eval_sub",
    "Magnesia.C03_eval_neg",
    "Magnesia.C03_sub_may_panic_where_sub_assign_ref_does_not"
   ],
   "note": ""
  },
  {
   "property": "C04",
   "status": "proved",
   "theorems": [
    "Magnesia.C04_mul",
    "Magnesia.C04_operators_agree",
    "Magnesia.C04_mul_panics_only_from_elements",
    "Magnesia.C04_mul_returns"
   ],
   "note": ""
  },
  {
   "property": "C05",
   "status": "proved",
   "theorems": [
    "Magnesia.C05_eval_mul",
    "Magnesia.C05_eval_mul_comm",
    "Magnesia.C05_eval_mul_fails_for_matrices"
   ],
   "note": ""
  },
  {
   "property": "C06",
   "status": "proved",
   "theorems": [
    "Magnesia.C06_eq_iff",
    "Magnesia.C06_add_assoc",
    "Magnesia.C06_add_comm",
    "Magnesia.C06_add_zero",
    "Magnesia.C06_mul_assoc",
    "Magnesia.C06_left_distrib",
    "Magnesia.C06_right_distrib",
    "Magnesia.C06_mul_one",
    "Magnesia.C06_mul_comm",
    "Magnesia.C06_mul_zero",
    "Magnesia.C06_semiring"
   ],
   "note": ""
  },
  {
   "property": "C07",
   "status": "proved",
   "theorems": [
    "Magnesia.C07_add_neg",
    "Magnesia.C07_add_neg_eq_zero_iff",
    "Magnesia.C07_sub_self_eq_zero_iff",
    "Magnesia.C07_ring_law_fails",
    "Magnesia.C07_same_polynomial_iff"
   ],
   "note": ""
  },
  {
   "property": "C08",
   "status": "proved",
   "theorems": [
    "Magnesia.C08_checked_exact_or_panic",
    "Magnesia.C08_checked_exact_or_panic_complex",
    "Magnesia.C08_exact_injective"
   ],
   "note": ""
  },
  {
   "property": "C09",
   "status": "proved",
   "theorems": [
    "Magnesia.C09_wrapping_is_reduction",
    "Magnesia.C09_every_input_is_a_reduction",
    "Magnesia.C09_reduce_eq_iff",
    "Magnesia.C09_wrapping_no_arithmetic_panic",
    "Magnesia.C09_wrapping_ring_operations_return",
    "Magnesia.C09_wrapping_ring_laws"
   ],
   "note": ""
  },
  {
   "property": "C10",
   "status": "proved",
   "theorems": [
    "Magnesia.C10_complex_implements",
    "Magnesia.C10_polynomial_implements",
    "Magnesia.C10_matrix_implements",
    "Magnesia.C10_containers_never_panic",
    "Magnesia.C10_ring_laws",
    "Magnesia.C10_any_nesting"
   ],
   "note": ""
  },
  {
   "property": "C11",
   "status": "proved",
   "theorems": [
    "Magnesia.C11_commutative_ring",
    "Magnesia.C11_values"
   ],
   "note": ""
  },
  {
   "property": "C12",
   "status": "proved",
   "theorems": [
    "Magnesia.C12_operators_agree",
    "Magnesia.C12_mul_scalar",
    "Magnesia.C12_mul_scalar_returns"
   ],
   "note": ""
  },
  {
   "property": "C13",
   "status": "proved",
   "theorems": [
    "Magnesia.C13_conj_conj",
    "Magnesia.C13_conj_hom",
    "Magnesia.C13_mul_conj",
    "Magnesia.C13_sqr_norm_mul",
    "Magnesia.C13_sqr_norm_nonneg",
    "Magnesia.C13_returns"
   ],
   "note": ""
  },
  {
   "property": "C14",
   "status": "proved",
   "theorems": [
    "Magnesia.C14_div_mul_cancel",
    "Magnesia.C14_mul_div_cancel",
    "Magnesia.C14_ordered",
    "Magnesia.C14_div_returns"
   ],
   "note": ""
  },
  {
   "property": "C15",
   "status": "proved",
   "theorems": [
    "Magnesia.C15_operators_agree",
    "Magnesia.C15_div_scalar",
    "Magnesia.C15_div_scalar_eq_div",
    "Magnesia.C15_int_div_zero_panics"
   ],
   "note": ""
  },
  {
   "property": "C16",
   "status": "proved",
   "theorems": [
    "Magnesia.C16_field_iff",
    "Magnesia.C16_no_inverse",
    "Magnesia.C16_nested_complex_not_field"
   ],
   "note": ""
  },
  {
   "property": "C17",
   "status": "proved",
   "theorems": [
    "Magnesia.C17_exp",
    "Magnesia.C17_exp_add",
    "Magnesia.C17_exp_ne_zero",
    "Magnesia.C17_abs_exp",
    "Magnesia.C17_exp_conj"
   ],
   "note": ""
  },
  {
   "property": "C18",
   "status": "proved",
   "theorems": [
    "Magnesia.C18_sin",
    "Magnesia.C18_cos",
    "Magnesia.C18_sinh",
    "Magnesia.C18_cosh",
    "Magnesia.C18_tan",
    "Magnesia.C18_tan_pole",
    "Magnesia.C18_sin_sq_add_cos_sq",
    "Magnesia.C18_cosh_sq_sub_sinh_sq"
   ],
   "note": ""
  },
  {
   "property": "C19",
   "status": "proved",
   "theorems": [
    "Magnesia.C19_ln",
    "Magnesia.C19_ln_zero",
    "Magnesia.C19_exp_ln",
    "Magnesia.C19_parts",
    "Magnesia.C19_ln_exp"
   ],
   "note": ""
  },
  {
   "property": "C20",
   "status": "proved",
   "theorems": [
    "Magnesia.C20_sqrt",
    "Magnesia.C20_unique",
    "Magnesia.C20_cpow",
    "Magnesia.C20_branches_agree"
   ],
   "note": ""
  },
  {
   "property": "C21",
   "status": "proved",
   "theorems": [
    "Magnesia.C21_abs",
    "Magnesia.C21_arg",
    "Magnesia.C21_abs_zero",
    "Magnesia.C21_abs_mul",
    "Magnesia.C21_triangle",
    "Magnesia.C21_polar"
   ],
   "note": ""
  },
  {
   "property": "C22",
   "status": "proved",
   "theorems": [
    "Magnesia.C22_add_entries",
    "Magnesia.C22_sub_entries",
    "Magnesia.C22_scale_entries",
    "Magnesia.C22_operators_agree",
    "Magnesia.C22_dot_value",
    "Magnesia.C22_never_panics",
    "Magnesia.C22_only_element_panics",
    "Magnesia.C22_zero_entries",
    "Magnesia.C22_additive_group",
    "Magnesia.C22_module",
    "Magnesia.C22_dot_bilinear",
    "Magnesia.C22_dot_symmetric"
   ],
   "note": ""
  },
  {
   "property": "C23",
   "status": "proved",
   "theorems": [
    "Magnesia.C23_mul_value",
    "Magnesia.C23_mul_denotes",
    "Magnesia.C23_only_element_panics",
    "Magnesia.C23_never_panics",
    "Magnesia.C23_operators_agree",
    "Magnesia.C23_one_entries",
    "Magnesia.C23_zero_entries",
    "Magnesia.C23_mul_assoc",
    "Magnesia.C23_distrib",
    "Magnesia.C23_one_identity"
   ],
   "note": ""
  },
  {
   "property": "C24",
   "status": "proved",
   "theorems": [
    "Magnesia.C24_add_entries",
    "Magnesia.C24_sub_entries",
    "Magnesia.C24_neg_entries",
    "Magnesia.C24_conj_entries",
    "Magnesia.C24_operators_agree",
    "Magnesia.C24_conj_mul",
    "Magnesia.C24_complex_conj_is_hom"
   ],
   "note": ""
  },
  {
   "property": "C25",
   "status": "proved",
   "theorems": [
    "Magnesia.C25_mul_vec_value",
    "Magnesia.C25_mul_vec_rows",
    "Magnesia.C25_only_element_panics",
    "Magnesia.C25_never_panics",
    "Magnesia.C25_mul_vec_assoc",
    "Magnesia.C25_one_mul_vec",
    "Magnesia.C25_mul_vec_add"
   ],
   "note": ""
  },
  {
   "property": "C26",
   "status": "proved",
   "theorems": [
    "Magnesia.C26_construction",
    "Magnesia.C26_vector_eval",
    "Magnesia.C26_matrix_eval",
    "Magnesia.C26_vector_entries",
    "Magnesia.C26_matrix_entries",
    "Magnesia.C26_eval_is_default_vector",
    "Magnesia.C26_eval_is_default_matrix",
    "Magnesia.C26_intermediate_eval",
    "Magnesia.C26_methods_agree"
   ],
   "note": ""
  },
  {
   "property": "C27",
   "status": "proved",
   "theorems": [
    "Magnesia.C27_vector",
    "Magnesia.C27_dvector",
    "Magnesia.C27_matrix",
    "Magnesia.C27_dmatrix",
    "Magnesia.C27_product"
   ],
   "note": ""
  },
  {
   "property": "C28",
   "status": "proved",
   "theorems": [
    "Magnesia.C28_round_trip",
    "Magnesia.C28_eval_returns",
    "Magnesia.C28_array",
    "Magnesia.C28_history",
    "Magnesia.C28_reachable",
    "Magnesia.C28_vector_history"
   ],
   "note": ""
  },
  {
   "property": "C29",
   "status": "proved",
   "theorems": [
    "Magnesia.C29_exact",
    "Magnesia.C29_row_out_of_range",
    "Magnesia.C29_col_out_of_range",
    "Magnesia.C29_beyond_storage",
    "Magnesia.C29_write_col_out_of_range"
   ],
   "note": ""
  },
  {
   "property": "C30",
   "status": "proved",
   "theorems": [
    "Magnesia.C30_dvector_write",
    "Magnesia.C30_dvector_out_of_range",
    "Magnesia.C30_dvector_read",
    "Magnesia.C30_dvector_history",
    "Magnesia.C30_svector_write",
    "Magnesia.C30_svector_out_of_range",
    "Magnesia.C30_svector_history",
    "Magnesia.C30_dmatrix_write",
    "Magnesia.C30_dmatrix_read",
    "Magnesia.C30_dmatrix_history",
    "Magnesia.C30_dmatrix_panic"
   ],
   "note": ""
  },
  {
   "property": "C31",
   "status": "proved",
   "theorems": [
    "Magnesia.C31_transpose",
    "Magnesia.C31_hermitian",
    "Magnesia.C31_t_t",
    "Magnesia.C31_h_h",
    "Magnesia.C31_h_eq_t",
    "Magnesia.C31_mul_t",
    "Magnesia.C31_mul_h",
    "Magnesia.C31_complex_conj"
   ],
   "note": ""
  },
  {
   "property": "C32",
   "status": "proved",
   "theorems": [
    "Magnesia.C32_diag_of_vector",
    "Magnesia.C32_diag_of_matrix",
    "Magnesia.C32_diag_diag",
    "Magnesia.C32_eye",
    "Magnesia.C32_eye_neutral"
   ],
   "note": ""
  },
  {
   "property": "C33",
   "status": "proved",
   "theorems": [
    "Magnesia.C33_denotes",
    "Magnesia.C33_returns",
    "Magnesia.C33_eq_smatrix",
    "Magnesia.C33_inner_zero"
   ],
   "note": ""
  },
  {
   "property": "C34",
   "status": "proved",
   "theorems": [
    "Magnesia.C34_vector_add",
    "Magnesia.C34_vector_sub",
    "Magnesia.C34_matrix_add",
    "Magnesia.C34_matrix_sub",
    "Magnesia.C34_longer_operand_truncated",
    "Magnesia.C34_shorter_operand_panics",
    "Magnesia.C34_wrong_stride"
   ],
   "note": ""
  },
  {
   "property": "C35",
   "status": "proved",
   "theorems": [
    "Magnesia.C35_dvector",
    "Magnesia.C35_dmatrix",
    "Magnesia.C35_svector",
    "Magnesia.C35_smatrix",
    "Magnesia.C35_polynomial_ref",
    "Magnesia.C35_polynomial_add_value",
    "Magnesia.C35_polynomial_sub_value",
    "Magnesia.C35_polynomial_mul"
   ],
   "note": ""
  },
  {
   "property": "C36",
   "status": "proved",
   "theorems": [
    "Magnesia.C36_value",
    "Magnesia.C36_value_same_length",
    "Magnesia.C36_never_panics",
    "Magnesia.C36_truncates",
    "Magnesia.C36_value_eq_ref",
    "Magnesia.C36_additive",
    "Magnesia.C36_homogeneous",
    "Magnesia.C36_conj_symmetric",
    "Magnesia.C36_real_positive",
    "Magnesia.C36_complex_positive",
    "Magnesia.C36_exact_conj",
    "Magnesia.C36_checked_conj",
    "Magnesia.C36_complex_conj"
   ],
   "note": ""
  },
  {
   "property": "C37",
   "status": "proved",
   "theorems": [
    "Magnesia.C37_invalid_parameters",
    "Magnesia.C37_valid_of_returns",
    "Magnesia.C37_empty_bound",
    "Magnesia.C37_no_coordinates",
    "Magnesia.C37_no_panic"
   ],
   "note": ""
  },
  {
   "property": "C38",
   "status": "proved",
   "theorems": [
    "Magnesia.C38_result"
   ],
   "note": ""
  },
  {
   "property": "C39",
   "status": "proved",
   "theorems": [
    "Magnesia.C39_best",
    "Magnesia.C39_minimum"
   ],
   "note": ""
  },
  {
   "property": "C40",
   "status": "proved",
   "theorems": [
    "Magnesia.C40_number_of_calls"
   ],
   "note": ""
  },
  {
   "property": "C41",
   "status": "proved",
   "theorems": [
    "Magnesia.C41_within_bounds",
    "Magnesia.C41_one_iteration",
    "Magnesia.C41_escape_bound",
    "Magnesia.C41_escape_example"
   ],
   "note": ""
  },
  {
   "property": "C42",
   "status": "proved",
   "theorems": [
    "Magnesia.C42_terminates",
    "Magnesia.C42_returns",
    "Magnesia.C42_fuel_irrelevant",
    "Magnesia.C42_partners",
    "Magnesia.C42_needs_four",
    "Magnesia.C42_unlucky"
   ],
   "note": ""
  },
  {
   "property": "C43",
   "status": "proved",
   "theorems": [
    "Magnesia.C43_slots",
    "Magnesia.C43_monotone"
   ],
   "note": ""
  },
  {
   "property": "C44",
   "status": "proved",
   "theorems": [
    "Magnesia.C44_sources",
    "Magnesia.C44_zero",
    "Magnesia.C44_one"
   ],
   "note": ""
  },
  {
   "property": "C45",
   "status": "proved",
   "theorems": [
    "Magnesia.C45_nan_first"
   ],
   "note": ""
  },
  {
   "property": "C46",
   "status": "proved",
   "theorems": [
    "Magnesia.C46_textbook",
    "Magnesia.C46_swap",
    "Magnesia.C46_neg",
    "Magnesia.C46_nonneg",
    "Magnesia.C46_zero_iff",
    "Magnesia.C46_lt",
    "Magnesia.C46_integer_points"
   ],
   "note": ""
  },
  {
   "property": "C47",
   "status": "proved",
   "theorems": [
    "Magnesia.C47_ieee_returns",
    "Magnesia.C47_ieee_horner_error",
    "Magnesia.C47_horner_error",
    "Magnesia.C47_horner_relative_error"
   ],
   "note": ""
  },
  {
   "property": "C48",
   "status": "proved",
   "theorems": [
    "Magnesia.C48_ieee_dot_returns",
    "Magnesia.C48_ieee_dot_error",
    "Magnesia.C48_ieee_smatrix_mul_error",
    "Magnesia.C48_ieee_smatrix_mul_returns",
    "Magnesia.C48_ieee_mul_vec_error",
    "Magnesia.C48_ieee_dmatrix_mul_error",
    "Magnesia.C48_ieee_dmatrix_mul_returns",
    "Magnesia.C48_ieee_dvector_dot_error",
    "Magnesia.C48_dot_error",
    "Magnesia.C48_smatrix_mul_error",
    "Magnesia.C48_mul_vec_error",
    "Magnesia.C48_dmatrix_mul_error",
    "Magnesia.C48_dvector_dot_error"
   ],
   "note": ""
  },
  {
   "property": "C49",
   "status": "proved",
   "theorems": [
    "Magnesia.C49_ieee_mul_error",
    "Magnesia.C49_ieee_sqr_norm_error",
    "Magnesia.C49_ieee_div_error",
    "Magnesia.C49_ieee_abs_error",
    "Magnesia.C49_mul_error",
    "Magnesia.C49_sqr_norm_error",
    "Magnesia.C49_abs_error",
    "Magnesia.C49_div_nonzero",
    "Magnesia.C49_div_error",
    "Magnesia.C49_mul_norm_error",
    "Magnesia.C49_div_norm_error"
   ],
   "note": ""
  },
  {
   "property": "C50",
   "status": "proved",
   "theorems": [
    "Magnesia.C50_div_zero",
    "Magnesia.C50_div_infinite",
    "Magnesia.C50_div_norm_overflow",
    "Magnesia.C50_div_norm_underflow",
    "Magnesia.C50_nan_mul_div",
    "Magnesia.C50_nan_add_sub",
    "Magnesia.C50_nan_abs_sqrt",
    "Magnesia.C50_eval_nan",
    "Magnesia.C50_eval_at_infinity",
    "Magnesia.C50_mul_infinite",
    "Magnesia.C50_abs_overflow",
    "Magnesia.C50_abs_underflow",
    "Magnesia.C50_abs_wrong",
    "Magnesia.C50_sqrt_signed_zero",
    "Magnesia.C50_sqrt_overflow",
    "Magnesia.C50_sqrt_nan",
    "Magnesia.C50_sqrt_half"
   ],
   "note": ""
  },
  {
   "property": "C51",
   "status": "proved",
   "theorems": [
    "Magnesia.C51_complex_eq",
    "Magnesia.C51_svector_eq",
    "Magnesia.C51_smatrix_eq",
    "Magnesia.C51_polynomial_eq",
    "Magnesia.C51_dvector_eq",
    "Magnesia.C51_dmatrix_eq",
    "Magnesia.C51_partial_equivalence",
    "Magnesia.C51_self_eq",
    "Magnesia.C51_lawful",
    "Magnesia.C51_from",
    "Magnesia.C51_into_iter",
    "Magnesia.C51_from_into_iter",
    "Magnesia.C51_iter_mut",
    "Magnesia.C51_is_empty"
   ],
   "note": ""
  },
  {
   "property": "C52",
   "status": "proved",
   "theorems": [
    "Magnesia.C52_complex_comm",
    "Magnesia.C52_complex_sub",
    "Magnesia.C52_complex_add_zero",
    "Magnesia.C52_complex_sub_self",
    "Magnesia.C52_complex_one_mul",
    "Magnesia.C52_complex_conj",
    "Magnesia.C52_complex_neg_mul",
    "Magnesia.C52_svector_dot_comm",
    "Magnesia.C52_svector_complex_dot_comm",
    "Magnesia.C52_dmatrix_mul_t",
    "Magnesia.C52_smatrix_one_mul",
    "Magnesia.C52_polynomial_add",
    "Magnesia.C52_polynomial_add_assign_ref",
    "Magnesia.C52_polynomial_add_sign",
    "Magnesia.C52_polynomial_one_mul",
    "Magnesia.C52_complex_laws_fail",
    "Magnesia.C52_polynomial_mul_not_comm",
    "Magnesia.C52_smatrix_one_mul_single"
   ],
   "note": ""
  },
  {
   "property": "C53",
   "status": "proved",
   "theorems": [
    "Magnesia.C53_params",
    "Magnesia.C53_nan_params",
    "Magnesia.C53_arith",
    "Magnesia.C53_minimum",
    "Magnesia.C53_weight_zero",
    "Magnesia.C53_finite"
   ],
   "note": ""
  },
  {
   "property": "C54",
   "status": "proved",
   "theorems": [
    "Magnesia.C54_alike",
    "Magnesia.C54_comparator_state",
    "Magnesia.C54_order_only",
    "Magnesia.C54_local",
    "Magnesia.C54_affine",
    "Magnesia.C54_prefix",
    "Magnesia.C54_more_iterations",
    "Magnesia.C54_objective_monotone",
    "Magnesia.C54_mirror"
   ],
   "note": ""
  },
  {
   "property": "C55",
   "status": "proved",
   "theorems": [
    "Magnesia.C55_abs_sym",
    "Magnesia.C55_abs_range",
    "Magnesia.C55_abs_mono",
    "Magnesia.C55_abs_axis",
    "Magnesia.C55_abs_ge",
    "Magnesia.C55_sqrt_real",
    "Magnesia.C55_sqrt_imag",
    "Magnesia.C55_sqrt_sign"
   ],
   "note": ""
  },
  {
   "property": "C56",
   "status": "proved",
   "theorems": [
    "Magnesia.C56_sqrt_error",
    "Magnesia.C56_sqrt_norm_error"
   ],
   "note": ""
  },
  {
   "property": "C57",
   "status": "proved",
   "theorems": [
    "Magnesia.C57_add_error",
    "Magnesia.C57_sub_error",
    "Magnesia.C57_mul_error",
    "Magnesia.C57_cu_le",
    "Magnesia.C57_div_error",
    "Magnesia.C57_horner_returns",
    "Magnesia.C57_horner_error",
    "Magnesia.C57_dot_error",
    "Magnesia.C57_smatrix_mul_error",
    "Magnesia.C57_mul_vec_error",
    "Magnesia.C57_dmatrix_mul_error",
    "Magnesia.C57_dvector_dot_error"
   ],
   "note": ""
  },
  {
   "property": "C58",
   "status": "proved",
   "theorems": [
    "Magnesia.C58_exp",
    "Magnesia.C58_sin",
    "Magnesia.C58_cos",
    "Magnesia.C58_sinh",
    "Magnesia.C58_cosh",
    "Magnesia.C58_exp_norm",
    "Magnesia.C58_sin_norm",
    "Magnesia.C58_cos_norm",
    "Magnesia.C58_sinh_norm",
    "Magnesia.C58_cosh_norm",
    "Magnesia.C58_tan",
    "Magnesia.C58_ln",
    "Magnesia.C58_sqrNormErr_normal"
   ],
   "note": ""
  },
  {
   "property": "C59",
   "status": "proved",
   "theorems": [
    "Magnesia.C59_exp_conj",
    "Magnesia.C59_sin_conj",
    "Magnesia.C59_cos_conj",
    "Magnesia.C59_sinh_conj",
    "Magnesia.C59_cosh_conj",
    "Magnesia.C59_sin_neg",
    "Magnesia.C59_cos_neg",
    "Magnesia.C59_sinh_neg",
    "Magnesia.C59_cosh_neg",
    "Magnesia.C59_sin_rot",
    "Magnesia.C59_cos_rot",
    "Magnesia.C59_sinh_rot",
    "Magnesia.C59_cosh_rot",
    "Magnesia.C59_tan_sym",
    "Magnesia.C59_tan_overflow",
    "Magnesia.C59_exp_real",
    "Magnesia.C59_exp_imag",
    "Magnesia.C59_sin_real",
    "Magnesia.C59_cos_real",
    "Magnesia.C59_sinh_real",
    "Magnesia.C59_cosh_real",
    "Magnesia.C59_ln_conj",
    "Magnesia.C59_ln_neg",
    "Magnesia.C59_ln_overflow",
    "Magnesia.C59_ln_unit",
    "Magnesia.C59_sqrt_conj",
    "Magnesia.C59_sqrt_cut"
   ],
   "note": ""
  },
  {
   "property": "C60",
   "status": "proved",
   "theorems": [
    "Magnesia.C60_swap",
    "Magnesia.C60_neg",
    "Magnesia.C60_origin",
    "Magnesia.C60_flat",
    "Magnesia.C60_range",
    "Magnesia.C60_max",
    "Magnesia.C60_nan",
    "Magnesia.C60_minimum",
    "Magnesia.C60_accuracy_wide",
    "Magnesia.C60_accuracy"
   ],
   "note": ""
  },
  {
   "property": "C61",
   "status": "proved",
   "theorems": [
    "Magnesia.C61_confined",
    "Magnesia.C61_best",
    "Magnesia.C61_real",
    "Magnesia.C61_documented_assertion",
    "Magnesia.C61_more_iterations",
    "Magnesia.C61_returns"
   ],
   "note": ""
  },
  {
   "property": "C62",
   "status": "proved",
   "theorems": [
    "Magnesia.C62_matrix",
    "Magnesia.C62_vector",
    "Magnesia.C62_identity",
    "Magnesia.C62_returns",
    "Magnesia.C62_equal",
    "Magnesia.C62_add_laws",
    "Magnesia.C62_mul_laws",
    "Magnesia.C62_transpose_laws",
    "Magnesia.C62_hermitian_laws",
    "Magnesia.C62_diag_laws",
    "Magnesia.C62_vector_laws"
   ],
   "note": ""
  },
  {
   "property": "C63",
   "status": "proved",
   "theorems": [
    "Magnesia.C63_real_matrix",
    "Magnesia.C63_real_vector",
    "Magnesia.C63_complex_matrix",
    "Magnesia.C63_complex_vector",
    "Magnesia.C63_identity",
    "Magnesia.C63_triple_product"
   ],
   "note": ""
  },
  {
   "property": "C64",
   "status": "proved",
   "theorems": [
    "Magnesia.C64_independent",
    "Magnesia.C64_independent_events",
    "Magnesia.C64_champion",
    "Magnesia.C64_crossover_rate",
    "Magnesia.C64_distribution",
    "Magnesia.C64_fuel",
    "Magnesia.C64_probability",
    "Magnesia.C64_terminates",
    "Magnesia.C64_monotone",
    "Magnesia.C64_success",
    "Magnesia.C64_float"
   ],
   "note": ""
  },
  {
   "property": "C65",
   "status": "proved",
   "theorems": [
    "Magnesia.C65_programs",
    "Magnesia.C65_given",
    "Magnesia.C65_scalar",
    "Magnesia.C65_exact",
    "Magnesia.C65_two_ways",
    "Magnesia.C65_complex"
   ],
   "note": ""
  },
  {
   "property": "C66",
   "status": "proved",
   "theorems": [
    "Magnesia.C66_integers",
    "Magnesia.C66_complex",
    "Magnesia.C66_formats"
   ],
   "note": ""
  },
  {
   "property": "C67",
   "status": "proved",
   "theorems": [
    "Magnesia.C67_square",
    "Magnesia.C67_check"
   ],
   "note": ""
  },
  {
   "property": "C68",
   "status": "proved",
   "theorems": [
    "Magnesia.C68_coordinate",
    "Magnesia.C68_collapsed",
    "Magnesia.C68_affine_span",
    "Magnesia.C68_grid",
    "Magnesia.C68_float",
    "Magnesia.C68_float_collapsed"
   ],
   "note": ""
  },
  {
   "property": "C69",
   "status": "proved",
   "theorems": [
    "Magnesia.C69_formulas",
    "Magnesia.C69_two_ways",
    "Magnesia.C69_tan",
    "Magnesia.C69_exp_add",
    "Magnesia.C69_pythagoras",
    "Magnesia.C69_exp_ln",
    "Magnesia.C69_sqrt_sq",
    "Magnesia.C69_mul_div"
   ],
   "note": ""
  },
  {
   "property": "C70",
   "status": "proved",
   "theorems": [
    "Magnesia.C70_ln_mul",
    "Magnesia.C70_test",
    "Magnesia.C70_test_zero"
   ],
   "note": ""
  },
  {
   "property": "C71",
   "status": "proved",
   "theorems": [
    "Magnesia.C71_product_coefficient",
    "Magnesia.C71_polynomial",
    "Magnesia.C71_polynomial_complex",
    "Magnesia.C71_number",
    "Magnesia.C71_number_complex",
    "Magnesia.C71_two_ways",
    "Magnesia.C71_two_ways_number",
    "Magnesia.C71_product_error",
    "Magnesia.C71_ring_laws",
    "Magnesia.C71_eval_homomorphism"
   ],
   "note": ""
  },
  {
   "property": "C72",
   "status": "proved",
   "theorems": [
    "Magnesia.C72_sin",
    "Magnesia.C72_cos",
    "Magnesia.C72_sinh",
    "Magnesia.C72_cosh",
    "Magnesia.C72_sin_test",
    "Magnesia.C72_sinh_test",
    "Magnesia.C72_cos_test",
    "Magnesia.C72_cosh_test"
   ],
   "note": ""
  },
  {
   "property": "C73",
   "status": "proved",
   "theorems": [
    "Magnesia.C73_horner",
    "Magnesia.C73_horner_complex",
    "Magnesia.C73_root",
    "Magnesia.C73_dot",
    "Magnesia.C73_dot_complex",
    "Magnesia.C73_dvector_dot_complex",
    "Magnesia.C73_dvector_dot",
    "Magnesia.C73_mul_vec",
    "Magnesia.C73_mul_vec_complex",
    "Magnesia.C73_smatrix_mul",
    "Magnesia.C73_dmatrix_mul",
    "Magnesia.C73_sqrt"
   ],
   "note": ""
  },
  {
   "property": "C74",
   "status": "proved",
   "theorems": [
    "Magnesia.C74_eval",
    "Magnesia.C74_dot",
    "Magnesia.C74_dot_term",
    "Magnesia.C74_dvector_dot",
    "Magnesia.C74_mul_vec",
    "Magnesia.C74_smatrix_mul",
    "Magnesia.C74_dmatrix_mul",
    "Magnesia.C74_polynomial_mul",
    "Magnesia.C74_add_sub"
   ],
   "note": ""
  },
  {
   "property": "C75",
   "status": "proved",
   "theorems": [
    "Magnesia.C75_inner_conj",
    "Magnesia.C75_inner_self",
    "Magnesia.C75_inner_positive",
    "Magnesia.C75_gram",
    "Magnesia.C75_gram_complex"
   ],
   "note": ""
  },
  {
   "property": "C76",
   "status": "proved",
   "theorems": [
    "Magnesia.C76_recoded",
    "Magnesia.C76_permute",
    "Magnesia.C76_symmetric",
    "Magnesia.C76_affine",
    "Magnesia.C76_float"
   ],
   "note": ""
  },
  {
   "property": "C77",
   "status": "proved",
   "theorems": [
    "Magnesia.C77_counting_harmless",
    "Magnesia.C77_defined",
    "Magnesia.C77_unique",
    "Magnesia.C77_at_least",
    "Magnesia.C77_at_most",
    "Magnesia.C77_expected",
    "Magnesia.C77_expected_float",
    "Magnesia.C77_population",
    "Magnesia.C77_per_iteration"
   ],
   "note": ""
  },
  {
   "property": "C78",
   "status": "proved",
   "theorems": [
    "Magnesia.C78_generic",
    "Magnesia.C78_oblivious",
    "Magnesia.C78_panics",
    "Magnesia.C78_intervals",
    "Magnesia.C78_count_complex",
    "Magnesia.C78_count_eval",
    "Magnesia.C78_count_poly_mul",
    "Magnesia.C78_count_dot",
    "Magnesia.C78_count_smatrix_mul",
    "Magnesia.C78_count_mul_vec",
    "Magnesia.C78_count_dvector_dot",
    "Magnesia.C78_count_dmatrix_mul"
   ],
   "note": ""
  },
  {
   "property": "C79",
   "status": "proved",
   "theorems": [
    "Magnesia.C79_dual",
    "Magnesia.C79_poly_derivative"
   ],
   "note": ""
  },
  {
   "property": "C80",
   "status": "proved",
   "theorems": [
    "Magnesia.C80_optimize",
    "Magnesia.C80_units",
    "Magnesia.C80_dot",
    "Magnesia.C80_smatrix_mul",
    "Magnesia.C80_dvector_dot",
    "Magnesia.C80_dmatrix_mul",
    "Magnesia.C80_add_sub",
    "Magnesia.C80_complex_mul_div",
    "Magnesia.C80_complex_abs",
    "Magnesia.C80_complex_sqrt"
   ],
   "note": ""
  },
  {
   "property": "C81",
   "status": "proved",
   "theorems": [
    "Magnesia.C81_confined",
    "Magnesia.C81_failure",
    "Magnesia.C81_stuck",
    "Magnesia.C81_stuck_float",
    "Magnesia.C81_no_guarantee"
   ],
   "note": ""
  },
  {
   "property": "C82",
   "status": "proved",
   "theorems": [
    "Magnesia.C82_programs",
    "Magnesia.C82_complex",
    "Magnesia.C82_float",
    "Magnesia.C82_numbers",
    "Magnesia.C82_dot",
    "Magnesia.C82_dot_iff",
    "Magnesia.C82_smatrix_mul",
    "Magnesia.C82_smatrix_mul_iff",
    "Magnesia.C82_mul_vec",
    "Magnesia.C82_mul_vec_iff",
    "Magnesia.C82_dvector_dot",
    "Magnesia.C82_dvector_dot_iff",
    "Magnesia.C82_dmatrix_mul",
    "Magnesia.C82_dmatrix_mul_iff",
    "Magnesia.C82_eval",
    "Magnesia.C82_eval_iff",
    "Magnesia.C82_poly_mul",
    "Magnesia.C82_poly_mul_iff",
    "Magnesia.C82_complex_mul"
   ],
   "note": ""
  },
  {
   "property": "C83",
   "status": "proved",
   "theorems": [
    "Magnesia.C83_alike_within",
    "Magnesia.C83_exact",
    "Magnesia.C83_stays_on_grid",
    "Magnesia.C83_sizes",
    "Magnesia.C83_sharp"
   ],
   "note": ""
  },
  {
   "property": "C84",
   "status": "proved",
   "theorems": [
    "Magnesia.C84_eval_vec",
    "Magnesia.C84_eval_mat",
    "Magnesia.C84_lazy",
    "Magnesia.C84_entry_vec",
    "Magnesia.C84_entry_mat",
    "Magnesia.C84_addAssign_vec",
    "Magnesia.C84_subAssign_vec",
    "Magnesia.C84_addAssign_mat",
    "Magnesia.C84_subAssign_mat",
    "Magnesia.C84_once_vec",
    "Magnesia.C84_once_mat",
    "Magnesia.C84_make",
    "Magnesia.C84_steady_vec",
    "Magnesia.C84_steady_mat",
    "Magnesia.C84_steady_addAssign_vec",
    "Magnesia.C84_steady_subAssign_vec",
    "Magnesia.C84_steady_addAssign_mat",
    "Magnesia.C84_steady_subAssign_mat"
   ],
   "note": ""
  },
  {
   "property": "C85",
   "status": "proved",
   "theorems": [
    "Magnesia.C85_programs",
    "Magnesia.C85_complex",
    "Magnesia.C85_numbers",
    "Magnesia.C85_dot",
    "Magnesia.C85_smatrix_mul",
    "Magnesia.C85_mul_vec",
    "Magnesia.C85_dvector_dot",
    "Magnesia.C85_dmatrix_mul",
    "Magnesia.C85_eval",
    "Magnesia.C85_eval_integer",
    "Magnesia.C85_poly_mul",
    "Magnesia.C85_complex_mul",
    "Magnesia.C85_sizes",
    "Magnesia.C85_sharp"
   ],
   "note": ""
  },
  {
   "property": "C86",
   "status": "proved",
   "theorems": [
    "Magnesia.C86_test_zero",
    "Magnesia.C86_tan_add",
    "Magnesia.C86_test",
    "Magnesia.C86_test_fails"
   ],
   "note": ""
  },
  {
   "property": "C87",
   "status": "proved",
   "theorems": [
    "Magnesia.C87_apriori",
    "Magnesia.C87_two_ways",
    "Magnesia.C87_div",
    "Magnesia.C87_sqrt",
    "Magnesia.C87_converges",
    "Magnesia.C87_precision"
   ],
   "note": ""
  },
  {
   "property": "C88",
   "status": "proved",
   "theorems": [
    "Magnesia.C88_law",
    "Magnesia.C88_mean",
    "Magnesia.C88_spread",
    "Magnesia.C88_average_mean",
    "Magnesia.C88_average_spread",
    "Magnesia.C88_ignored"
   ],
   "note": ""
  },
  {
   "property": "C89",
   "status": "proved",
   "theorems": [
    "Magnesia.C89_total",
    "Magnesia.C89_tolerance",
    "Magnesia.C89_approximate",
    "Magnesia.C89_float",
    "Magnesia.C89_attained"
   ],
   "note": ""
  },
  {
   "property": "C90",
   "status": "proved",
   "theorems": [
    "Magnesia.C90_zeros",
    "Magnesia.C90_signs",
    "Magnesia.C90_turns",
    "Magnesia.C90_conj",
    "Magnesia.C90_real",
    "Magnesia.C90_dot",
    "Magnesia.C90_smatrix_mul",
    "Magnesia.C90_eval",
    "Magnesia.C90_complex_dot",
    "Magnesia.C90_complex_eval"
   ],
   "note": ""
  },
  {
   "property": "C91",
   "status": "proved",
   "theorems": [
    "Magnesia.C91_values_polynomial",
    "Magnesia.C91_values_complex",
    "Magnesia.C91_values_svector",
    "Magnesia.C91_values_smatrix",
    "Magnesia.C91_values_dynamic",
    "Magnesia.C91_log_polynomial",
    "Magnesia.C91_log_complex",
    "Magnesia.C91_log_svector",
    "Magnesia.C91_log_smatrix",
    "Magnesia.C91_log_dynamic",
    "Magnesia.C91_logged",
    "Magnesia.C91_counts"
   ],
   "note": ""
  },
  {
   "property": "C92",
   "status": "proved",
   "theorems": [
    "Magnesia.C92_polynomial",
    "Magnesia.C92_complex",
    "Magnesia.C92_svector",
    "Magnesia.C92_smatrix",
    "Magnesia.C92_dynamic",
    "Magnesia.C92_tape",
    "Magnesia.C92_record_eval",
    "Magnesia.C92_record_matrix"
   ],
   "note": ""
  },
  {
   "property": "C93",
   "status": "proved",
   "theorems": [
    "Magnesia.C93_mul_error",
    "Magnesia.C93_mul_error_normal",
    "Magnesia.C93_sharp_f32",
    "Magnesia.C93_sharp_f64",
    "Magnesia.C93_horner_error",
    "Magnesia.C93_dot_error",
    "Magnesia.C93_smatrix_mul_error",
    "Magnesia.C93_dmatrix_mul_error",
    "Magnesia.C93_div_error",
    "Magnesia.C93_div_constant"
   ],
   "note": ""
  },
  {
   "property": "C94",
   "status": "proved",
   "theorems": [
    "Magnesia.C94_nearest",
    "Magnesia.C94_dot_error",
    "Magnesia.C94_dvector_dot_error",
    "Magnesia.C94_smatrix_mul_error",
    "Magnesia.C94_mul_vec_error",
    "Magnesia.C94_dmatrix_mul_error",
    "Magnesia.C94_dot_nonneg",
    "Magnesia.C94_dot_sharp",
    "Magnesia.C94_complex_dot_error",
    "Magnesia.C94_complex_smatrix_mul_error",
    "Magnesia.C94_complex_dmatrix_mul_error"
   ],
   "note": ""
  },
  {
   "property": "C95",
   "status": "proved",
   "theorems": [
    "Magnesia.C95_columns",
    "Magnesia.C95_submatrix",
    "Magnesia.C95_row_column",
    "Magnesia.C95_dynamic_submatrix",
    "Magnesia.C95_polynomial_dot",
    "Magnesia.C95_static_dynamic",
    "Magnesia.C95_complex_static_dynamic",
    "Magnesia.C95_vector_dot",
    "Magnesia.C95_complex_vector_dot",
    "Magnesia.C95_transpose",
    "Magnesia.C95_sparse_dot",
    "Magnesia.C95_complex_sparse_dot",
    "Magnesia.C95_padding",
    "Magnesia.C95_leading_zeros",
    "Magnesia.C95_leading_zero_at_infinity"
   ],
   "note": ""
  },
  {
   "property": "C96",
   "status": "proved",
   "theorems": [
    "Magnesia.C96_dot_finite",
    "Magnesia.C96_dot_sticky",
    "Magnesia.C96_dot_nan",
    "Magnesia.C96_dot_infinite",
    "Magnesia.C96_dot_nan_entry",
    "Magnesia.C96_smatrix_finite",
    "Magnesia.C96_smatrix_nan",
    "Magnesia.C96_mul_vec",
    "Magnesia.C96_dmatrix",
    "Magnesia.C96_eval_finite",
    "Magnesia.C96_eval_nan",
    "Magnesia.C96_polynomial_finite",
    "Magnesia.C96_polynomial_nan",
    "Magnesia.C96_complex_finite",
    "Magnesia.C96_modulus_finite",
    "Magnesia.C96_complex_dot_finite",
    "Magnesia.C96_complex_smatrix_finite",
    "Magnesia.C96_complex_dmatrix_finite",
    "Magnesia.C96_division_hides"
   ],
   "note": ""
  },
  {
   "property": "C97",
   "status": "proved",
   "theorems": [
    "Magnesia.C97_composition",
    "Magnesia.C97_two_variables",
    "Magnesia.C97_exchange",
    "Magnesia.C97_matrices_of_polynomials",
    "Magnesia.C97_polynomials_of_matrices",
    "Magnesia.C97_complex_coefficients",
    "Magnesia.C97_blocks",
    "Magnesia.C97_cayley_hamilton",
    "Magnesia.C97_agree",
    "Magnesia.C97_complex_as_matrix"
   ],
   "note": ""
  },
  {
   "property": "C98",
   "status": "proved",
   "theorems": [
    "Magnesia.C98_programs",
    "Magnesia.C98_midpoints",
    "Magnesia.C98_scalar",
    "Magnesia.C98_sign",
    "Magnesia.C98_tight"
   ],
   "note": ""
  },
  {
   "property": "C99",
   "status": "proved",
   "theorems": [
    "Magnesia.C99_no_overflow",
    "Magnesia.C99_errors",
    "Magnesia.C99_depth",
    "Magnesia.C99_scalar"
   ],
   "note": ""
  },
  {
   "property": "C100",
   "status": "proved",
   "theorems": [
    "Magnesia.C100_right_product",
    "Magnesia.C100_wrong_product",
    "Magnesia.C100_repeated",
    "Magnesia.C100_dynamic",
    "Magnesia.C100_polynomial"
   ],
   "note": ""
  },
  {
   "property": "C101",
   "status": "proved",
   "theorems": [
    "Magnesia.C101_machines",
    "Magnesia.C101_machines_panics",
    "Magnesia.C101_release",
    "Magnesia.C101_release_complex",
    "Magnesia.C101_wider",
    "Magnesia.C101_wider_complex",
    "Magnesia.C101_release_panics",
    "Magnesia.C101_release_complex_panics",
    "Magnesia.C101_wider_panics",
    "Magnesia.C101_wider_complex_panics",
    "Magnesia.C101_cast",
    "Magnesia.C101_narrower"
   ],
   "note": ""
  }
 ]
}