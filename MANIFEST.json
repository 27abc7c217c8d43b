{
 "claims": [
  {
   "property": "C01",
   "status": "proved",
   "theorems": [
    "Verif.Props.C01_rowMajor_bijection"
   ],
   "note": ""
  },
  {
   "property": "C02",
   "status": "proved",
   "theorems": [
    "Verif.Props.C02_array_is_a_map"
   ],
   "note": ""
  },
  {
   "property": "C03",
   "status": "proved",
   "theorems": [
    "Verif.Props.C03_brackets_eq_parens",
    "Verif.Props.C03_too_many"
   ],
   "note": ""
  },
  {
   "property": "C04",
   "status": "proved",
   "theorems": [
    "Verif.Props.C04_bounds_check",
    "Verif.Props.C04_unchecked_aliases"
   ],
   "note": ""
  },
  {
   "property": "C05",
   "status": "proved",
   "theorems": [
    "Verif.Props.C05_compile_time_accessor"
   ],
   "note": ""
  },
  {
   "property": "C06",
   "status": "proved",
   "theorems": [
    "Verif.Props.C06_no_overflow",
    "Verif.Props.C06_size_defined_iff"
   ],
   "note": ""
  },
  {
   "property": "C07",
   "status": "partial",
   "theorems": [
    "Verif.Props.C07_violated",
    "Verif.Props.C07_accepted_iff",
    "Verif.Props.C07_partial"
   ],
   "note": "False as stated: C07_violated gives the witness, C07_accepted_iff the exact set accepted, C07_partial what holds."
  },
  {
   "property": "C08",
   "status": "proved",
   "theorems": [
    "Verif.Props.C08_list_init"
   ],
   "note": ""
  },
  {
   "property": "C09",
   "status": "proved",
   "theorems": [
    "Verif.Props.C09_rank_extent_size"
   ],
   "note": ""
  },
  {
   "property": "C10",
   "status": "proved",
   "theorems": [
    "Verif.Props.C10_forSequence"
   ],
   "note": ""
  },
  {
   "property": "C11",
   "status": "proved",
   "theorems": [
    "Verif.Props.C11_forNestedSequence"
   ],
   "note": ""
  },
  {
   "property": "C12",
   "status": "proved",
   "theorems": [
    "Verif.Props.C12_nested_loop_is_storage_order"
   ],
   "note": ""
  },
  {
   "property": "C13",
   "status": "proved",
   "theorems": [
    "Verif.Props.C13_forRange",
    "Verif.Props.C13_forRange_eq_forNestedSequence"
   ],
   "note": ""
  },
  {
   "property": "C14",
   "status": "proved",
   "theorems": [
    "Verif.Props.C14_forRange_exhausts"
   ],
   "note": ""
  },
  {
   "property": "C15",
   "status": "partial",
   "theorems": [
    "Verif.Props.C15_violated",
    "Verif.Props.C15_value",
    "Verif.Props.C15_partial",
    "Verif.Props.C15_numbering_iff_palindrome"
   ],
   "note": "False as stated: C15_violated. C15_value gives the exact value, C15_numbering_iff_palindrome when it is a numbering."
  },
  {
   "property": "C16",
   "status": "partial",
   "theorems": [
    "Verif.Props.C16_violated",
    "Verif.Props.C16_partial",
    "Verif.Props.C16_no_args"
   ],
   "note": "False as stated: C16_violated. C16_partial covers callables insensitive to the order of the two groups, C16_no_args calls without extra arguments."
  },
  {
   "property": "C17",
   "status": "proved",
   "theorems": [
    "Verif.Props.C17_pow",
    "Verif.Props.C17_pow_real",
    "Verif.Props.C17_factorial",
    "Verif.Props.C17_binomialCoefficient"
   ],
   "note": ""
  },
  {
   "property": "C18",
   "status": "proved",
   "theorems": [
    "Verif.Props.C18_numMCubes",
    "Verif.Props.C18_named_counts"
   ],
   "note": ""
  },
  {
   "property": "C19",
   "status": "proved",
   "theorems": [
    "Verif.Props.C19_numMSimplexes",
    "Verif.Props.C19_every_m",
    "Verif.Props.C19_named_counts"
   ],
   "note": ""
  },
  {
   "property": "C20",
   "status": "partial",
   "theorems": [
    "Verif.Props.C20_violated",
    "Verif.Props.C20_defined_iff",
    "Verif.Props.C20_partial"
   ],
   "note": "False as stated: C20_violated. C20_defined_iff gives exactly when the counts are defined, C20_partial what holds."
  },
  {
   "property": "C21",
   "status": "proved",
   "theorems": [
    "Verif.Props.C21_ncube_volume",
    "Verif.Props.C21_length_overflow"
   ],
   "note": ""
  },
  {
   "property": "C22",
   "status": "proved",
   "theorems": [
    "Verif.Props.C22_nsimplex_volume"
   ],
   "note": ""
  },
  {
   "property": "C23",
   "status": "proved",
   "theorems": [
    "Verif.Props.C23_equalSpacing",
    "Verif.Props.C23_numPoints"
   ],
   "note": ""
  },
  {
   "property": "C24",
   "status": "proved",
   "theorems": [
    "Verif.Props.C24_gaussLegendre_coordinates",
    "Verif.Props.C24_gaussLobatto_coordinates",
    "Verif.Props.C24_numPoints"
   ],
   "note": ""
  },
  {
   "property": "C25",
   "status": "partial",
   "theorems": [
    "Verif.Props.C25_violated",
    "Verif.Props.C25_partial"
   ],
   "note": "False as stated: C25_violated (Gauss-Lobatto, 6 to 9 points). C25_partial covers every other supported case."
  },
  {
   "property": "C26",
   "status": "proved",
   "theorems": [
    "Verif.Props.C26_gaussLegendre_nodes",
    "Verif.Props.C26_gaussLobatto_nodes"
   ],
   "note": ""
  },
  {
   "property": "C27",
   "status": "proved",
   "theorems": [
    "Verif.Props.C27_weights_agree"
   ],
   "note": ""
  },
  {
   "property": "C28",
   "status": "partial",
   "theorems": [
    "Verif.Props.C28_violated",
    "Verif.Props.C28_partial"
   ],
   "note": "Exact symmetry is false for the 8-point Gauss-Lobatto rule: C28_violated. C28_partial covers positivity, the sum, and symmetry elsewhere."
  },
  {
   "property": "C29",
   "status": "proved",
   "theorems": [
    "Verif.Props.C29_gaussLegendre_exact",
    "Verif.Props.C29_gaussLegendre_exact_runtime"
   ],
   "note": ""
  },
  {
   "property": "C30",
   "status": "proved",
   "theorems": [
    "Verif.Props.C30_gaussLobatto_exact",
    "Verif.Props.C30_gaussLobatto_exact_runtime"
   ],
   "note": ""
  },
  {
   "property": "C31",
   "status": "partial",
   "theorems": [
    "Verif.Props.C31_weights_partial",
    "Verif.Props.C31_violated"
   ],
   "note": "False for coordinates: C31_violated. C31_weights_partial covers weights."
  },
  {
   "property": "C32",
   "status": "proved",
   "theorems": [
    "Verif.Props.C32_kronecker"
   ],
   "note": ""
  },
  {
   "property": "C33",
   "status": "proved",
   "theorems": [
    "Verif.Props.C33_partition_of_unity"
   ],
   "note": ""
  },
  {
   "property": "C34",
   "status": "proved",
   "theorems": [
    "Verif.Props.C34_gradient_is_derivative"
   ],
   "note": ""
  },
  {
   "property": "C35",
   "status": "proved",
   "theorems": [
    "Verif.Props.C35_reproduction",
    "Verif.Props.C35_unique"
   ],
   "note": ""
  },
  {
   "property": "C36",
   "status": "proved",
   "theorems": [
    "Verif.Props.C36_supported_nodes",
    "Verif.Props.C36_compiles_iff_supported"
   ],
   "note": ""
  },
  {
   "property": "C37",
   "status": "proved",
   "theorems": [
    "Verif.Props.C37_mirror"
   ],
   "note": ""
  },
  {
   "property": "C38",
   "status": "proved",
   "theorems": [
    "Verif.Props.C38_value_is_product",
    "Verif.Props.C38_nodal",
    "Verif.Props.C38_partition_of_unity",
    "Verif.Props.C38_mismatch",
    "Verif.Props.C38_supported_elements"
   ],
   "note": ""
  },
  {
   "property": "C39",
   "status": "proved",
   "theorems": [
    "Verif.Props.C39_gradient_is_derivative"
   ],
   "note": ""
  },
  {
   "property": "C40",
   "status": "proved",
   "theorems": [
    "Verif.Props.C40_interpolation_nodal",
    "Verif.Props.C40_array_variable"
   ],
   "note": ""
  },
  {
   "property": "C41",
   "status": "proved",
   "theorems": [
    "Verif.Props.C41_linear",
    "Verif.Props.C41_constant"
   ],
   "note": ""
  },
  {
   "property": "C42",
   "status": "proved",
   "theorems": [
    "Verif.Props.C42_interpolation_gradient"
   ],
   "note": ""
  },
  {
   "property": "C43",
   "status": "proved",
   "theorems": [
    "Verif.Props.C43_polynomial_reproduction"
   ],
   "note": ""
  },
  {
   "property": "C44",
   "status": "proved",
   "theorems": [
    "Verif.Props.C44_inverse_native",
    "Verif.Props.C44_inverse_carray"
   ],
   "note": ""
  },
  {
   "property": "C45",
   "status": "proved",
   "theorems": [
    "Verif.Props.C45_overloads_agree"
   ],
   "note": ""
  },
  {
   "property": "C46",
   "status": "proved",
   "theorems": [
    "Verif.Props.C46_getData",
    "Verif.Props.C46_jacobian",
    "Verif.Props.C46_inverseJacobian"
   ],
   "note": ""
  },
  {
   "property": "C47",
   "status": "proved",
   "theorems": [
    "Verif.Props.C47_getData",
    "Verif.Props.C47_jacobian_and_inverse",
    "Verif.Props.C47_agrees_with_scaling"
   ],
   "note": ""
  },
  {
   "property": "C48",
   "status": "proved",
   "theorems": [
    "Verif.Props.C48_setData"
   ],
   "note": ""
  },
  {
   "property": "C49",
   "status": "proved",
   "theorems": [
    "Verif.Props.C49_jacobian_is_derivative",
    "Verif.Props.C49_wrapper"
   ],
   "note": ""
  },
  {
   "property": "C50",
   "status": "proved",
   "theorems": [
    "Verif.Props.C50_quadrature_overload",
    "Verif.Props.C50_quadrature_overload_lagrange",
    "Verif.Props.C50_more_than_three"
   ],
   "note": ""
  },
  {
   "property": "C51",
   "status": "partial",
   "theorems": [
    "Verif.Props.C51_jacobian_violated",
    "Verif.Props.C51_outputs_partial"
   ],
   "note": "False as stated for LinearTransform: C51_jacobian_violated. C51_outputs_partial gives the exact dependence on the initial contents, and the property for both scalings."
  },
  {
   "property": "C52",
   "status": "proved",
   "theorems": [
    "Verif.Props.C52_inverseJacobian"
   ],
   "note": ""
  },
  {
   "property": "C53",
   "status": "proved",
   "theorems": [
    "Verif.Props.C53_affine",
    "Verif.Props.C53_trilinear"
   ],
   "note": ""
  },
  {
   "property": "C54",
   "status": "proved",
   "theorems": [
    "Verif.Props.C54_boxes"
   ],
   "note": ""
  },
  {
   "property": "C55",
   "status": "partial",
   "theorems": [
    "Verif.Props.C55_inverseJacobian_2d_violated",
    "Verif.Props.C55_jacobian_2d_partial"
   ],
   "note": "False as stated: C55_inverseJacobian_2d_violated, for every 2-D transform and configuration. C55_jacobian_2d_partial covers jacobian."
  },
  {
   "property": "C56",
   "status": "partial",
   "theorems": [
    "Verif.Props.C56_setData_partial",
    "Verif.Props.C56_setData_violated",
    "Verif.Props.C56_setData_builtin"
   ],
   "note": "False as stated: C56_setData_violated. C56_setData_partial gives what is stored, and exactly for which numbers of support points the rows are distinct."
  },
  {
   "property": "C57",
   "status": "proved",
   "theorems": [
    "Verif.Props.C57_check",
    "Verif.Props.C57_consequences",
    "Verif.Props.C57_rounded",
    "Verif.Props.C57_rounded_underflow"
   ],
   "note": ""
  },
  {
   "property": "C58",
   "status": "partial",
   "theorems": [
    "Verif.Props.C58_same_effect",
    "Verif.Props.C58_no_leak",
    "Verif.Props.C58_abort_iff",
    "Verif.Props.C58_same_effect_no_data",
    "Verif.Props.C58_abort_iff_no_data",
    "Verif.Props.C58_deallocateData",
    "Verif.Props.C58_hip_violated",
    "Verif.Props.C58_launch_failure_violated"
   ],
   "note": "The overload with data does not compile in HIP builds (C58_hip_violated), and a kernel that is never started goes unnoticed (C58_launch_failure_violated). The other theorems cover host and CUDA builds, and the overload without data in all builds."
  },
  {
   "property": "C59",
   "status": "partial",
   "theorems": [
    "Verif.Props.C59_no_effect",
    "Verif.Props.C59_terminates_partial",
    "Verif.Props.C59_never_continues",
    "Verif.Props.C59_returns_iff",
    "Verif.Props.C59_builtin_format",
    "Verif.Props.C59_builtin_check",
    "Verif.Props.C59_device_format_violated"
   ],
   "note": "Device branch formats the message without its arguments: C59_device_format_violated. C59_terminates_partial says exactly when a violated assertion just terminates."
  },
  {
   "property": "C60",
   "status": "proved",
   "theorems": [
    "Verif.Props.C60_bound_first_order",
    "Verif.Props.C60_value_error",
    "Verif.Props.C60_nodes",
    "Verif.Props.C60_binaryRound"
   ],
   "note": ""
  },
  {
   "property": "C61",
   "status": "proved",
   "theorems": [
    "Verif.Props.C61_interpolation_error",
    "Verif.Props.C61_basis_error"
   ],
   "note": ""
  },
  {
   "property": "C62",
   "status": "proved",
   "theorems": [
    "Verif.Props.C62_gradient_error",
    "Verif.Props.C62_interpolation_gradient_error"
   ],
   "note": ""
  },
  {
   "property": "C63",
   "status": "proved",
   "theorems": [
    "Verif.Props.C63_coordinates",
    "Verif.Props.C63_nodes"
   ],
   "note": ""
  },
  {
   "property": "C64",
   "status": "proved",
   "theorems": [
    "Verif.Props.C64_gaussLegendre",
    "Verif.Props.C64_gaussLobatto"
   ],
   "note": ""
  },
  {
   "property": "C65",
   "status": "proved",
   "theorems": [
    "Verif.Props.C65_tensor_rule",
    "Verif.Props.C65_tensor_rule_rounded"
   ],
   "note": ""
  },
  {
   "property": "C66",
   "status": "proved",
   "theorems": [
    "Verif.Props.C66_volume",
    "Verif.Props.C66_trilinear"
   ],
   "note": ""
  },
  {
   "property": "C67",
   "status": "proved",
   "theorems": [
    "Verif.Props.C67_pack_element"
   ],
   "note": ""
  },
  {
   "property": "C68",
   "status": "proved",
   "theorems": [
    "Verif.Props.C68_forSequence_value",
    "Verif.Props.C68_same_calls"
   ],
   "note": ""
  },
  {
   "property": "C69",
   "status": "partial",
   "theorems": [
    "Verif.Props.C69_bracket_violated",
    "Verif.Props.C69_paren_partial",
    "Verif.Props.C69_bracket_partial",
    "Verif.Props.C69_bracket_wraps"
   ],
   "note": "False for operator[] with 64-bit indices: C69_bracket_violated. C69_paren_partial covers operator(), C69_bracket_partial and C69_bracket_wraps say exactly what operator[] does."
  },
  {
   "property": "C70",
   "status": "proved",
   "theorems": [
    "Verif.Props.C70_const_correct",
    "Verif.Props.C70_const_view_is_shallow"
   ],
   "note": ""
  },
  {
   "property": "C71",
   "status": "partial",
   "theorems": [
    "Verif.Props.C71_view_size_violated",
    "Verif.Props.C71_view_partial"
   ],
   "note": "The length is not checked: C71_view_size_violated. C71_view_partial says exactly what is accepted and which accesses are defined."
  },
  {
   "property": "C72",
   "status": "partial",
   "theorems": [
    "Verif.Props.C72_scalarView_violated",
    "Verif.Props.C72_aliases_partial"
   ],
   "note": "False for ScalarView: C72_scalarView_violated. C72_aliases_partial covers the other aliases."
  },
  {
   "property": "C73",
   "status": "proved",
   "theorems": [
    "Verif.Props.C73_inverse_native_error",
    "Verif.Props.C73_inverse_error",
    "Verif.Props.C73_inverse_carray_error"
   ],
   "note": ""
  },
  {
   "property": "C74",
   "status": "proved",
   "theorems": [
    "Verif.Props.C74_jacobian_error"
   ],
   "note": ""
  },
  {
   "property": "C75",
   "status": "proved",
   "theorems": [
    "Verif.Props.C75_inverseJacobian_error"
   ],
   "note": ""
  },
  {
   "property": "C76",
   "status": "proved",
   "theorems": [
    "Verif.Props.C76_trace",
    "Verif.Props.C76_neighbours",
    "Verif.Props.C76_end_nodes",
    "Verif.Props.C76_gaussLegendre_not_conforming",
    "Verif.Props.C76_any_orientation"
   ],
   "note": ""
  },
  {
   "property": "C77",
   "status": "proved",
   "theorems": [
    "Verif.Props.C77_symmetry"
   ],
   "note": ""
  },
  {
   "property": "C78",
   "status": "proved",
   "theorems": [
    "Verif.Props.C78_bounds",
    "Verif.Props.C78_order_two_overshoots"
   ],
   "note": ""
  },
  {
   "property": "C79",
   "status": "proved",
   "theorems": [
    "Verif.Props.C79_jacobian",
    "Verif.Props.C79_determinant"
   ],
   "note": ""
  },
  {
   "property": "C80",
   "status": "proved",
   "theorems": [
    "Verif.Props.C80_integral",
    "Verif.Props.C80_polynomial"
   ],
   "note": ""
  },
  {
   "property": "C81",
   "status": "proved",
   "theorems": [
    "Verif.Props.C81_basis",
    "Verif.Props.C81_interpolation",
    "Verif.Props.C81_shape",
    "Verif.Props.C81_interpolation_gradient",
    "Verif.Props.C81_inverse",
    "Verif.Props.C81_inverse_carray",
    "Verif.Props.C81_jacobian",
    "Verif.Props.C81_inverseJacobian"
   ],
   "note": "Every operation is done in one format. C88 shows that this is faithful for float too."
  },
  {
   "property": "C82",
   "status": "proved",
   "theorems": [
    "Verif.Props.C82_coordinates",
    "Verif.Props.C82_element",
    "Verif.Props.C82_gaussLegendre",
    "Verif.Props.C82_gaussLobatto"
   ],
   "note": "Every operation is done in one format. Faithful for double; for float as C++ evaluates it see C87 and C88."
  },
  {
   "property": "C83",
   "status": "proved",
   "theorems": [
    "Verif.Props.C83_inverse_double",
    "Verif.Props.C83_inverse_float",
    "Verif.Props.C83_inverse_carray"
   ],
   "note": ""
  },
  {
   "property": "C84",
   "status": "partial",
   "theorems": [
    "Verif.Props.C84_overflow",
    "Verif.Props.C84_violated",
    "Verif.Props.C84_partial"
   ],
   "note": "False as stated: C84_violated, with the computed result in C84_overflow. C84_partial covers entries of moderate size."
  },
  {
   "property": "C85",
   "status": "partial",
   "theorems": [
    "Verif.Props.C85_coordinates_partial",
    "Verif.Props.C85_weights_partial",
    "Verif.Props.C85_violated",
    "Verif.Props.C85_close_partial"
   ],
   "note": "False as stated: C85_violated (4-point Lobatto rule in double). The partial theorems cover everything else; C85_close_partial bounds the difference."
  },
  {
   "property": "C86",
   "status": "partial",
   "theorems": [
    "Verif.Props.C86_gauss_partial",
    "Verif.Props.C86_equal_first_partial",
    "Verif.Props.C86_equal_last_partial",
    "Verif.Props.C86_equal_power_partial",
    "Verif.Props.C86_violated"
   ],
   "note": "False as stated: C86_violated. The partial theorems give what holds: Gauss coordinates, weights other than 8-point Lobatto in double, first point always, last point up to 41 or 49 points, sizes 2^k+1."
  },
  {
   "property": "C87",
   "status": "proved",
   "theorems": [
    "Verif.Props.C87_rules",
    "Verif.Props.C87_rules_runtime"
   ],
   "note": ""
  },
  {
   "property": "C88",
   "status": "proved",
   "theorems": [
    "Verif.Props.C88_basis",
    "Verif.Props.C88_double",
    "Verif.Props.C88_points",
    "Verif.Props.C88_element"
   ],
   "note": ""
  },
  {
   "property": "C89",
   "status": "proved",
   "theorems": [
    "Verif.Props.C89_jacobian",
    "Verif.Props.C89_inverse",
    "Verif.Props.C89_determinant",
    "Verif.Props.C89_uniform"
   ],
   "note": ""
  },
  {
   "property": "C90",
   "status": "partial",
   "theorems": [
    "Verif.Props.C90_exact_rule",
    "Verif.Props.C90_literals",
    "Verif.Props.C90_accurate_partial",
    "Verif.Props.C90_runtime",
    "Verif.Props.C90_violated",
    "Verif.Props.C90_accurate_violated"
   ],
   "note": "False as stated: C90_violated (double, six to nine Lobatto points). C90_accurate_partial covers float, and double up to five points; C90_literals bounds the error of all literals."
  },
  {
   "property": "C91",
   "status": "proved",
   "theorems": [
    "Verif.Props.C91_numbers",
    "Verif.Props.C91_overflow",
    "Verif.Props.C91_unique",
    "Verif.Props.C91_operations",
    "Verif.Props.C91_conversions",
    "Verif.Props.C91_sticky"
   ],
   "note": ""
  },
  {
   "property": "C92",
   "status": "partial",
   "theorems": [
    "Verif.Props.C92_int",
    "Verif.Props.C92_linearIndex_partial",
    "Verif.Props.C92_linearIndex_stride",
    "Verif.Props.C92_linearIndex_violated",
    "Verif.Props.C92_forRange_violated",
    "Verif.Props.C92_linear"
   ],
   "note": "False as stated: C92_forRange_violated (every type but int), C92_linearIndex_violated. C92_linearIndex_partial and C92_linearIndex_stride say when linearIndex gives the number."
  },
  {
   "property": "C93",
   "status": "proved",
   "theorems": [
    "Verif.Props.C93_values",
    "Verif.Props.C93_assignment"
   ],
   "note": ""
  },
  {
   "property": "C94",
   "status": "proved",
   "theorems": [
    "Verif.Props.C94_mass_matrix",
    "Verif.Props.C94_grids",
    "Verif.Props.C94_lumped"
   ],
   "note": ""
  },
  {
   "property": "C95",
   "status": "proved",
   "theorems": [
    "Verif.Props.C95_stiffness_matrix"
   ],
   "note": ""
  },
  {
   "property": "C96",
   "status": "partial",
   "theorems": [
    "Verif.Props.C96_odometer",
    "Verif.Props.C96_leaving_partial",
    "Verif.Props.C96_skipping_partial",
    "Verif.Props.C96_violated"
   ],
   "note": "False as stated: C96_violated. The C96_..._partial theorems say what the loop does and which bodies behave as expected."
  },
  {
   "property": "C97",
   "status": "proved",
   "theorems": [
    "Verif.Props.C97_basis",
    "Verif.Props.C97_interpolation",
    "Verif.Props.C97_gradient",
    "Verif.Props.C97_inverse",
    "Verif.Props.C97_jacobian",
    "Verif.Props.C97_inverseJacobian",
    "Verif.Props.C97_contraction",
    "Verif.Props.C97_plain_basis",
    "Verif.Props.C97_plain_element"
   ],
   "note": ""
  },
  {
   "property": "C98",
   "status": "partial",
   "theorems": [
    "Verif.Props.C98_violated",
    "Verif.Props.C98_exact_partial",
    "Verif.Props.C98_pow",
    "Verif.Props.C98_factorial",
    "Verif.Props.C98_binomial_rejects"
   ],
   "note": "Violated: unsigned and narrow types wrap silently. Proved: all three are exact if b^E resp. N! fits; exact description of what pow and factorial return."
  },
  {
   "property": "C99",
   "status": "partial",
   "theorems": [
    "Verif.Props.C99_violated",
    "Verif.Props.C99_coordinates",
    "Verif.Props.C99_weights",
    "Verif.Props.C99_runtime_ub",
    "Verif.Props.C99_basis",
    "Verif.Props.C99_rejected_partial"
   ],
   "note": "Violated: most indices out of range are accepted. Proved: what is returned instead, and that bases of order 0 and those on 5, 7 and 9 Lobatto points reject them."
  },
  {
   "property": "C100",
   "status": "proved",
   "theorems": [
    "Verif.Props.C100_points",
    "Verif.Props.C100_basis",
    "Verif.Props.C100_shape",
    "Verif.Props.C100_shape_gradient",
    "Verif.Props.C100_interpolation",
    "Verif.Props.C100_interpolation_gradient",
    "Verif.Props.C100_jacobian",
    "Verif.Props.C100_elements"
   ],
   "note": "Orders 1 to 8, since the shipped tables end there for Lobatto points; equally spaced points of higher order are not covered."
  },
  {
   "property": "C101",
   "status": "proved",
   "theorems": [
    "Verif.Props.C101_inverse",
    "Verif.Props.C101_inverse_carray",
    "Verif.Props.C101_inverseJacobian"
   ],
   "note": "Complements C83 (no exceptions, but entries bounded below) and C84 (violations without bounds on the sizes)."
  },
  {
   "property": "C102",
   "status": "partial",
   "theorems": [
    "Verif.Props.C102_lower_rows_partial",
    "Verif.Props.C102_lower_rows_exact_partial",
    "Verif.Props.C102_first_row_partial",
    "Verif.Props.C102_carray_partial",
    "Verif.Props.C102_violated"
   ],
   "note": "Violated for the first row. Proved: the second and third row are fine, and what is left in the first."
  },
  {
   "property": "C103",
   "status": "proved",
   "theorems": [
    "Verif.Props.C103_line",
    "Verif.Props.C103_value",
    "Verif.Props.C103_gradient",
    "Verif.Props.C103_multilinear",
    "Verif.Props.C103_supported_elements"
   ],
   "note": "C103_line is the one-dimensional statement, C103_value and C103_gradient those for elements; C103_multilinear is the case of order 1; C103_supported_elements shows that every shipped spacing meets the hypothesis."
  },
  {
   "property": "C104",
   "status": "proved",
   "theorems": [
    "Verif.Props.C104_line",
    "Verif.Props.C104_tensor"
   ],
   "note": "Exact arithmetic with the decimals of the code, compile-time accessors."
  },
  {
   "property": "C105",
   "status": "proved",
   "theorems": [
    "Verif.Props.C105_order"
   ],
   "note": ""
  },
  {
   "property": "C106",
   "status": "partial",
   "theorems": [
    "Verif.Props.C106_partial",
    "Verif.Props.C106_violated"
   ],
   "note": "Violated for headers that include each other (C106_violated). C106_partial: the script runs for ever exactly if a needed header includes itself, directly or indirectly."
  },
  {
   "property": "C107",
   "status": "partial",
   "theorems": [
    "Verif.Props.C107_partial",
    "Verif.Props.C107_violated_config",
    "Verif.Props.C107_violated_unresolved"
   ],
   "note": "Violated for the configuration header and after unresolvable includes. C107_partial: all lines are there, in order, and no quoted include is left, if all includes can be resolved; the configuration header is not counted."
  },
  {
   "property": "C108",
   "status": "partial",
   "theorems": [
    "Verif.Props.C108_partial",
    "Verif.Props.C108_violated",
    "Verif.Props.C108_overwrites"
   ],
   "note": "Violated: the output directory is not used, the original headers are overwritten, and their includes remain comments. C108_partial: the parts are written back to the places in their marks and nothing else changes."
  },
  {
   "property": "C109",
   "status": "proved",
   "theorems": [
    "Verif.Props.C109_physical_gradient",
    "Verif.Props.C109_patch_test",
    "Verif.Props.C109_affine_cell"
   ],
   "note": ""
  },
  {
   "property": "C110",
   "status": "partial",
   "theorems": [
    "Verif.Props.C110_effect_partial",
    "Verif.Props.C110_finishes_partial",
    "Verif.Props.C110_kept_partial",
    "Verif.Props.C110_violated",
    "Verif.Props.C110_violated_hostconfig",
    "Verif.Props.C110_violated_install"
   ],
   "note": "Partial because the code violates it: C110_effect_partial, C110_finishes_partial and C110_kept_partial hold for all inputs; the three violations are concrete runs."
  },
  {
   "property": "C111",
   "status": "partial",
   "theorems": [
    "Verif.Props.C111_split_partial",
    "Verif.Props.C111_command_partial",
    "Verif.Props.C111_cmake_cmd",
    "Verif.Props.C111_violated",
    "Verif.Props.C111_violated_directory",
    "Verif.Props.C111_violated_cmake",
    "Verif.Props.C111_violated_status"
   ],
   "note": "Partial because the code violates it: C111_split_partial says exactly what happens for arguments of plain characters and spaces; the violations are concrete runs."
  },
  {
   "property": "C112",
   "status": "partial",
   "theorems": [
    "Verif.Props.C112_macros",
    "Verif.Props.C112_effect",
    "Verif.Props.C112_fatal",
    "Verif.Props.C112_version_partial",
    "Verif.Props.C112_camp_partial",
    "Verif.Props.C112_violated",
    "Verif.Props.C112_violated_version"
   ],
   "note": "The macros, what is compiled, and when configuring fails are proved for all settings. The version of CUDA is right only if CMake knows it already, and camp is linked only with BLT; both failures are proved with witnesses."
  },
  {
   "property": "C113",
   "status": "partial",
   "theorems": [
    "Verif.Props.C113_compare",
    "Verif.Props.C113_report_partial",
    "Verif.Props.C113_violated",
    "Verif.Props.C113_violated_quotes"
   ],
   "note": "The dictionaries of compare_config_files are proved exact. The printed report leaves out settings that only one file has, which is proved with a witness; values with quotes are read wrongly, also with a witness."
  },
  {
   "property": "C114",
   "status": "proved",
   "theorems": [
    "Verif.Props.C114_one_to_one",
    "Verif.Props.C114_cell",
    "Verif.Props.C114_volume",
    "Verif.Props.C114_sharp"
   ],
   "note": "One-to-one in every dimension; the Jacobian and the volume in three, where the code has inverseJacobian. C114_sharp: the bound cannot be improved."
  },
  {
   "property": "C115",
   "status": "partial",
   "theorems": [
    "Verif.Props.C115_status",
    "Verif.Props.C115_partial",
    "Verif.Props.C115_violated_combined",
    "Verif.Props.C115_violated_copy",
    "Verif.Props.C115_build",
    "Verif.Props.C115_unit_tests",
    "Verif.Props.C115_code_checks",
    "Verif.Props.C115_violated_count",
    "Verif.Props.C115_violated_configure",
    "Verif.Props.C115_violated_no_test"
   ],
   "note": "Violated in five ways, see DESIGN.md. Proved: the exit status is that of the first failing command; for one kind of job all commands of the tasks were run; the build jobs succeed exactly if CMake, make and all unit tests do. Not modelled: the race between `tee` and `cat` in the code checks (the number of lines counted is any number)."
  },
  {
   "property": "C116",
   "status": "proved",
   "theorems": [
    "Verif.Props.C116_threads",
    "Verif.Props.C116_conflict"
   ],
   "note": "Two accesses that could be next to each other in some interleaving, to the same memory location, one a write, make the outcome undefined. There are no locks or atomics in the model. The second example shows that the hypothesis is needed: an array element and the same element through a slice race. C116_conflict is the converse for accesses that are next."
  },
  {
   "property": "C117",
   "status": "proved",
   "theorems": [
    "Verif.Props.C117_by_parts",
    "Verif.Props.C117_collocation"
   ],
   "note": "The tolerance of the first theorem is that of C29/C30 times the coefficients of the derivative of the product along the lines. In the second theorem the table of all 8 operators is checked in rational arithmetic."
  },
  {
   "property": "C118",
   "status": "partial",
   "theorems": [
    "Verif.Props.C118_partial",
    "Verif.Props.C118_builds",
    "Verif.Props.C118_unit_tests",
    "Verif.Props.C118_code_checks",
    "Verif.Props.C118_configurations",
    "Verif.Props.C118_coverage",
    "Verif.Props.C118_violated"
   ],
   "note": "Partial because the code violates the property: the verdict leaves out the coverage job. C118_partial says exactly what the verdict depends on; C118_builds, C118_unit_tests and C118_code_checks say what a good verdict means in the containers. C118_configurations lists what the matrix covers, C118_coverage says what success of the coverage job means."
  },
  {
   "property": "C119",
   "status": "partial",
   "theorems": [
    "Verif.Props.C119_partial",
    "Verif.Props.C119_jobs",
    "Verif.Props.C119_violated",
    "Verif.Props.C119_matrix"
   ],
   "note": "Partial because the code violates the property: NPROC is not exported. C119_partial is the rest, C119_jobs the number of jobs when NPROC is in the environment, and C119_violated shows that without it there is never a limit. C119_matrix gives the number of jobs in the builds of the matrix."
  },
  {
   "property": "C120",
   "status": "proved",
   "theorems": [
    "Verif.Props.C120_gradient_theorem",
    "Verif.Props.C120_area_vector",
    "Verif.Props.C120_closed",
    "Verif.Props.C120_volume",
    "Verif.Props.C120_hexahedron"
   ],
   "note": "The bound is the tolerance of the rules times the coefficients of the polynomials u * adjugate; for hexahedra it is given in terms of the sizes of the vertices and nodal values. Faces are taken in the coordinates of the parent cube: a face of a curved cell is the image of a face of the cube."
  },
  {
   "property": "C121",
   "status": "partial",
   "theorems": [
    "Verif.Props.C121_exact",
    "Verif.Props.C121_partial",
    "Verif.Props.C121_repository",
    "Verif.Props.C121_nothing",
    "Verif.Props.C121_violated"
   ],
   "note": "Holds where no directory from the root to the source directory has buil, blt or camp in its name, as /tmp/Shiva in the CI. Path names with semicolons are not modelled."
  },
  {
   "property": "C122",
   "status": "partial",
   "theorems": [
    "Verif.Props.C122_partial",
    "Verif.Props.C122_violated",
    "Verif.Props.C122_command_line",
    "Verif.Props.C122_environment",
    "Verif.Props.C122_others",
    "Verif.Props.C122_ci",
    "Verif.Props.C122_unit_tests"
   ],
   "note": "Holds but for ENABLE_FIND_MPI of LLNL/tioga-cce-15.cmake. C122_unit_tests removes the assumption of C118_unit_tests about the host configuration."
  },
  {
   "property": "C123",
   "status": "partial",
   "theorems": [
    "Verif.Props.C123_make",
    "Verif.Props.C123_no_false_alarm",
    "Verif.Props.C123_partial",
    "Verif.Props.C123_violated_schedule",
    "Verif.Props.C123_violated_left",
    "Verif.Props.C123_violated_unfinished",
    "Verif.Props.C123_violated_count"
   ],
   "note": "Holds if tee has copied everything when the shell goes on, for fewer than 256 complete lines. In every schedule a failing make fails the test, and without a file from an earlier run there is no false alarm."
  },
  {
   "property": "C124",
   "status": "partial",
   "theorems": [
    "Verif.Props.C124_partial",
    "Verif.Props.C124_violated_umbrella",
    "Verif.Props.C124_documentation",
    "Verif.Props.C124_violated_hip",
    "Verif.Props.C124_violated_standard",
    "Verif.Props.C124_violated_forward"
   ],
   "note": "Holds for all lists of the 24 headers without Shiva.hpp and namespaceDocumentation.hpp (an #error unless cppcheck runs; C124_documentation), for libraries that declare what those in use do, and without pmpl.hpp for HIP alone. Members of classes and overloads are not modelled."
  },
  {
   "property": "C125",
   "status": "proved",
   "theorems": [
    "Verif.Props.C125_volume",
    "Verif.Props.C125_hexahedron"
   ],
   "note": "The sum over the quadrature points is the reader's own loop and is taken exactly; everything the library computes is in float or double."
  },
  {
   "property": "C126",
   "status": "partial",
   "theorems": [
    "Verif.Props.C126_partial",
    "Verif.Props.C126_violated_gradient",
    "Verif.Props.C126_violated_value",
    "Verif.Props.C126_headers_partial",
    "Verif.Props.C126_violated_headers"
   ],
   "note": "Violated from C++20 on, see DESIGN.md section 4. The partial theorems cover the standards before C++20 completely, and for later ones all headers and functions that do not lead to the two broken branches."
  },
  {
   "property": "C127",
   "status": "partial",
   "theorems": [
    "Verif.Props.C127_version",
    "Verif.Props.C127_partial",
    "Verif.Props.C127_violated_name",
    "Verif.Props.C127_violated_camp",
    "Verif.Props.C127_violated_directory"
   ],
   "note": "Violated, see DESIGN.md section 4. What CMake generates (ShivaTargets.cmake, ShivaConfigVersion.cmake) is modelled after CMake's documentation, since the files are not in the repository; the directory for libraries is assumed to be relative."
  },
  {
   "property": "C128",
   "status": "partial",
   "theorems": [
    "Verif.Props.C128_zero",
    "Verif.Props.C128_one",
    "Verif.Props.C128_local",
    "Verif.Props.C128_partial",
    "Verif.Props.C128_violated"
   ],
   "note": "Violated for Gauss-Lobatto bases of higher order, see DESIGN.md section 4. C128_partial is the claim for exactly the types, families and orders for which it holds (in any number of dimensions); C128_violated shows that it fails for all others. C128_zero and C128_local hold for all."
  },
  {
   "property": "C129",
   "status": "partial",
   "theorems": [
    "Verif.Props.C129_partial",
    "Verif.Props.C129_shape_partial",
    "Verif.Props.C129_violated"
   ],
   "note": "Violated for orders 3 to 8, see DESIGN.md section 4. C129_partial and C129_shape_partial prove it for orders 1 and 2, at every coordinate including infinities and NaN; the sign of the derivative is proved where the derivative is finite. Zeros of both signs are identified by the model."
  },
  {
   "property": "C130",
   "status": "partial",
   "theorems": [
    "Verif.Props.C130_partial",
    "Verif.Props.C130_finite_partial",
    "Verif.Props.C130_violated"
   ],
   "note": "Violated for directions other than the last and for orders above 1, see DESIGN.md section 4. C130_partial proves it for the last direction when its order is 1, with all families and any orders in the other directions, any dimension and any nodal values (where the derivative is finite); C130_finite_partial adds that it is finite with up to three dimensions inside the parent element."
  },
  {
   "property": "C131",
   "status": "partial",
   "theorems": [
    "Verif.Props.C131_monotone_partial",
    "Verif.Props.C131_sign_partial",
    "Verif.Props.C131_line_partial",
    "Verif.Props.C131_excess_partial",
    "Verif.Props.C131_violated"
   ],
   "note": "Violated by the rounding error, see DESIGN.md section 4. C131_monotone_partial proves that larger nodal values never give smaller interpolated values, C131_sign_partial that signs are kept, both in any dimension; C131_line_partial that on lines bounds that are zero or powers of two are kept exactly; C131_excess_partial bounds the excess in up to three dimensions."
  },
  {
   "property": "C132",
   "status": "proved",
   "theorems": [
    "Verif.Props.C132_value",
    "Verif.Props.C132_gradient",
    "Verif.Props.C132_jacobian",
    "Verif.Props.C132_quadrature",
    "Verif.Props.C132_cell",
    "Verif.Props.C132_inverse",
    "Verif.Props.C132_scaling",
    "Verif.Props.C132_uniform"
   ],
   "note": "The exceptions are those of the floating-point model: a result is compared unless an overflow, underflow, division by zero or invalid operation occurred on the way to it. The inverse Jacobian is for three-dimensional cells, the only ones it accepts."
  },
  {
   "property": "C133",
   "status": "partial",
   "theorems": [
    "Verif.Props.C133_partial",
    "Verif.Props.C133_gradient_partial",
    "Verif.Props.C133_square_partial",
    "Verif.Props.C133_difference_partial",
    "Verif.Props.C133_violated"
   ],
   "note": "Violated by the rounding error, see DESIGN.md section 4. C133_partial and C133_gradient_partial prove that exchanging the last two directions is exact for shape functions and their gradients, for any bases and data; C133_square_partial says that on squares this is every numbering; C133_difference_partial bounds the difference of interpolated values for any numbering of shipped elements in up to three dimensions."
  },
  {
   "property": "C134",
   "status": "proved",
   "theorems": [
    "Verif.Props.C134_value",
    "Verif.Props.C134_gradient",
    "Verif.Props.C134_perturbation",
    "Verif.Props.C134_value_reached",
    "Verif.Props.C134_gradient_reached",
    "Verif.Props.C134_equal_growth",
    "Verif.Props.C134_value_float",
    "Verif.Props.C134_gradient_float",
    "Verif.Props.C134_lobatto_factor"
   ],
   "note": "C134_value, C134_gradient and C134_perturbation in exact arithmetic in any dimension; C134_value_float and C134_gradient_float in float and double up to three dimensions, with nodal values up to 2^56; C134_value_reached and C134_gradient_reached show that the factors are nearly reached; C134_equal_growth gives upper and lower bounds for equally spaced points of every order."
  },
  {
   "property": "C135",
   "status": "proved",
   "theorems": [
    "Verif.Props.C135_value",
    "Verif.Props.C135_gradient",
    "Verif.Props.C135_box",
    "Verif.Props.C135_halving"
   ],
   "note": "C135_value and C135_gradient on the parent cell, C135_box for a function on a box, C135_halving for the rate of convergence. The function and its derivatives are real; the nodal values are any finite numbers within the stated error of it."
  },
  {
   "property": "C136",
   "status": "partial",
   "theorems": [
    "Verif.Props.C136_exact",
    "Verif.Props.C136_partial",
    "Verif.Props.C136_inverse_partial",
    "Verif.Props.C136_violated"
   ],
   "note": "Violated by the rounding error for boxes that are small compared with their distance from the origin, see DESIGN.md section 4. C136_exact is the claim without roundings; C136_partial and C136_inverse_partial prove it in float and double with an explicit condition on size and distance."
  },
  {
   "property": "C137",
   "status": "partial",
   "theorems": [
    "Verif.Props.C137_partial",
    "Verif.Props.C137_float_partial",
    "Verif.Props.C137_square_partial",
    "Verif.Props.C137_violated"
   ],
   "note": "Violated for every finite set of points, see DESIGN.md section 4. C137_partial proves that bounds of the 27 control values are bounds of the determinant in the whole cell, C137_float_partial that computed control values above an explicit rounding error guarantee a valid cell, C137_square_partial the claim for quadrilaterals and their vertices."
  },
  {
   "property": "C138",
   "status": "proved",
   "theorems": [
    "Verif.Props.C138_gradient",
    "Verif.Props.C138_patch_test"
   ],
   "note": "C138_gradient bounds the error of the physical gradient of an arbitrary field, C138_patch_test specialises to linear fields with an error in the nodal values. The sum of products is not part of the library and is taken exactly."
  },
  {
   "property": "C139",
   "status": "proved",
   "theorems": [
    "Verif.Props.C139_parent",
    "Verif.Props.C139_interpolated",
    "Verif.Props.C139_cell"
   ],
   "note": "C139_parent for values with an error, C139_interpolated for values interpolated by the library, C139_cell for cells with the determinants inverseJacobian returns. The sum over the quadrature points is not part of the library and is taken exactly."
  },
  {
   "property": "C140",
   "status": "proved",
   "theorems": [
    "Verif.Props.C140_value",
    "Verif.Props.C140_gradient",
    "Verif.Props.C140_jacobian",
    "Verif.Props.C140_determinant",
    "Verif.Props.C140_lattice",
    "Verif.Props.C140_check",
    "Verif.Props.C140_box"
   ],
   "note": "C140_value, C140_gradient, C140_jacobian, C140_determinant for data in units, C140_lattice and C140_check for cells on a lattice, C140_box for boxes. The finite tables evaluated by the kernel range over the numbers of binary places and the three build switches, not over data: the data are covered by tags. The limits are sufficient, not claimed to be sharp."
  },
  {
   "property": "C141",
   "status": "partial",
   "theorems": [
    "Verif.Props.C141_exact",
    "Verif.Props.C141_partial",
    "Verif.Props.C141_jacobian_partial",
    "Verif.Props.C141_violated"
   ],
   "note": "C141_violated: determinants of different sign for a small box far from the origin. C141_exact: equality for data with few digits. C141_partial and C141_jacobian_partial: bounds of the differences, relative to the coordinates instead of the results, which is what is missing."
  },
  {
   "property": "C142",
   "status": "proved",
   "theorems": [
    "Verif.Props.C142_value",
    "Verif.Props.C142_gradient",
    "Verif.Props.C142_jacobian",
    "Verif.Props.C142_inverse",
    "Verif.Props.C142_inverse_carray",
    "Verif.Props.C142_inverseJacobian",
    "Verif.Props.C142_scaling"
   ],
   "note": "C142_value, C142_gradient, C142_jacobian, C142_inverse, C142_inverse_carray, C142_inverseJacobian, C142_scaling. In the gradient only the values at the support points are covered, because the derivative of a linear basis does not use the coordinate. Column i of an inverse and the inverse of a Scaling may be finite (1/infinity is zero), which is why the statement is about the determinant."
  },
  {
   "property": "C143",
   "status": "proved",
   "theorems": [
    "Verif.Props.C143_value",
    "Verif.Props.C143_gradient",
    "Verif.Props.C143_jacobian",
    "Verif.Props.C143_inverse",
    "Verif.Props.C143_inverse_carray",
    "Verif.Props.C143_inverseJacobian",
    "Verif.Props.C143_scaling",
    "Verif.Props.C143_uniform",
    "Verif.Props.C143_scaling_same",
    "Verif.Props.C143_points"
   ],
   "note": "C143_value, C143_gradient, C143_points, C143_jacobian, C143_inverse, C143_inverse_carray, C143_inverseJacobian, C143_scaling_same for independence of signs; the last parts of the inverse theorems, C143_scaling and C143_uniform for division by zero. With C143 the theorems about Model/Float (which drops signs of zeros) carry over to arithmetic with signed zeros."
  },
  {
   "property": "C144",
   "status": "partial",
   "theorems": [
    "Verif.Props.C144_inverse_partial",
    "Verif.Props.C144_inverse_carray_partial",
    "Verif.Props.C144_violated",
    "Verif.Props.C144_exchanges",
    "Verif.Props.C144_difference_partial",
    "Verif.Props.C144_transposed_partial",
    "Verif.Props.C144_jacobian",
    "Verif.Props.C144_inverseJacobian_partial",
    "Verif.Props.C144_inverseJacobian_violated"
   ],
   "note": "C144_violated and C144_inverseJacobian_violated: exchanges that move the last row or the first column change determinants by more than the sign. The _partial theorems: the exchanges that keep them in place are exact, and the differences of the others are at most twice the bound of C101. C144_exchanges: exactly which exchanges are respected. C144_jacobian is the full statement for Jacobians."
  },
  {
   "property": "C145",
   "status": "partial",
   "theorems": [
    "Verif.Props.C145_inverse_partial",
    "Verif.Props.C145_inverse_carray_partial",
    "Verif.Props.C145_moderate_partial",
    "Verif.Props.C145_sums",
    "Verif.Props.C145_rows",
    "Verif.Props.C145_flat_partial",
    "Verif.Props.C145_collapsed_partial",
    "Verif.Props.C145_violated",
    "Verif.Props.C145_plate_violated"
   ],
   "note": "C145_violated and C145_plate_violated: determinants other than zero for a repeated first column and for a plate without thickness. The _partial theorems: exact zeros for the other kinds of dependence. C145_rows: rows of Jacobians are the gradients of the coordinates."
  },
  {
   "property": "C146",
   "status": "partial",
   "theorems": [
    "Verif.Props.C146_basis",
    "Verif.Props.C146_exact",
    "Verif.Props.C146_shape",
    "Verif.Props.C146_nodal",
    "Verif.Props.C146_inverse_partial",
    "Verif.Props.C146_violated",
    "Verif.Props.C146_constant_violated"
   ],
   "note": "C146_violated and C146_constant_violated: equal rows and constants are not recognised exactly if products are fused. C146_inverse_partial: rows and columns of zeros are. The other theorems are complete."
  },
  {
   "property": "C147",
   "status": "partial",
   "theorems": [
    "Verif.Props.C147_trace",
    "Verif.Props.C147_end_points",
    "Verif.Props.C147_neighbours_partial",
    "Verif.Props.C147_tangents_partial",
    "Verif.Props.C147_difference_partial",
    "Verif.Props.C147_violated"
   ],
   "note": "C147_violated: mirrored neighbours can differ. C147_neighbours_partial: neighbours that number the face in the same order agree in values and tangential derivatives, and their Jacobians in the columns along the face (C147_tangents_partial). C147_difference_partial: the values of mirrored neighbours differ by no more than twice the rounding error of C100. C147_trace and C147_end_points are complete."
  },
  {
   "property": "C148",
   "status": "proved",
   "theorems": [
    "Verif.Props.C148_quadrilateral",
    "Verif.Props.C148_area",
    "Verif.Props.C148_neighbours",
    "Verif.Props.C148_vertical",
    "Verif.Props.C148_vertical_volume",
    "Verif.Props.C148_vertical_neighbours"
   ],
   "note": "C148_quadrilateral (vertex check, positivity, one-to-one, image), C148_area, C148_neighbours in two dimensions; C148_vertical, C148_vertical_volume and C148_vertical_neighbours for hexahedra with vertical edges. Exact arithmetic; nodes at -1 and 1 as for the shipped spacings in exact arithmetic."
  },
  {
   "property": "C149",
   "status": "proved",
   "theorems": [
    "Verif.Props.C149_diagonal",
    "Verif.Props.C149_inverse",
    "Verif.Props.C149_inverse_carray",
    "Verif.Props.C149_inverseJacobian"
   ],
   "note": "C149_inverse, C149_inverse_carray and C149_inverseJacobian; C149_diagonal evaluates the bound on the diagonal."
  },
  {
   "property": "C150",
   "status": "partial",
   "theorems": [
    "Verif.Props.C150_exact",
    "Verif.Props.C150_order_two",
    "Verif.Props.C150_shape_partial",
    "Verif.Props.C150_sign_partial",
    "Verif.Props.C150_error_partial",
    "Verif.Props.C150_violated"
   ],
   "note": "C150_violated: in float and double the value may fall in the last place although the nodal values increase. C150_exact and C150_order_two are complete. C150_shape_partial: shape functions are monotone. C150_sign_partial: fields with values <= 0 on the lower and >= 0 on the upper face are monotone. C150_error_partial: any fall is at most twice the rounding error."
  },
  {
   "property": "C151",
   "status": "partial",
   "theorems": [
    "Verif.Props.C151_exact",
    "Verif.Props.C151_last_partial",
    "Verif.Props.C151_jacobian_partial",
    "Verif.Props.C151_error_partial",
    "Verif.Props.C151_violated"
   ],
   "note": "C151_violated: in float and double the first derivative on a square may be negative although all nodal differences are positive. C151_exact is complete. C151_last_partial: the sign is right in the last direction, any dimension (on a line that is everything). C151_jacobian_partial: the same for the last column of the Jacobian. C151_error_partial: all directions, up to the rounding error."
  },
  {
   "property": "C152",
   "status": "proved",
   "theorems": [
    "Verif.Props.C152_shape",
    "Verif.Props.C152_sign",
    "Verif.Props.C152_errors",
    "Verif.Props.C152_compare",
    "Verif.Props.C152_axis_shape",
    "Verif.Props.C152_axis"
   ],
   "note": "C152_shape, C152_sign, C152_errors, C152_compare, C152_axis_shape and C152_axis. Results in real arithmetic with a rounding function: overflow is outside. If the two results that are compared are computed with different fusing, they need not be in order (C146)."
  },
  {
   "property": "C153",
   "status": "proved",
   "theorems": [
    "Verif.Props.C153_field",
    "Verif.Props.C153_back",
    "Verif.Props.C153_rounded",
    "Verif.Props.C153_position",
    "Verif.Props.C153_jacobian",
    "Verif.Props.C153_split",
    "Verif.Props.C153_determinant"
   ],
   "note": "C153_field, C153_back, C153_rounded, C153_position, C153_jacobian, C153_determinant and C153_split."
  },
  {
   "property": "C154",
   "status": "proved",
   "theorems": [
    "Verif.Props.C154_face",
    "Verif.Props.C154_rounded",
    "Verif.Props.C154_neighbours",
    "Verif.Props.C154_float"
   ],
   "note": "C154_face, C154_rounded, C154_float and C154_neighbours."
  },
  {
   "property": "C155",
   "status": "proved",
   "theorems": [
    "Verif.Props.C155_exact",
    "Verif.Props.C155_float",
    "Verif.Props.C155_shared",
    "Verif.Props.C155_jacobian",
    "Verif.Props.C155_halves"
   ],
   "note": "C155_exact, C155_float, C155_shared and C155_jacobian."
  },
  {
   "property": "C156",
   "status": "proved",
   "theorems": [
    "Verif.Props.C156_exact",
    "Verif.Props.C156_necessary",
    "Verif.Props.C156_float"
   ],
   "note": "C156_exact, C156_necessary and C156_float."
  },
  {
   "property": "C157",
   "status": "partial",
   "theorems": [
    "Verif.Props.C157_exact",
    "Verif.Props.C157_cell_exact",
    "Verif.Props.C157_edge_partial",
    "Verif.Props.C157_vertex_partial",
    "Verif.Props.C157_violated"
   ],
   "note": "C157_violated: inside of elements a derivative may change when a constant is added, in float and double. C157_exact and C157_cell_exact are complete. C157_edge_partial: the derivative along an edge does not change. C157_vertex_partial: Jacobian, determinant and inverse at the vertices of a hexahedron do not change."
  },
  {
   "property": "C158",
   "status": "proved",
   "theorems": [
    "Verif.Props.C158_elements",
    "Verif.Props.C158_program",
    "Verif.Props.C158_transform",
    "Verif.Props.C158_scaling",
    "Verif.Props.C158_host",
    "Verif.Props.C158_constant",
    "Verif.Props.C158_cells",
    "Verif.Props.C158_threads"
   ],
   "note": "Complete. Stopped means aborted on the host; on a device a failed check is itself undefined (C59)."
  },
  {
   "property": "C159",
   "status": "proved",
   "theorems": [
    "Verif.Props.C159_lobatto",
    "Verif.Props.C159_mesh",
    "Verif.Props.C159_hexahedra"
   ],
   "note": "Complete for exact arithmetic; block meshes only."
  },
  {
   "property": "C160",
   "status": "proved",
   "theorems": [
    "Verif.Props.C160_lobatto",
    "Verif.Props.C160_defined",
    "Verif.Props.C160_mesh",
    "Verif.Props.C160_hexahedra"
   ],
   "note": "Complete for exact arithmetic; block meshes, variables of the cells' own elements."
  },
  {
   "property": "C161",
   "status": "proved",
   "theorems": [
    "Verif.Props.C161_mesh",
    "Verif.Props.C161_gradient",
    "Verif.Props.C161_hexahedra",
    "Verif.Props.C161_gradient_hexahedra",
    "Verif.Props.C161_lobatto"
   ],
   "note": "Complete for exact arithmetic; all directions of a cell have the same nodes."
  },
  {
   "property": "C162",
   "status": "proved",
   "theorems": [
    "Verif.Props.C162_box",
    "Verif.Props.C162_hexahedra"
   ],
   "note": "Complete for exact arithmetic; block meshes with flat faces."
  },
  {
   "property": "C163",
   "status": "proved",
   "theorems": [
    "Verif.Props.C163_mesh",
    "Verif.Props.C163_glued",
    "Verif.Props.C163_hexahedra",
    "Verif.Props.C163_glued_hexahedra"
   ],
   "note": "Complete for exact arithmetic."
  }
 ]
}