{
 "claims": [
  {
   "property": "C01",
   "status": "proved",
   "theorems": [
    "Fiksi.C01_point_reads_back",
    "Fiksi.C01_length_reads_back",
    "Fiksi.C01_line_reads_back",
    "Fiksi.C01_circle_reads_back"
   ],
   "note": "For every call history of legal calls."
  },
  {
   "property": "C02",
   "status": "proved",
   "theorems": [
    "Fiksi.API_values_refine",
    "Fiksi.C02_values_kept",
    "Fiksi.C02_kinds_kept",
    "Fiksi.C02_residuals_kept"
   ],
   "note": "Frames for values, kinds, residuals; API_values_refine: every read equals the read of the specification store."
  },
  {
   "property": "C03",
   "status": "proved",
   "theorems": [
    "Fiksi.C03_element_enumeration",
    "Fiksi.C03_handles_issued_once"
   ],
   "note": ""
  },
  {
   "property": "C04",
   "status": "proved",
   "theorems": [
    "Fiksi.C04_constraint_enumeration"
   ],
   "note": ""
  },
  {
   "property": "C05",
   "status": "proved",
   "theorems": [
    "Fiksi.C05_no_panic"
   ],
   "note": "Histories of up to 2^30 calls (u32 indices)."
  },
  {
   "property": "C06",
   "status": "partial",
   "theorems": [
    "Fiksi.C06_reads_rejected",
    "Fiksi.C06_successful_read_is_own",
    "Fiksi.C06_writers_unchecked"
   ],
   "note": "Readers proved. The claim about writers is false of the code (C06_writers_unchecked)."
  },
  {
   "property": "C07",
   "status": "proved",
   "theorems": [
    "Fiksi.C07_update_point",
    "Fiksi.C07_update_length"
   ],
   "note": ""
  },
  {
   "property": "C08",
   "status": "proved",
   "theorems": [
    "Fiksi.C08_update_parameter"
   ],
   "note": ""
  },
  {
   "property": "C09",
   "status": "proved",
   "theorems": [
    "Fiksi.C09_fixed_set",
    "Fiksi.C09_fix_only_fixes",
    "Fiksi.C09_idempotent",
    "Fiksi.C09_fix_commutes",
    "Fiksi.C09_unfix_frees_shared"
   ],
   "note": ""
  },
  {
   "property": "C10",
   "status": "proved",
   "theorems": [
    "Fiksi.C10_handle_identity",
    "Fiksi.C10_constraint_handle_identity",
    "Fiksi.C10_as_id_injective",
    "Fiksi.C10_systems_distinct",
    "Fiksi.C10_ids_wrap"
   ],
   "note": "Including the wrap-around that makes the 2^32 bound sharp."
  },
  {
   "property": "C11",
   "status": "proved",
   "theorems": [
    "Fiksi.C11_conversions_lossless",
    "Fiksi.C11_untyped_reads"
   ],
   "note": ""
  },
  {
   "property": "C12",
   "status": "partial",
   "theorems": [
    "Fiksi.C12_zero_residual_iff_partial",
    "Fiksi.C12_straight_angle_fails",
    "Fiksi.C12_degenerate_line_fails"
   ],
   "note": "Proved for regular configurations (non-degenerate lines and angles, angle parameter strictly inside the principal range). False at straight angles and degenerate lines (C12_straight_angle_fails, C12_degenerate_line_fails)."
  },
  {
   "property": "C13",
   "status": "proved",
   "theorems": [
    "Fiksi.C13_gradient_is_derivative"
   ],
   "note": "Over exact reals, along every differentiable motion, for every smooth configuration (different points, non-degenerate lines, angle not straight, centre not on the tangent line); arguments may share variables. How the entries are assembled is C29."
  },
  {
   "property": "C14",
   "status": "partial",
   "theorems": [
    "Fiksi.C14_rigid_motion_partial",
    "Fiksi.C14_moved_reachable",
    "Fiksi.C14_straight_angle_fails"
   ],
   "note": "Proved when no angle of the configuration is straight; false at straight angles (C14_straight_angle_fails)."
  },
  {
   "property": "C15",
   "status": "proved",
   "theorems": [
    "Fiksi.C15_rescaling",
    "Fiksi.C15_system_scale",
    "Fiksi.C15_zero_scale"
   ],
   "note": "Over exact reals with non-zero scale; C15_zero_scale shows what happens otherwise."
  },
  {
   "property": "C16",
   "status": "proved",
   "theorems": [
    "Fiksi.C16_angle_range",
    "Fiksi.C16_full_turn"
   ],
   "note": ""
  },
  {
   "property": "C17",
   "status": "partial",
   "theorems": [
    "Fiksi.C17_constraints_partitioned",
    "Fiksi.C17_elements_partitioned",
    "Fiksi.C17_component_linked",
    "Fiksi.C17_linked_together_partial",
    "Fiksi.C17_joined_parts_fall_apart",
    "Fiksi.C17_linked_elements_separated"
   ],
   "note": "Every reachable system: each constraint is in exactly one component, elements are partitioned, and a component only contains linked items. Completeness (linked items share a component) is proved for histories in which no constraint joins two existing parts, and shown false in general by C17_joined_parts_fall_apart and C17_linked_elements_separated."
  },
  {
   "property": "C18",
   "status": "proved",
   "theorems": [
    "Fiksi.C18_expression_variables",
    "Fiksi.C18_variable_expressions",
    "Fiksi.C18_residual_depends_only_on_listed",
    "Fiksi.C18_expression_owner"
   ],
   "note": ""
  },
  {
   "property": "C19",
   "status": "proved",
   "theorems": [
    "Fiksi.C19_maximum_matching",
    "Fiksi.C19_equations_paired"
   ],
   "note": "Hopcroft-Karp model terminates without panic and returns a maximum matching, for every bipartite graph with fewer than 2^32-1 left vertices, and for the equation graph of every reachable system with any mask."
  },
  {
   "property": "C20",
   "status": "proved",
   "theorems": [
    "Fiksi.C20_components_exact",
    "Fiksi.C20_plan_blocks"
   ],
   "note": "Pearce model returns exactly the strongly connected components in reverse topological order for every directed graph with fewer than 2^32-1 vertices; the plan steps are the components of the paired equations and are in solving order."
  },
  {
   "property": "C21",
   "status": "proved",
   "theorems": [
    "Fiksi.C21_plan_steps_independent",
    "Fiksi.C21_fixed_never_free"
   ],
   "note": "PlanOk for the plan of every reachable system and mask: equations at most once, disjoint variable sets, only free variables, own variables, at least as many variables as equations."
  },
  {
   "property": "C22",
   "status": "partial",
   "theorems": [
    "Fiksi.C22_equations_used",
    "Fiksi.C22_every_constraint_used_partial",
    "Fiksi.C22_singlePass_uses_paired_partial",
    "Fiksi.C22_constraint_never_solved",
    "Fiksi.C22_singlePass_drops_constraint"
   ],
   "note": "None and RecursiveAssembly: the equations handed to the optimiser are exactly those of constraints in components with elements (hence all of them when no constraint joins two parts). SinglePass: all equations of a component that is not over-determined. False in general: C22_constraint_never_solved, C22_singlePass_drops_constraint."
  },
  {
   "property": "C23",
   "status": "partial",
   "theorems": [
    "Fiksi.C23_fixed_not_moved_partial",
    "Fiksi.C23_recursive_moves_fixed"
   ],
   "note": "None and SinglePass: elements with fixed degrees of freedom read the same after solve, for every optimiser, iteration order and perturbation setting. False for RecursiveAssembly: C23_recursive_moves_fixed."
  },
  {
   "property": "C24",
   "status": "proved",
   "theorems": [
    "Fiksi.C24_unconstrained_not_moved"
   ],
   "note": "Every reachable system, decomposer, optimiser, iteration order and option: elements no constraint uses read the same after solve."
  },
  {
   "property": "C25",
   "status": "proved",
   "theorems": [
    "Fiksi.C25_solve_only_changes_values",
    "Fiksi.C25_solve_is_a_call"
   ],
   "note": "solve only replaces variable values: handles, enumeration, kinds, parameters, fixed sets and components are the same, and the effect on values is that of some sequence of update_value calls."
  },
  {
   "property": "C26",
   "status": "proved",
   "theorems": [
    "Fiksi.C26_steps_decrease",
    "Fiksi.C26_not_worse",
    "Fiksi.C26_not_worse_real"
   ],
   "note": "Every accepted step of the modelled LM loop strictly lowers the sum of squared residuals, and the returned values are never worse than the start, for any number type with transitive < and (-x)(-x)=xx, every problem whose residual and Jacobian passes agree (proved for subsystems and clustered systems) and every linear solver."
  },
  {
   "property": "C27",
   "status": "partial",
   "theorems": [
    "Fiksi.C27_direction_partial",
    "Fiksi.C27_early_direction",
    "Fiksi.C27_corrections",
    "Fiksi.C27_early_iterations_wrong"
   ],
   "note": "Proved for the first iteration and from the sixth on (direction = BFGS matrix of the min(k,5) newest corrections times gradient, for every problem; corrections are the differences). Iterations 1-4 read unwritten or wrong slots: exact description in C27_early_direction, false by C27_early_iterations_wrong."
  },
  {
   "property": "C28",
   "status": "partial",
   "theorems": [
    "Fiksi.C28_every_state_once",
    "Fiksi.C28_period",
    "Fiksi.C28_unit_interval",
    "Fiksi.C28_solve_deterministic_partial",
    "Fiksi.C28_recursive_depends_on_hash_order"
   ],
   "note": "The generator visits every 32-bit state once per period 2^32 and draws lie in [0,1]; solving with the default decomposer does not depend on hash iteration order. False for RecursiveAssembly: C28_recursive_depends_on_hash_order."
  },
  {
   "property": "C29",
   "status": "partial",
   "theorems": [
    "Fiksi.C29_sparse_is_derivative",
    "Fiksi.C29_dense_eq_sparse_partial",
    "Fiksi.C29_dense_fails_on_shared_points"
   ],
   "note": "Sparse assembly proved to be the derivative. Dense equals sparse when no expression repeats a variable; false otherwise (C29_dense_fails_on_shared_points)."
  },
  {
   "property": "C30",
   "status": "partial",
   "theorems": [
    "Fiksi.C30_elimination_partial",
    "Fiksi.C30_elimination_rank_le",
    "Fiksi.C30_tall_matrix_wrong",
    "Fiksi.C30_analyze_no_panic",
    "Fiksi.C30_analyze_partial",
    "Fiksi.C30_tall_system_wrong",
    "Fiksi.C30_tolerance_wrong",
    "Fiksi.C30_analyze_any_numbers"
   ],
   "note": "Without tolerance, for systems with at most as many expressions as variables (or whose first n gradients are independent), at points of differentiability and without repeated variables in an expression: reported = dependent on earlier ones, the rest counts the rank. For any tolerance: no panic, and the number of unreported expressions is at most the rank of the assembled matrix. False in general: C30_tall_system_wrong (rows from number n on are always reported) and C30_tolerance_wrong (1e-8 is absolute)."
  },
  {
   "property": "C31",
   "status": "proved",
   "theorems": [
    "Fiksi.C31_cleared",
    "Fiksi.C31_reused",
    "Fiksi.C31_triplets_ok",
    "Fiksi.C31_from_triplets",
    "Fiksi.C31_from_triplets_exact",
    "Fiksi.C31_case"
   ],
   "note": "The value of a stored entry is the sum of its triplets in some order, because the sort is unstable."
  },
  {
   "property": "C32",
   "status": "partial",
   "theorems": [
    "Fiksi.C32_accepted_iff",
    "Fiksi.C32_no_panic_partial",
    "Fiksi.C32_panics",
    "Fiksi.C32_identity_accepted",
    "Fiksi.C32_from_triplets_accepted",
    "Fiksi.C32_one_value_per_entry",
    "Fiksi.C32_empty_rejected",
    "Fiksi.C32_case"
   ],
   "note": "Proved: acceptance is exactly well-formedness; no panic when the middle pointers stay within the entries. Disproved: try_from_data panics on some malformed data (C32_panics), and SparseColMatStructure::empty is itself not accepted (C32_empty_rejected)."
  },
  {
   "property": "C33",
   "status": "proved",
   "theorems": [
    "Fiksi.C33_transpose",
    "Fiksi.C33_transpose_twice",
    "Fiksi.C33_structure_transpose",
    "Fiksi.C33_case"
   ],
   "note": ""
  },
  {
   "property": "C34",
   "status": "partial",
   "theorems": [
    "Fiksi.C34_permute_structure",
    "Fiksi.C34_permute_matrix_partial",
    "Fiksi.C34_values_wrong",
    "Fiksi.C34_case"
   ],
   "note": "Proved for the structure, and for the values that the code produces. Disproved for matrices: the values are not permuted with the columns (C34_values_wrong)."
  },
  {
   "property": "C35",
   "status": "proved",
   "theorems": [
    "Fiksi.C35_gather",
    "Fiksi.C35_short_slice",
    "Fiksi.C35_case"
   ],
   "note": ""
  },
  {
   "property": "C36",
   "status": "partial",
   "theorems": [
    "Fiksi.C36_length_checked",
    "Fiksi.C36_solution",
    "Fiksi.C36_false_iff_partial",
    "Fiksi.C36_lower_not_ignored",
    "Fiksi.C36_case"
   ],
   "note": "Proved for upper triangular matrices over the reals. Entries stored below the diagonal are not ignored: the code then returns false (C36_lower_not_ignored)."
  },
  {
   "property": "C37",
   "status": "proved",
   "theorems": [
    "Fiksi.C37_post_order",
    "Fiksi.C37_post_order_positions",
    "Fiksi.C37_case"
   ],
   "note": ""
  },
  {
   "property": "C38",
   "status": "proved",
   "theorems": [
    "Fiksi.C38_levels",
    "Fiksi.C38_case"
   ],
   "note": ""
  },
  {
   "property": "C39",
   "status": "proved",
   "theorems": [
    "Fiksi.C39_parent",
    "Fiksi.C39_root",
    "Fiksi.C39_ancestors",
    "Fiksi.C39_case"
   ],
   "note": ""
  },
  {
   "property": "C40",
   "status": "proved",
   "theorems": [
    "Fiksi.C40_reflector",
    "Fiksi.C40_empty",
    "Fiksi.C40_case"
   ],
   "note": ""
  },
  {
   "property": "C41",
   "status": "proved",
   "theorems": [
    "Fiksi.C41_length_checked",
    "Fiksi.C41_colamd_solve",
    "Fiksi.C41_solve",
    "Fiksi.C41_case",
    "Fiksi.C41_deficient_panics"
   ],
   "note": "Exact arithmetic. C41_colamd_solve uses the modelled colamd, for workspaces below 2^31 entries. C41_deficient_panics shows that structural rank is needed."
  },
  {
   "property": "C42",
   "status": "proved",
   "theorems": [
    "Fiksi.C42_rows",
    "Fiksi.C42_full_rank",
    "Fiksi.C42_case"
   ],
   "note": ""
  },
  {
   "property": "C43",
   "status": "proved",
   "theorems": [
    "Fiksi.C43_recommended_answers",
    "Fiksi.C43_recommended_suffices"
   ],
   "note": "64-bit usize; the check against the i32 length of the buffer is part of the statement."
  },
  {
   "property": "C44",
   "status": "partial",
   "theorems": [
    "Fiksi.C44_bad_start_partial",
    "Fiksi.C44_too_small_partial",
    "Fiksi.C44_negative_entries_partial",
    "Fiksi.C44_row_out_of_bounds_partial",
    "Fiksi.C44_negative_rows_panics",
    "Fiksi.C44_negative_nnz_panics",
    "Fiksi.C44_overflow_panics"
   ],
   "note": "The first bad start, the workspace, negative column lengths and row indices out of bounds give the documented errors with their values. False for a negative number of rows, a negative number of entries and columns whose length overflows: C44_negative_rows_panics, C44_negative_nnz_panics, C44_overflow_panics."
  },
  {
   "property": "C45",
   "status": "partial",
   "theorems": [
    "Fiksi.C45_sorted_partial",
    "Fiksi.C45_rows_partial",
    "Fiksi.C45_jumbled_wrong",
    "Fiksi.C45_jumbled_undefined"
   ],
   "note": "For sorted columns the row and column forms are exactly the pattern, and for unsorted or repeated row indices the row form and the column lengths are. The re-created columns are wrong in the code (C45_jumbled_wrong), and without aggressive absorption the call leaves its buffers (C45_jumbled_undefined)."
  },
  {
   "property": "C46",
   "status": "proved",
   "theorems": [
    "Fiksi.C46_order_children"
   ],
   "note": ""
  },
  {
   "property": "C47",
   "status": "proved",
   "theorems": [
    "Fiksi.C47_matrix"
   ],
   "note": "For every matrix that passes the checks, sorted or not, with fewer than 2^30 entries."
  },
  {
   "property": "C48",
   "status": "proved",
   "theorems": [
    "Fiksi.C48_structure",
    "Fiksi.C48_counts",
    "Fiksi.C48_fill_counts",
    "Fiksi.C48_case"
   ],
   "note": ""
  },
  {
   "property": "C49",
   "status": "partial",
   "theorems": [
    "Fiksi.C49_constraints_once",
    "Fiksi.C49_elements_at_most_once_partial",
    "Fiksi.C49_step_has_arguments_partial",
    "Fiksi.C49_terminates",
    "Fiksi.C49_square_panics",
    "Fiksi.C49_elements_unowned",
    "Fiksi.C49_missing_argument",
    "Fiksi.C49_distances_in_pairs_partial"
   ],
   "note": "Every reachable system, component and hash order: the search ends; a returned plan solves each constraint exactly once, steps name distinct elements of the component, no element is freed twice; steps contain the arguments of their constraints when components are right. False in general: C49_square_panics, C49_elements_unowned, C49_missing_argument. For distances between points that never join parts the plan has pairs of elements only (C49_distances_in_pairs_partial)."
  },
  {
   "property": "C50",
   "status": "proved",
   "theorems": [
    "Fiksi.C50_pose_isometry",
    "Fiksi.C50_pose_is_motion",
    "Fiksi.C50_new_pose_is_identity",
    "Fiksi.C50_pose_chain_rule"
   ],
   "note": "Over exact reals."
  },
  {
   "property": "C51",
   "status": "proved",
   "theorems": [
    "Fiksi.C51_shapes",
    "Fiksi.C51_once",
    "Fiksi.C51_view_box",
    "Fiksi.C51_single_point_degenerate"
   ],
   "note": "The bounding box of the property is that of the element; the marker and the stroke are not counted (C51_single_point_degenerate)."
  },
  {
   "property": "C52",
   "status": "partial",
   "theorems": [
    "Fiksi.C52_lbfgs_shared_corner_never_returns",
    "Fiksi.C52_lbfgs_jump_never_returns",
    "Fiksi.C52_lbfgs_returns_partial",
    "Fiksi.C52_lbfgs_solve_returns_partial",
    "Fiksi.C52_lbfgs_nan_never_returns",
    "Fiksi.C52_nan_never_returns",
    "Fiksi.C52_qr_returns_partial",
    "Fiksi.C52_solve_returns_partial",
    "Fiksi.C52_rounded_lm_returns_partial",
    "Fiksi.C52_rounded_solve_returns_partial",
    "Fiksi.C52_rounded_recursive_returns_partial",
    "Fiksi.C52_returns_partial",
    "Fiksi.C52_recursive_returns_partial"
   ],
   "note": "Exact arithmetic. LM with the modelled sparse QR and colamd returns, with an explicit bound on the number of linear solves (C52_qr_returns_partial), and so does solve after every legal history of fewer than 2^24 calls with the decomposers None and SinglePass (C52_solve_returns_partial). L-BFGS returns, and so does solve with it, if the constraints have continuous errors and are about distinct points (C52_lbfgs_returns_partial, C52_lbfgs_solve_returns_partial). Both conditions are needed: C52_lbfgs_jump_never_returns, C52_lbfgs_shared_corner_never_returns. False with NaN: C52_nan_never_returns. With RecursiveAssembly solve returns if the plans exist and no constraint joins two constrained parts (C52_recursive_returns_partial). In rounded arithmetic (relative error at most 2^-53 per operation, no overflow or underflow) solve with LM returns after every legal history of fewer than 2^16 calls (C52_rounded_solve_returns_partial; C52_rounded_recursive_returns_partial once the plans exist)."
  },
  {
   "property": "C53",
   "status": "partial",
   "theorems": [
    "Fiksi.C53_solve_any_numbers_partial",
    "Fiksi.C53_recursive_any_numbers_partial",
    "Fiksi.C53_solve_qr_no_panic_partial",
    "Fiksi.C53_solve_no_panic_partial",
    "Fiksi.C53_lm_no_panic",
    "Fiksi.C53_solve_optimizers_no_panic",
    "Fiksi.C53_recursive_panics",
    "Fiksi.C53_recursive_no_panic_partial"
   ],
   "note": "In every arithmetic (C53_solve_any_numbers_partial, C53_recursive_any_numbers_partial): None and SinglePass with the modelled optimisers, sparse QR and colamd, after histories of fewer than 2^24 calls; RecursiveAssembly once its plans exist and no constraint joins two constrained parts. RecursiveAssembly panics while it makes its plan (C53_recursive_panics)."
  },
  {
   "property": "C54",
   "status": "proved",
   "theorems": [
    "Fiksi.C54_buffers_at_step"
   ],
   "note": ""
  },
  {
   "property": "C55",
   "status": "proved",
   "theorems": [
    "Fiksi.C55_colamd_permutation"
   ],
   "note": "Sorted columns; unsorted columns are undefined behaviour in the code (C45_jumbled_undefined)."
  },
  {
   "property": "C56",
   "status": "proved",
   "theorems": [
    "Fiksi.C56_symamd_permutation"
   ],
   "note": ""
  },
  {
   "property": "C57",
   "status": "partial",
   "theorems": [
    "Fiksi.C57_build_overflows",
    "Fiksi.C57_build_partial"
   ],
   "note": "Proved if the workspace of colamd has fewer than 2^31 entries; from 2^30 entries on the i32 product 2*nnz overflows (C57_build_overflows)."
  },
  {
   "property": "C58",
   "status": "partial",
   "theorems": [
    "Fiksi.C58_system_returns_partial",
    "Fiksi.C58_slope",
    "Fiksi.C58_returns_partial",
    "Fiksi.C58_convex_partial",
    "Fiksi.C58_affine",
    "Fiksi.C58_wolfe_fails"
   ],
   "note": "Exact arithmetic. Returns if the objective is tame along the line (C58_returns_partial), which it is for constraints that are continuous or smooth along the line (C58_system_returns_partial); meets the conditions if it is convex with its minimum before 5 (C58_convex_partial) and if the residuals are affine along the line (C58_affine). In general false: C58_wolfe_fails."
  },
  {
   "property": "C59",
   "status": "partial",
   "theorems": [
    "Fiksi.C59_ignored_partial",
    "Fiksi.C59_negative_control",
    "Fiksi.C59_dense_row_kept",
    "Fiksi.C59_symamd_ignored"
   ],
   "note": "Square roots and casts in exact arithmetic. For controls that are not negative the columns placed last and the statistics are characterised exactly (C59_ignored_partial, C59_symamd_ignored). The documentation does not say that entries in dense columns are not counted for rows, and the full claim fails for that reason (C59_dense_row_kept); with negative controls only full rows and columns are dense (C59_negative_control)."
  },
  {
   "property": "C60",
   "status": "proved",
   "theorems": [
    "Fiksi.C60_unit_of_length",
    "Fiksi.C60_binary_unit"
   ],
   "note": ""
  },
  {
   "property": "C61",
   "status": "partial",
   "theorems": [
    "Fiksi.C61_lm_rests",
    "Fiksi.C61_lbfgs_rests",
    "Fiksi.C61_satisfied_rests_partial",
    "Fiksi.C61_crate_satisfied_rests_partial",
    "Fiksi.C61_holding_rests_partial",
    "Fiksi.C61_default_moves"
   ],
   "note": "proved without perturbation, for all decomposers and both optimisers; with the default options false (C61_default_moves): satisfied coincident points are moved apart"
  },
  {
   "property": "C62",
   "status": "partial",
   "theorems": [
    "Fiksi.C62_solved_stays_solved_partial",
    "Fiksi.C62_success_satisfies_partial",
    "Fiksi.C62_singlePass_success_satisfies_partial",
    "Fiksi.C62_all_calls_succeed_partial",
    "Fiksi.C62_success_holds_partial",
    "Fiksi.C62_recursive_distances_partial",
    "Fiksi.C62_recursive_distances_hold_partial",
    "Fiksi.C62_recursive_unsatisfied_after_success",
    "Fiksi.C62_unsatisfied_after_success"
   ],
   "note": "exact arithmetic, decomposers None and SinglePass (for SinglePass if the equations can be paired with variables of their own), histories in which no constraint joins constrained parts; RecursiveAssembly for distances between points, at most seven per pair (C62_recursive_distances_partial). In general false (C62_unsatisfied_after_success), also for RecursiveAssembly with lengths (C62_recursive_unsatisfied_after_success)"
  },
  {
   "property": "C63",
   "status": "partial",
   "theorems": [
    "Fiksi.C63_dense_jacobian_partial",
    "Fiksi.C63_dense_overwrites",
    "Fiksi.C63_cluster_jacobian_is_derivative"
   ],
   "note": "Sparse Jacobian proved. Dense Jacobian (used with L-BFGS) proved when no expression of the problem repeats a variable; false otherwise (C63_dense_overwrites)."
  },
  {
   "property": "C64",
   "status": "proved",
   "theorems": [
    "Fiksi.C64_step_effect",
    "Fiksi.C64_distances_kept"
   ],
   "note": ""
  },
  {
   "property": "C65",
   "status": "partial",
   "theorems": [
    "Fiksi.C65_dense_minimum_partial",
    "Fiksi.C65_first_search_partial",
    "Fiksi.C65_pairs_first",
    "Fiksi.C65_sparse_found",
    "Fiksi.C65_dense_missed",
    "Fiksi.C65_repeated_counted_twice"
   ],
   "note": "With the condition of the code (more than -(D+1) degrees of freedom left) proved for consistent graphs, and for the first search of every component of a reachable system whose constraints have different arguments. The documented condition is another one: C65_sparse_found, C65_dense_missed. Constraints that name an element twice are counted twice (C65_repeated_counted_twice)."
  },
  {
   "property": "C66",
   "status": "proved",
   "theorems": [
    "Fiksi.C66_lm_is_method",
    "Fiksi.C66_method_deterministic",
    "Fiksi.C66_lm_returns_outcome",
    "Fiksi.C66_reasons",
    "Fiksi.C66_small_residuals",
    "Fiksi.C66_tiny_gradient",
    "Fiksi.C66_stationary_stays",
    "Fiksi.C66_subproblems",
    "Fiksi.C66_stuck"
   ],
   "note": ""
  },
  {
   "property": "C67",
   "status": "partial",
   "theorems": [
    "Fiksi.C67_lbfgs_is_method",
    "Fiksi.C67_method_is_lbfgs",
    "Fiksi.C67_method_deterministic",
    "Fiksi.C67_reasons",
    "Fiksi.C67_subproblems_partial"
   ],
   "note": "Exact arithmetic; the relation between problem and objective holds for all subproblems of solve in which no expression uses a variable twice (C67_subproblems_partial). The corrections that count in iterations 1 to 4 are those of the code, not of the method (C27_early_iterations_wrong)."
  },
  {
   "property": "C68",
   "status": "partial",
   "theorems": [
    "Fiksi.C68_descends",
    "Fiksi.C68_good_steps_partial",
    "Fiksi.C68_linear_partial",
    "Fiksi.C68_worse"
   ],
   "note": "False: C68_worse. True for linear residuals (C68_linear_partial); up to 1e-4 if every line search finds a step forwards that meets its conditions (C68_good_steps_partial)."
  },
  {
   "property": "C69",
   "status": "partial",
   "theorems": [
    "Fiksi.C69_coincidences_solved_partial",
    "Fiksi.C69_joined_coincidence_unsolved"
   ],
   "note": "Fewer than 500 calls, exact arithmetic, and no constraint joins two constrained parts (NeverJoins). The last restriction is needed: C69_joined_coincidence_unsolved. The tolerance is sqrt 2 * max(1e-4, (N + 5) 1e-6) in units of the scale of the system, N the number of calls."
  },
  {
   "property": "C70",
   "status": "partial",
   "theorems": [
    "Fiksi.C70_residual_rounding_partial",
    "Fiksi.C70_residual_rounding_binary64_partial",
    "Fiksi.C70_tangency_far_out"
   ],
   "note": "Rounded arithmetic without limits on the exponent: no overflow, underflow or NaN. Degenerate lines and arms are excluded (Proper); atan2 is assumed to have a relative error of at most 2u. For tangency the size contains the coordinates themselves, not only distances; with distances alone the claim is false: C70_tangency_far_out."
  },
  {
   "property": "C71",
   "status": "partial",
   "theorems": [
    "Fiksi.C71_contraction_partial",
    "Fiksi.C71_count_partial",
    "Fiksi.C71_count_wrong",
    "Fiksi.C71_depends_on_hash_order"
   ],
   "note": "For clusters without edges between two frontier vertices; edges may have any number of ends in the core (C71_contraction_partial), with the count that the code makes (C71_count_partial). With an edge between two frontier vertices the result depends on hash order and the edge is lost (C71_depends_on_hash_order); the cluster does not count as a rigid body (C71_count_wrong: -1 instead of 3)."
  },
  {
   "property": "C72",
   "status": "partial",
   "theorems": [
    "Fiksi.C72_any_stays_partial",
    "Fiksi.C72_any_satisfied_stays_partial",
    "Fiksi.C72_assembly_stays_partial",
    "Fiksi.C72_assembly_returns_partial",
    "Fiksi.C72_stays_partial",
    "Fiksi.C72_satisfied_stays_partial",
    "Fiksi.C72_stays_exactly_fails"
   ],
   "note": "All eleven kinds of constraints (C72_stays_partial, C72_any_stays_partial), all decomposers (RecursiveAssembly: C72_assembly_stays_partial, C72_assembly_returns_partial), each number within 4 units of roundoff; nothing moves at all is false: C72_stays_exactly_fails. Missing: angles, point-line distances and tangencies whose lines or arms are shorter than a hundredth of the figure or whose angle is straight (ill conditioned), overflow and underflow."
  },
  {
   "property": "C73",
   "status": "partial",
   "theorems": [
    "Fiksi.C73_unlinked_parts_independent_partial",
    "Fiksi.C73_equal_size_partial",
    "Fiksi.C73_distant_point_stops_solving"
   ],
   "note": "For all changes outside that keep the unit of length (C73_unlinked_parts_independent_partial in every arithmetic; C73_equal_size_partial states the unit of length independently, in exact arithmetic). Without that condition the claim is false, because the unit of length is computed from all elements: C73_distant_point_stops_solving."
  },
  {
   "property": "C74",
   "status": "partial",
   "theorems": [
    "Fiksi.C74_singlePass_prefers_an_axis",
    "Fiksi.C74_turned_figure_solves_alike_partial",
    "Fiksi.C74_lbfgs_turned_figure_partial",
    "Fiksi.C74_lbfgs_returns_turned_partial",
    "Fiksi.C74_far_from_origin_stops_solving"
   ],
   "note": "All turns about the origin and mirrorings, Decomposer::None, no perturbation, exact arithmetic: Levenberg-Marquardt (C74_turned_figure_solves_alike_partial) and, for constraints about distinct points, L-BFGS (C74_lbfgs_turned_figure_partial, C74_lbfgs_returns_turned_partial). False for translations: C74_far_from_origin_stops_solving. False for SinglePass: C74_singlePass_prefers_an_axis. Angles have a cut (C14_straight_angle_fails), so they are only covered for the trivial turn. Missing: RecursiveAssembly, a bound in rounded arithmetic."
  },
  {
   "property": "C75",
   "status": "partial",
   "theorems": [
    "Fiksi.C75_turned_order_irrelevant_partial",
    "Fiksi.C75_lbfgs_order_irrelevant_partial",
    "Fiksi.C75_order_irrelevant_partial",
    "Fiksi.C75_order_of_constraints_matters",
    "Fiksi.C75_singlePass_order_matters"
   ],
   "note": "All permutations of elements and constraints and all exchanges of arguments of symmetric constraints, if no constraint joins parts that were separate; Levenberg-Marquardt, and L-BFGS for constraints about distinct points. Without the condition on joining false: C75_order_of_constraints_matters. For SinglePass false even with it: C75_singlePass_order_matters. Missing: recursive assembly, a bound in rounded arithmetic."
  },
  {
   "property": "C76",
   "status": "partial",
   "theorems": [
    "Fiksi.C76_lengths_solved_partial",
    "Fiksi.C76_shared_point_unsolved"
   ],
   "note": "For constraints of which no two share a point or length (C76_lengths_solved_partial); any number of them, any start with the points apart by more than the perturbation moves them. False if constraints share points: C76_shared_point_unsolved. Missing: chains and trees of distances, other decomposers, L-BFGS, rounded arithmetic."
  },
  {
   "property": "C77",
   "status": "proved",
   "theorems": [
    "Fiksi.C77_only_the_figure_matters",
    "Fiksi.C77_histories_are_forgotten"
   ],
   "note": ""
  },
  {
   "property": "C78",
   "status": "partial",
   "theorems": [
    "Fiksi.C78_checked_is_exact",
    "Fiksi.C78_counts_fit_partial",
    "Fiksi.C78_small_figures_partial",
    "Fiksi.C78_counts_overflow"
   ],
   "note": "Proved: with overflow checks a result is never wrong; with or without checks nothing changes when every part has n elements and k constraints with (2n+2k+3)*2^(n-2)+6k <= 32767 (so for every figure of at most 10 elements and 50 constraints). Full statement false: two points with 32768 distances overflow."
  },
  {
   "property": "C79",
   "status": "proved",
   "theorems": [
    "Fiksi.C79_lower"
   ],
   "note": ""
  },
  {
   "property": "C80",
   "status": "partial",
   "theorems": [
    "Fiksi.C80_colamd_status_partial",
    "Fiksi.C80_symamd_always_ok",
    "Fiksi.C80_symamd_unreported"
   ],
   "note": "Proved exactly for colamd whenever it returns Ok (C80_colamd_status_partial). False for symamd, which reports Ok for every valid input (C80_symamd_always_ok, witness C80_symamd_unreported)."
  },
  {
   "property": "C81",
   "status": "partial",
   "theorems": [
    "Fiksi.C81_joined_worse",
    "Fiksi.C81_not_worse_partial",
    "Fiksi.C81_same_unit_not_worse_partial",
    "Fiksi.C81_default_worse",
    "Fiksi.C81_singlePass_worse",
    "Fiksi.C81_lbfgs_coincidences_not_worse_partial"
   ],
   "note": "Proved with Decomposer::None and no perturbation, in exact arithmetic, for histories in which no constraint joins parts: for Levenberg-Marquardt and all constraints (C81_not_worse_partial, C81_same_unit_not_worse_partial), for L-BFGS and coincidences (C81_lbfgs_coincidences_not_worse_partial). False with perturbation, the default (C81_default_worse), and with SinglePass, which leaves constraints out (C81_singlePass_worse); with Decomposer::None false where a constraint joins parts (C81_joined_worse)."
  },
  {
   "property": "C82",
   "status": "proved",
   "theorems": [
    "Fiksi.C82_damped_step",
    "Fiksi.C82_backward_stable"
   ],
   "note": ""
  },
  {
   "property": "C83",
   "status": "proved",
   "theorems": [
    "Fiksi.C83_error_describes",
    "Fiksi.C83_case"
   ],
   "note": ""
  },
  {
   "property": "C84",
   "status": "proved",
   "theorems": [
    "Fiksi.C84_colamd_first",
    "Fiksi.C84_symamd_first",
    "Fiksi.C84_colamd_case",
    "Fiksi.C84_symamd_case"
   ],
   "note": ""
  },
  {
   "property": "C85",
   "status": "proved",
   "theorems": [
    "Fiksi.C85_colamd_forest",
    "Fiksi.C85_symamd_forest",
    "Fiksi.C85_acyclic",
    "Fiksi.C85_colamd_case",
    "Fiksi.C85_symamd_case",
    "Fiksi.C85_no_fill",
    "Fiksi.C85_qr_forest",
    "Fiksi.C85_qr_case"
   ],
   "note": ""
  },
  {
   "property": "C86",
   "status": "partial",
   "theorems": [
    "Fiksi.C86_centroid_stays_partial",
    "Fiksi.C86_default_shifts",
    "Fiksi.C86_singlePass_shifts",
    "Fiksi.C86_joined_shifts"
   ],
   "note": "Proved with Decomposer::None and no perturbation, in exact arithmetic, for histories in which no constraint joins parts; for Levenberg-Marquardt and all constraints between points, for L-BFGS if the constraints are about distinct points. False with perturbation, the default (C86_default_shifts), and with SinglePass, which keeps points in place for which a constraint is stated twice (C86_singlePass_shifts); with Decomposer::None false where a constraint joins parts (C86_joined_shifts)."
  },
  {
   "property": "C87",
   "status": "partial",
   "theorems": [
    "Fiksi.C87_small_errors_rest",
    "Fiksi.C87_again_partial",
    "Fiksi.C87_second_solve_moves"
   ],
   "note": "Proved if 2m times the square of each of the m residuals, in units of the size of the returned figure, is below 1e-8 (C87_small_errors_rest, C87_again_partial). A first call that met its tolerance is not enough, because the unit of length is that of the present figure: C87_second_solve_moves. With perturbation, the default, a satisfied figure moves (C61_default_moves). RecursiveAssembly in the second call is not covered here (see C72)."
  },
  {
   "property": "C88",
   "status": "partial",
   "theorems": [
    "Fiksi.C88_pinned_point_centre_partial",
    "Fiksi.C88_best_compromise_partial"
   ],
   "note": "Proved for coincidences with Decomposer::None and Levenberg-Marquardt, fewer than 500 calls, exact arithmetic, histories in which no constraint joins parts: the sum of squares of the result is within a factor 1/(1-(2N+2)^2/(3*10^6)) and a small constant of the least one (C88_best_compromise_partial); hence a point that is asked to be at several fixed points ends at their mean (C88_pinned_point_centre_partial). For other constraints the method can stop at a place that is not best (C66_stuck); SinglePass leaves equations out (C81_singlePass_worse), and joined parts are solved against old places (C81_joined_worse)."
  },
  {
   "property": "C89",
   "status": "partial",
   "theorems": [
    "Fiksi.C89_meet_at_centroid_partial"
   ],
   "note": "Proved for satisfiable coincidences with Decomposer::None, Levenberg-Marquardt and no perturbation, fewer than 500 calls, exact arithmetic, histories in which no constraint joins parts (C89_meet_at_centroid_partial). The distance from the centroid is at most (number of points - 1) times the tolerance of C69. False for SinglePass (C86_singlePass_shifts: points at -2, -2, 2 end at -2, -2 and below -1, while the centroid is -2/3) and for joined parts (C86_joined_shifts)."
  },
  {
   "property": "C90",
   "status": "partial",
   "theorems": [
    "Fiksi.C90_symmetry_kept_partial",
    "Fiksi.C90_lbfgs_symmetry_kept_partial",
    "Fiksi.C90_axis_point_partial",
    "Fiksi.C90_singlePass_breaks_symmetry",
    "Fiksi.C90_default_breaks_symmetry"
   ],
   "note": "Proved with Decomposer::None and no perturbation, in exact arithmetic, for turns about the origin and mirrorings in lines through it, for histories in which no constraint joins parts: Levenberg-Marquardt (C90_symmetry_kept_partial, C90_axis_point_partial), L-BFGS for constraints about distinct points (C90_lbfgs_symmetry_kept_partial). False for SinglePass (C90_singlePass_breaks_symmetry) and with perturbation (C90_default_breaks_symmetry)."
  },
  {
   "property": "C91",
   "status": "partial",
   "theorems": [
    "Fiksi.C91_drawn_to_fixed_partial",
    "Fiksi.C91_joined_not_drawn"
   ],
   "note": "Proved for satisfiable coincidences with Decomposer::None and Levenberg-Marquardt, with and without perturbation, fewer than 500 calls, exact arithmetic, histories in which no constraint joins parts (C91_drawn_to_fixed_partial). The distance is at most (number of elements - 1) times the tolerance of C69. False for joined parts (C91_joined_not_drawn). Missing: SinglePass, L-BFGS; with RecursiveAssembly fixed points move (C23_recursive_moves_fixed)."
  },
  {
   "property": "C92",
   "status": "partial",
   "theorems": [
    "Fiksi.C92_line_kept_partial",
    "Fiksi.C92_default_leaves_line",
    "Fiksi.C92_singlePass_line_kept_partial"
   ],
   "note": "Proved for points constrained only by distances and equal lengths among themselves and by incidences with circles around each other, without perturbation, in exact arithmetic, Levenberg-Marquardt, and L-BFGS for constraints about distinct points, for all legal histories, with Decomposer::None (C92_line_kept_partial) and SinglePass (C92_singlePass_line_kept_partial). False with perturbation (C92_default_leaves_line). Missing: RecursiveAssembly, further kinds of constraints among the points."
  },
  {
   "property": "C93",
   "status": "partial",
   "theorems": [
    "Fiksi.C93_pair_shares_way_partial"
   ],
   "note": "Proved with Decomposer::None and no perturbation, in exact arithmetic, for histories in which no constraint joins parts: Levenberg-Marquardt, and L-BFGS for constraints about distinct points (C93_pair_shares_way_partial). Missing: SinglePass, RecursiveAssembly, perturbation, joined parts."
  }
 ]
}