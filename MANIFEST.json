{
 "claims": [
  {
   "property": "C01",
   "status": "proved",
   "theorems": [
    "Hpp.C01_normalise",
    "Hpp.C01_normalise_idempotent",
    "Hpp.C01_normal_form_unique"
   ],
   "note": ""
  },
  {
   "property": "C02",
   "status": "proved",
   "theorems": [
    "Hpp.C02_number_of_rows",
    "Hpp.C02_add_rows",
    "Hpp.C02_count_needs_update",
    "Hpp.C02_disjoint_visit"
   ],
   "note": ""
  },
  {
   "property": "C03",
   "status": "proved",
   "theorems": [
    "Hpp.C03_difference_seg_seg",
    "Hpp.C03_difference_segs_seg",
    "Hpp.C03_difference_seg_segs",
    "Hpp.C03_difference_segs_segs",
    "Hpp.C03_no_crossing",
    "Hpp.C03_unsorted_wrong"
   ],
   "note": ""
  },
  {
   "property": "C04",
   "status": "proved",
   "theorems": [
    "Hpp.C04_sum",
    "Hpp.C04_add_seg",
    "Hpp.C04_add_segs",
    "Hpp.C04_add_segs_multiset"
   ],
   "note": ""
  },
  {
   "property": "C05",
   "status": "proved",
   "theorems": [
    "Hpp.C05_split",
    "Hpp.C05_extract",
    "Hpp.C05_extract_release",
    "Hpp.C05_extract_empty_at_end_asserts"
   ],
   "note": ""
  },
  {
   "property": "C06",
   "status": "partial",
   "theorems": [
    "Hpp.C06_overlap_refuted",
    "Hpp.C06_overlap_partial",
    "Hpp.C06_overlap_symmetrised"
   ],
   "note": "False of the code: an interval strictly inside the second argument is missed (C06_overlap_refuted). C06_overlap_partial characterises the result exactly."
  },
  {
   "property": "C07",
   "status": "proved",
   "theorems": [
    "Hpp.C07_read",
    "Hpp.C07_write",
    "Hpp.C07_write_read",
    "Hpp.C07_read_write",
    "Hpp.C07_blocks",
    "Hpp.C07_copy",
    "Hpp.C07_copy_needs_same_cut"
   ],
   "note": ""
  },
  {
   "property": "C08",
   "status": "proved",
   "theorems": [
    "Hpp.C08_mask_to_intervals",
    "Hpp.C08_mask_cardinal"
   ],
   "note": ""
  },
  {
   "property": "C09",
   "status": "proved",
   "theorems": [
    "Hpp.C09_accepted_compatible"
   ],
   "note": ""
  },
  {
   "property": "C10",
   "status": "proved",
   "theorems": [
    "Hpp.C10_accept_iff_compatible",
    "Hpp.C10_accept_sound"
   ],
   "note": ""
  },
  {
   "property": "C11",
   "status": "proved",
   "theorems": [
    "Hpp.C11_outputs",
    "Hpp.C11_sizes",
    "Hpp.C11_inputs",
    "Hpp.C11_unsorted_inputs_refuted"
   ],
   "note": "Outputs and sizes for every reachable set. The input indices (C11_inputs) need each constraint's input intervals to be sorted, which holds for intervals made by RowBlockIndices normalisation; C11_unsorted_inputs_refuted shows add + shrink without sort loses inputs otherwise."
  },
  {
   "property": "C12",
   "status": "proved",
   "theorems": [
    "Hpp.C12_order",
    "Hpp.C12_incoherent_diverges"
   ],
   "note": "Order respects dependencies when configuration and velocity indices describe the same joints (AllCoherent). C12_incoherent_diverges: without that, add accepts a set whose ordering does not terminate."
  },
  {
   "property": "C13",
   "status": "proved",
   "theorems": [
    "Hpp.C13_solve",
    "Hpp.C13_independent_of_outputs",
    "Hpp.C13_idempotent"
   ],
   "note": ""
  },
  {
   "property": "C14",
   "status": "proved",
   "theorems": [
    "Hpp.C14_insertion_order",
    "Hpp.C14_acceptance_order",
    "Hpp.C14_reorder"
   ],
   "note": ""
  },
  {
   "property": "C15",
   "status": "proved",
   "theorems": [
    "Hpp.C15_velocity",
    "Hpp.C15_derivative",
    "Hpp.C15_jacobian",
    "Hpp.C15_jacobian_unique",
    "Hpp.C15_unsorted_inputs_refuted"
   ],
   "note": "C15_jacobian: the matrix returned is the one defined by the chain rule (unique by C15_jacobian_unique). Output Jacobians must not depend on the uninitialised value passed as first argument. C15_unsorted_inputs_refuted: input columns are lost with unsorted input intervals."
  },
  {
   "property": "C16",
   "status": "proved",
   "theorems": [
    "Hpp.C16_rhs_value",
    "Hpp.C16_fixpoint"
   ],
   "note": ""
  },
  {
   "property": "C17",
   "status": "proved",
   "theorems": [
    "Hpp.C17_set_one",
    "Hpp.C17_set_absent",
    "Hpp.C17_stacked",
    "Hpp.C17_stacked_identity"
   ],
   "note": ""
  },
  {
   "property": "C18",
   "status": "proved",
   "theorems": [
    "Hpp.C18_isSatisfied",
    "Hpp.C18_default_threshold",
    "Hpp.C18_error_size",
    "Hpp.C18_solve_satisfied",
    "Hpp.C18_zero_threshold_refuted",
    "Hpp.C18_each_constraint"
   ],
   "note": "Strict comparison: a zero threshold is never met (C18_zero_threshold_refuted)."
  },
  {
   "property": "C19",
   "status": "proved",
   "theorems": [
    "Hpp.C19_from_config",
    "Hpp.C19_parameter_size",
    "Hpp.C19_check",
    "Hpp.C19_from_config_accepted",
    "Hpp.C19_from_config_idem",
    "Hpp.C19_set_parameter_size_refuted"
   ],
   "note": "For a constraint (Implicit). Setting a right hand side from a vector is done by the solvers, see C17, C24. For a stack of constraints the parameter size stays zero (C19_set_parameter_size_refuted)."
  },
  {
   "property": "C20",
   "status": "proved",
   "theorems": [
    "Hpp.C20_apply_comparison",
    "Hpp.C20_indices",
    "Hpp.C20_set_indices"
   ],
   "note": ""
  },
  {
   "property": "C21",
   "status": "proved",
   "theorems": [
    "Hpp.C21_types",
    "Hpp.C21_defined",
    "Hpp.C21_vector",
    "Hpp.C21_compare"
   ],
   "note": ""
  },
  {
   "property": "C22",
   "status": "proved",
   "theorems": [
    "Hpp.C22_accepted_iff",
    "Hpp.C22_rejected",
    "Hpp.C22_evaluation",
    "Hpp.C22_removed"
   ],
   "note": "Without right hand side function, rightHandSideAt returns the buffer last computed (C22_removed)."
  },
  {
   "property": "C23",
   "status": "proved",
   "theorems": [
    "Hpp.C23_ranks",
    "Hpp.C23_levels",
    "Hpp.C23_dimension",
    "Hpp.C23_active_rows",
    "Hpp.C23_reduced_dimension"
   ],
   "note": ""
  },
  {
   "property": "C24",
   "status": "proved",
   "theorems": [
    "Hpp.C24_get",
    "Hpp.C24_set_get",
    "Hpp.C24_absent",
    "Hpp.C24_stacked"
   ],
   "note": ""
  },
  {
   "property": "C25",
   "status": "partial",
   "theorems": [
    "Hpp.C25_from_config",
    "Hpp.C25_from_config_one",
    "Hpp.C25_equality_satisfied",
    "Hpp.C25_vector_space",
    "Hpp.C25_mixed_refuted"
   ],
   "note": "Exact right hand side for all groups (C25_from_config); error zero when all components are Equality (C25_equality_satisfied) or on vector spaces (C25_vector_space). False for mixed comparison types on a non commutative group (C25_mixed_refuted)."
  },
  {
   "property": "C26",
   "status": "partial",
   "theorems": [
    "Hpp.C26_one_level_partial",
    "Hpp.C26_two_levels_refuted"
   ],
   "note": "Holds when all the constraints have the same priority (C26_one_level_partial). With two non empty levels the call is always out of range (C26_two_levels_refuted)."
  },
  {
   "property": "C27",
   "status": "partial",
   "theorems": [
    "Hpp.C27_add_resets",
    "Hpp.C27_neutral_kept_partial",
    "Hpp.C27_refuted"
   ],
   "note": "False: every addition resets all the right hand sides to neutral (C27_add_resets, C27_refuted). C27_neutral_kept_partial: exactly the neutral ones are kept."
  },
  {
   "property": "C28",
   "status": "proved",
   "theorems": [
    "Hpp.C28_duplicate_throws",
    "Hpp.C28_new_succeeds",
    "Hpp.C28_distinct",
    "Hpp.C28_merge",
    "Hpp.C28_merge_refuted"
   ],
   "note": "merge is proved for solvers whose common functions have equal constraints; otherwise it throws in the middle (C28_merge_refuted)."
  },
  {
   "property": "C29",
   "status": "partial",
   "theorems": [
    "Hpp.C29_statuses",
    "Hpp.C29_success",
    "Hpp.C29_nan_refuted"
   ],
   "note": "Proved for totally ordered numbers, for all behaviours of the numerical steps. False for errors that are not numbers: C29_nan_refuted."
  },
  {
   "property": "C30",
   "status": "partial",
   "theorems": [
    "Hpp.C30_by_substitution",
    "Hpp.C30_backtracking",
    "Hpp.C30_backtracking_refuted",
    "Hpp.C30_solve"
   ],
   "note": "The number of iterations of solve and of the backtracking line search is bounded. The backtracking loop does not end for tau >= 1 (public parameter): C30_backtracking_refuted. The loop of the solver by substitution is bounded too (C30_by_substitution)."
  },
  {
   "property": "C31",
   "status": "partial",
   "theorems": [
    "Hpp.C31_within_bounds",
    "Hpp.C31_idempotent",
    "Hpp.C31_flags_partial",
    "Hpp.C31_flags_last",
    "Hpp.C31_bounds",
    "Hpp.C31_device",
    "Hpp.C31_device_flags_partial",
    "Hpp.C31_device_flags_refuted"
   ],
   "note": "Coordinates: proved for all joint layouts. Flags: proved when no velocity index is shared; false for joints with more coordinates than degrees of freedom: C31_device_flags_refuted."
  },
  {
   "property": "C32",
   "status": "proved",
   "theorems": [
    "Hpp.C32_backtracking",
    "Hpp.C32_backtracking_descent",
    "Hpp.C32_fixed_sequence",
    "Hpp.C32_error_norm",
    "Hpp.C32_error_norm_default"
   ],
   "note": ""
  },
  {
   "property": "C33",
   "status": "partial",
   "theorems": [
    "Hpp.C33_worst",
    "Hpp.C33_satisfied",
    "Hpp.C33_empty_optional",
    "Hpp.C33_nan_refuted"
   ],
   "note": "Proved on ordered groups. False for errors that are not numbers (C33_nan_refuted); undefined for an empty solver with optional last level (C33_empty_optional)."
  },
  {
   "property": "C34",
   "status": "partial",
   "theorems": [
    "Hpp.Alias.C34_original_unaffected",
    "Hpp.Alias.C34_copy_partial",
    "Hpp.Alias.C34_copy_refuted"
   ],
   "note": "The original is independent of its copies. A copy is independent if it is updated before the original is modified; otherwise false: C34_copy_refuted."
  },
  {
   "property": "C35",
   "status": "partial",
   "theorems": [
    "Hpp.C35_agree_partial",
    "Hpp.C35_inequality_refuted",
    "Hpp.C35_optional_refuted"
   ],
   "note": "Holds without inequality and optional level (C35_agree_partial); false with (C35_inequality_refuted, C35_optional_refuted)."
  },
  {
   "property": "C36",
   "status": "partial",
   "theorems": [
    "Hpp.C36_current_partial",
    "Hpp.C36_stale_refuted",
    "Hpp.C36_all_empty_refuted",
    "Hpp.C36_lexicographic",
    "Hpp.C36_level_by_level",
    "Hpp.C36_free_only"
   ],
   "note": "Independent of the past if the first level has rows or there is one level; false otherwise: C36_stale_refuted, C36_all_empty_refuted. The singular value decomposition is assumed exact (SvdOps.Exact, shown to be satisfiable) where optimality is concerned."
  },
  {
   "property": "C37",
   "status": "partial",
   "theorems": [
    "Hpp.C37_isSatisfied",
    "Hpp.C37_statuses",
    "Hpp.C37_explicit_holds",
    "Hpp.C37_success",
    "Hpp.C37_success_all",
    "Hpp.C37_infeasible_partial",
    "Hpp.C37_infeasible_refuted",
    "Hpp.C37_infeasible_step_refuted",
    "Hpp.C37_optimize",
    "Hpp.C37_optimize_best_partial",
    "Hpp.C37_optimize_refuted"
   ],
   "note": "Proved for all behaviours of the numerical steps: statuses, explicit constraints, SUCCESS. C37_isSatisfied: for every solver built by insertion of constraints, SUCCESS implies that the explicit constraints hold, that each mandatory implicit constraint is below the threshold, and that isSatisfied returns true at the returned configuration. INFEASIBLE may be returned although the constraints are satisfied: C37_infeasible_refuted, C37_infeasible_step_refuted. With optimize, an unsatisfied configuration may be returned although a satisfying one was visited: C37_optimize_refuted."
  },
  {
   "property": "C38",
   "status": "partial",
   "theorems": [
    "Hpp.C38_head",
    "Hpp.C38_round_trip_partial",
    "Hpp.C38_head_refuted",
    "Hpp.C38_refuted",
    "Hpp.C38_one_implicit",
    "Hpp.C38_one_explicit_partial",
    "Hpp.C38_hidden_refuted"
   ],
   "note": "rightHandSide(vector) gives the head of the vector to both parts (C38_head): false as soon as the explicit part of the vector is not its head (C38_head_refuted, C38_refuted); C38_round_trip_partial otherwise. Constraint by constraint: C38_one_implicit, C38_one_explicit_partial; false if a function is in both parts (C38_hidden_refuted)."
  },
  {
   "property": "C39",
   "status": "partial",
   "theorems": [
    "Hpp.Extract.C39_hierarchical",
    "Hpp.Extract.C39_by_substitution_partial",
    "Hpp.Extract.C39_explicit_moved_refuted",
    "Hpp.Extract.C39_second_refuted",
    "Hpp.Extract.C39_write_refuted",
    "Hpp.C39_replace"
   ],
   "note": "Holds for HierarchicalIterative (C39_hierarchical). For BySubstitution the extracted solver is right (C39_by_substitution_partial) but explicit_.replace is called on the original, whose explicit set then shares the constraints of the extracted solver: C39_explicit_moved_refuted, C39_second_refuted, C39_write_refuted."
  },
  {
   "property": "C40",
   "status": "partial",
   "theorems": [
    "Hpp.C40_partition",
    "Hpp.C40_refused",
    "Hpp.C40_equal",
    "Hpp.C40_explicit",
    "Hpp.C40_implicit",
    "Hpp.C40_exception",
    "Hpp.C40_enforced",
    "Hpp.C40_mask_refuted"
   ],
   "note": "Each constraint accepted is in exactly one of the two parts, and satisfaction means satisfaction of all of them (C40_partition, C40_enforced). A constraint that differs from one of the solver by its mask only is refused (C40_equal), hence not enforced: C40_mask_refuted."
  },
  {
   "property": "C41",
   "status": "partial",
   "theorems": [
    "Hpp.C41_vector",
    "Hpp.C41_size_partial",
    "Hpp.C41_refuted"
   ],
   "note": "The error vector has one row for each row of each constraint (C41_vector); errorSize counts output variables instead for the explicit ones (C41_size_partial, C41_refuted)."
  },
  {
   "property": "C42",
   "status": "proved",
   "theorems": [
    "Hpp.C42_pseudo_inverse",
    "Hpp.C42_pseudo_inverse_unique",
    "Hpp.C42_span",
    "Hpp.C42_span_of_inverse",
    "Hpp.C42_kernel",
    "Hpp.C42_kernel_of_inverse",
    "Hpp.C42_full",
    "Hpp.C42_thin_refuted",
    "Hpp.C42_project",
    "Hpp.C42_project_unconstrained"
   ],
   "note": "Exact arithmetic, exact decomposition. The flag computeFullV with a thin decomposition gives a wrong projector: C42_thin_refuted."
  },
  {
   "property": "C43",
   "status": "partial",
   "theorems": [
    "Hpp.C43_value",
    "Hpp.C43_domain",
    "Hpp.C43_exception",
    "Hpp.C43_compose",
    "Hpp.C43_jacobian_reversed",
    "Hpp.C43_jacobian_partial",
    "Hpp.C43_jacobian_refuted"
   ],
   "note": "Value, domain, exceptions, composition; Jacobian for reversed intervals. For intervals in increasing order the Jacobian is evaluated at s - t1: C43_jacobian_partial, C43_jacobian_refuted."
  },
  {
   "property": "C44",
   "status": "partial",
   "theorems": [
    "Hpp.C44_subset",
    "Hpp.C44_subset_partial",
    "Hpp.C44_subset_active",
    "Hpp.C44_difference",
    "Hpp.C44_difference_partial",
    "Hpp.C44_difference_active_partial",
    "Hpp.C44_subset_refuted",
    "Hpp.C44_difference_overlap_refuted",
    "Hpp.C44_difference_active_refuted"
   ],
   "note": "In a buffer that is zero out of the selected columns, and for a difference on intervals that do not overlap. Otherwise false: C44_subset_refuted, C44_difference_overlap_refuted, C44_difference_active_refuted. Output spaces: vector spaces."
  },
  {
   "property": "C45",
   "status": "proved",
   "theorems": [
    "Hpp.FD.C45_forward",
    "Hpp.FD.C45_central",
    "Hpp.FD.C45_step",
    "Hpp.FD.C45_points",
    "Hpp.FD.C45_forward_exact",
    "Hpp.FD.C45_central_exact",
    "Hpp.FD.C45_affine"
   ],
   "note": "Exact arithmetic. Stronger than the statement: forward differences exact along each direction where the function is affine, central ones where it is quadratic."
  },
  {
   "property": "C46",
   "status": "partial",
   "theorems": [
    "Hpp.FnEq.C46_symmetric",
    "Hpp.FnEq.C46_reflexive_partial",
    "Hpp.FnEq.C46_congruence_partial",
    "Hpp.FnEq.C46_class",
    "Hpp.FnEq.C46_transitive_partial",
    "Hpp.FnEq.C46_rest_partial",
    "Hpp.FnEq.C46_constant_refuted",
    "Hpp.FnEq.C46_extracted_refuted",
    "Hpp.FnEq.C46_generic_refuted",
    "Hpp.FnEq.C46_relative_com_refuted",
    "Hpp.FnEq.C46_contact_refuted",
    "Hpp.FnEq.C46_contact_undefined_refuted",
    "Hpp.FnEq.C46_set_history_refuted",
    "Hpp.FnEq.C46_manipulability_history_refuted",
    "Hpp.FnEq.C46_bodies_history_refuted",
    "Hpp.FnEq.C46_complement_refuted",
    "Hpp.FnEq.C46_history_partial"
   ],
   "note": "All the classes that define isEqual. Symmetric; reflexive but for constant functions and some contacts; transitive but for constant functions; congruent for the classes that compare all their members, and for the others when the members that are not compared are the same (C46_rest_partial); independent of earlier evaluations but for sets, manipulabilities and distances between bodies. Refuted for constant and extracted functions, transformations, relative center of mass, contacts and their complements; the comparison of sets, manipulabilities and distances depends on the last evaluation."
  },
  {
   "property": "C47",
   "status": "partial",
   "theorems": [
    "Hpp.Sym.C47_derivative_partial",
    "Hpp.Sym.C47_scalar_product_partial",
    "Hpp.Sym.C47_rotation_refuted",
    "Hpp.Sym.C47_cross_refuted",
    "Hpp.Sym.C47_com_refuted"
   ],
   "note": "C47_derivative_partial: along any motion (real analysis, HasDerivAt) the Jacobian computed by the cached algorithm times the velocity is the derivative of the value it computes, for all expression graphs (shared nodes allowed) without cross product of an off-centre point or of the centre of mass and without multiplication by a non transposed rotation; C47_scalar_product_partial the same for scalar products. The three exclusions are bugs of the code, each refuted with a motion: C47_rotation_refuted, C47_cross_refuted, C47_com_refuted."
  },
  {
   "property": "C48",
   "status": "partial",
   "theorems": [
    "Hpp.Sym.C48_order_partial",
    "Hpp.Sym.C48_value_partial",
    "Hpp.Sym.C48_jacobian_first_refuted",
    "Hpp.Sym.C48_cross_overwritten_refuted",
    "Hpp.Sym.C48_com_refuted",
    "Hpp.Sym.C48_uninitialised_refuted"
   ],
   "note": "C48_order_partial: for any history of calls on any expressions sharing nodes, after invalidate and any sequence of calls the value, cross matrix and Jacobian are those of a fresh expression (same class as C47). C48_value_partial: value alone for all expressions except com as left operand of a cross product. Refuted in general: C48_jacobian_first_refuted, C48_cross_overwritten_refuted, C48_com_refuted, C48_uninitialised_refuted."
  },
  {
   "property": "C49",
   "status": "partial",
   "theorems": [
    "Hpp.Pose.C49_round_trip",
    "Hpp.Pose.C49_round_trip_explicit",
    "Hpp.Pose.C49_vector_refuted",
    "Hpp.Pose.C49_solution"
   ],
   "note": "C49_round_trip / C49_round_trip_explicit: both round trips between right hand sides, as poses; C49_solution: for every kinematic tree, after the outputs are set to the computed pose the relative pose of the frames is the right hand side. Eigen's conversions between quaternion and matrix are modelled and proved inverse of each other on rotations; exponential and logarithm of SE(3) are external with their law (exp(log M)=M). As vectors the round trip is not the identity (C49_vector_refuted: a quaternion and its opposite)."
  },
  {
   "property": "C50",
   "status": "proved",
   "theorems": [
    "Hpp.Pose.C50_inputs",
    "Hpp.Pose.C50_path",
    "Hpp.Pose.C50_rel_pose_variables",
    "Hpp.Pose.C50_outputs",
    "Hpp.Pose.C50_descendant_refuted",
    "Hpp.Pose.C50_value"
   ],
   "note": "C50_inputs, C50_path, C50_rel_pose_variables: exact set of input variables in every tree; C50_value: value independent of everything but the argument; C50_outputs: outputs are never inputs when joint 2 is not an ancestor of joint 1; C50_descendant_refuted: they are otherwise, nothing checks this."
  },
  {
   "property": "C51",
   "status": "proved",
   "theorems": [
    "Hpp.Pose.C51_active",
    "Hpp.Pose.C51_value",
    "Hpp.RelPose.C51_function"
   ],
   "note": "Exact set for configuration and velocity variables in every tree; value unchanged when other variables change."
  },
  {
   "property": "C52",
   "status": "partial",
   "theorems": [
    "Hpp.Pose.C52_value",
    "Hpp.Pose.C52_jacobian",
    "Hpp.Pose.C52_jacobian_so3",
    "Hpp.Pose.C52_defined",
    "Hpp.Pose.C52_jacobian_small",
    "Hpp.Pose.C52_small_refuted"
   ],
   "note": "C52_value, C52_jacobian, C52_jacobian_so3: all masks and all shortcuts of the code (identity frames, zero offsets, null joints, full blocks), any content of temporary matrices. C52_defined: undefined exactly when both joints are null. C52_jacobian_small: for angles of relative rotation less than 1e-6, within 1e-6 times the angular velocity of the derivative; equality is false there (C52_small_refuted). Missing: the angle 1e-6 and pi, where the value is not differentiable."
  },
  {
   "property": "C53",
   "status": "partial",
   "theorems": [
    "Hpp.Contact.C53_inside_iff_distance",
    "Hpp.Contact.C53_inside_polygon",
    "Hpp.Contact.C53_distance",
    "Hpp.Contact.C53_reverse_partial",
    "Hpp.Contact.C53_reverse_refuted"
   ],
   "note": "C53_inside_iff_distance for any list of three or more points; C53_inside_polygon: inside test = convex hull; C53_distance: signed distance = distance to the boundary in the plane; C53_reverse_partial: polygons. C53_reverse_refuted: shapes of one and two points keep their normal. Convexity is a hypothesis: the code only asserts that successive edges turn left."
  },
  {
   "property": "C54",
   "status": "partial",
   "theorems": [
    "Hpp.Contact.C54_line",
    "Hpp.Contact.C54_defined",
    "Hpp.Contact.C54_minimal",
    "Hpp.Contact.C54_contact_partial",
    "Hpp.Contact.C54_outline_refuted"
   ],
   "note": "C54_minimal, C54_defined: the minimised quantity is proved to be the squared distance to the floor polygon in the world frame. C54_line: intersection of any line with the plane of the surface, isInside with a line. C54_contact_partial: in contact iff the projection is in the floor, outline excluded; C54_outline_refuted: on the outline the projection is in the floor but the pair is not in contact."
  },
  {
   "property": "C55",
   "status": "partial",
   "theorems": [
    "Hpp.Contact.C55_round_trip_partial",
    "Hpp.Contact.C55_margin_refuted",
    "Hpp.Contact.C55_point_refuted",
    "Hpp.Contact.C55_selected_partial"
   ],
   "note": "C55_round_trip_partial, C55_selected_partial (the radius computed by the code is proved large enough for selected surfaces). Missing: C55_margin_refuted: a non zero normal margin is added and never subtracted; C55_point_refuted: point contacts lose the orientation."
  },
  {
   "property": "C56",
   "status": "partial",
   "theorems": [
    "Hpp.Explicit.C56_zero",
    "Hpp.Explicit.C56_zero_vector",
    "Hpp.Explicit.C56_jacobian_vector_partial",
    "Hpp.Explicit.C56_derivative_vector_partial",
    "Hpp.Explicit.C56_derivative_se3_partial",
    "Hpp.Explicit.C56_derivative_r3so3_partial",
    "Hpp.Explicit.C56_several_factors_refuted"
   ],
   "note": "Zero iff outputs = f(inputs): proved for every product of Lie groups (law of the difference per factor assumed, proved for vector spaces). Jacobian: proved to be the derivative for one factor (vector space, SE(3), R3xSO(3) with at least one input; derivative of the logarithms is a hypothesis). Refuted with two factors or more: rows written out of bounds."
  },
  {
   "property": "C57",
   "status": "partial",
   "theorems": [
    "Hpp.C57_joint_partial",
    "Hpp.C57_in_set",
    "Hpp.C57_accepted",
    "Hpp.C57_ranks",
    "Hpp.C57_index_refuted",
    "Hpp.C57_extra_refuted"
   ],
   "note": "C57_joint_partial, C57_in_set, C57_accepted: constructor from a joint and a value, any joint space, any robot, any set of explicit constraints. C57_index_refuted, C57_extra_refuted: the two other constructors pass the output intervals in the place of the velocity input intervals; the constraint computes nothing, and adding it to a set reads an empty vector (also the index inside the joint is not added to the ranks)."
  },
  {
   "property": "C58",
   "status": "partial",
   "theorems": [
    "Hpp.Log.C58_inverse",
    "Hpp.Log.C58_right_jacobian",
    "Hpp.Log.C58_near_zero",
    "Hpp.Log.C58_derivative",
    "Hpp.Log.C58_derivative_identity",
    "Hpp.Log.C58_derivative_small",
    "Hpp.Log.C58_small_refuted",
    "Hpp.Log.C58_inverse_small_refuted"
   ],
   "note": "C58_inverse: two-sided inverse for every norm in [1e-6, pi); C58_right_jacobian: the closed form used as specification is the derivative of the exponential; C58_derivative: JlogSO3 is the derivative of logSO3 along any motion, for angles in (1e-6, pi) and at the identity; C58_near_zero, C58_derivative_small: limit at zero and, below the threshold 1e-6 where the code returns the identity, within 1e-6 of the exact inverse and of the exact derivative. Equality below 1e-6 is false: C58_inverse_small_refuted, C58_small_refuted. Exact real arithmetic."
  },
  {
   "property": "C59",
   "status": "partial",
   "theorems": [
    "Hpp.Stab.C59_differentiable_partial",
    "Hpp.Stab.C59_unique",
    "Hpp.Stab.C59_kink_refuted",
    "Hpp.Stab.C59_value",
    "Hpp.Stab.C59_zero_iff",
    "Hpp.Stab.C59_derivative_partial",
    "Hpp.Stab.C59_half_refuted",
    "Hpp.Stab.C59_history_refuted",
    "Hpp.Stab.C59_columns"
   ],
   "note": "C59_value, C59_zero_iff: under the contract of qpOASES (existence of a solver that meets it is proved), the value is the minimal squared residual wrench over non-negative forces, zero iff non-negative forces balance gravity. C59_columns: both constructors. C59_differentiable_partial: right after the value, twice the Jacobian is the derivative of the value, which exists where the optimal forces are unique; C59_unique: they are if the wrenches are independent. C59_derivative_partial: same wherever the derivative exists. C59_kink_refuted: otherwise the value may have no derivative. C59_half_refuted: the Jacobian is half the derivative. C59_history_refuted: impl_jacobian uses the matrix of the last value call."
  },
  {
   "property": "C60",
   "status": "partial",
   "theorems": [
    "Hpp.Dist.C60_value_partial",
    "Hpp.Dist.C60_derivative_partial",
    "Hpp.Dist.C60_origin_partial",
    "Hpp.Dist.C60_world_refuted",
    "Hpp.Dist.C60_history_refuted",
    "Hpp.Dist.C60_bodies_value",
    "Hpp.Dist.C60_bodies_derivative_partial"
   ],
   "note": "C60_value_partial, C60_derivative_partial: points of two joints, any history such that the Jacobian is not taken from a stale robot. C60_bodies_value, C60_bodies_derivative_partial: distance between bodies (contract of hpp-fcl as hypothesis). C60_world_refuted: with a second point fixed in the world the second point is ignored. C60_history_refuted: the Jacobian reads the shared robot after a cache hit."
  },
  {
   "property": "C61",
   "status": "partial",
   "theorems": [
    "Hpp.Conf.C61_value",
    "Hpp.Conf.C61_mask",
    "Hpp.Conf.C61_derivative_partial",
    "Hpp.Conf.C61_vector_space",
    "Hpp.Conf.C61_rotation",
    "Hpp.Conf.C61_weights_refuted"
   ],
   "note": "C61_value, C61_mask; C61_derivative_partial, C61_vector_space, C61_rotation: Jacobian is the derivative on vector spaces for any weights, and on rotation groups for equal weights. C61_weights_refuted: with different weights inside a rotation, the Jacobian of the code is not the derivative."
  },
  {
   "property": "C62",
   "status": "proved",
   "theorems": [
    "Hpp.C62_stackable",
    "Hpp.C62_value",
    "Hpp.C62_jacobian",
    "Hpp.C62_active",
    "Hpp.C62_rhs_from_config"
   ],
   "note": ""
  },
  {
   "property": "C63",
   "status": "proved",
   "theorems": [
    "Hpp.Com.C63_value",
    "Hpp.Com.C63_derivative"
   ],
   "note": "C63_value, C63_derivative."
  },
  {
   "property": "C64",
   "status": "partial",
   "theorems": [
    "Hpp.C64_submanifold_iff",
    "Hpp.C64_extracted_rows",
    "Hpp.C64_inclusion_refuted",
    "Hpp.C64_satisfied_partial"
   ],
   "note": "definesSubmanifoldOf compares functions only (C64_submanifold_iff); C64_inclusion_refuted: comparison types and right hand sides are ignored. C64_satisfied_partial: the inclusion of solutions when they agree."
  },
  {
   "property": "C65",
   "status": "partial",
   "theorems": [
    "Hpp.Sym.C65_selected_partial",
    "Hpp.Sym.C65_full",
    "Hpp.Sym.C65_size_refuted"
   ],
   "note": "C65_selected_partial: the selected components are written in order at the beginning of the output; C65_full: default mask. The output size ignores the mask: C65_size_refuted."
  },
  {
   "property": "C66",
   "status": "partial",
   "theorems": [
    "Hpp.C66_save_load_partial",
    "Hpp.C66_rhs_lost_refuted"
   ],
   "note": "Constraints, priorities, ranks, thresholds are restored (C66_save_load_partial); right hand sides and free variables are not (C66_rhs_lost_refuted)."
  },
  {
   "property": "C67",
   "status": "partial",
   "theorems": [
    "Hpp.C67_view_op_view_refuted",
    "Hpp.C67_view_op_view_partial",
    "Hpp.C67_matrix_op_view",
    "Hpp.C67_view_op_matrix"
   ],
   "note": "False for two views (C67_view_op_view_refuted: the right operand is read at the indices of the left one, impl/matrix-view-operation.hh:218); holds when both views use the same intervals (C67_view_op_view_partial) and between a view and a matrix (C67_matrix_op_view, C67_view_op_matrix)."
  },
  {
   "property": "C68",
   "status": "proved",
   "theorems": [
    "Hpp.C68_dependencies"
   ],
   "note": ""
  },
  {
   "property": "C69",
   "status": "proved",
   "theorems": [
    "Hpp.C69_rows",
    "Hpp.C69_created_iff",
    "Hpp.C69_stack_rows",
    "Hpp.C69_stack_canonical"
   ],
   "note": ""
  },
  {
   "property": "C70",
   "status": "partial",
   "theorems": [
    "Hpp.C70_masked_row_partial",
    "Hpp.C70_masked_inequality_refuted"
   ],
   "note": "Holds but for inequalities with positive threshold (C70_masked_row_partial), for which it is false (C70_masked_inequality_refuted)."
  },
  {
   "property": "C71",
   "status": "partial",
   "theorems": [
    "Hpp.C71_active_partial",
    "Hpp.C71_empty_level_refuted"
   ],
   "note": "Holds when each level has a constraint (C71_active_partial); a level without constraint makes the call combine arrays of different sizes (C71_empty_level_refuted)."
  },
  {
   "property": "C72",
   "status": "proved",
   "theorems": [
    "Hpp.C72_columns",
    "Hpp.C72_blocked"
   ],
   "note": ""
  },
  {
   "property": "C73",
   "status": "partial",
   "theorems": [
    "Hpp.C73_test",
    "Hpp.C73_synced",
    "Hpp.C73_rows",
    "Hpp.C73_left_out",
    "Hpp.C73_locked_refuted"
   ],
   "note": "Exact if the free variables are the variables that are not outputs (C73_rows); otherwise rows may be kept although their row in the reduced Jacobian is zero: C73_locked_refuted."
  },
  {
   "property": "C74",
   "status": "partial",
   "theorems": [
    "Hpp.C74_derivative",
    "Hpp.C74_squared_norm",
    "Hpp.C74_reduced",
    "Hpp.C74_locked_refuted"
   ],
   "note": "C74_reduced, C74_derivative (the rows of the reduced Jacobian are the derivatives of the rows of the error along the motions where the explicit constraints hold, unless an inequality is exactly at its limit), C74_squared_norm (no exception), when the free variables agree with the explicit constraints; sizes do not match otherwise: C74_locked_refuted."
  },
  {
   "property": "C75",
   "status": "partial",
   "theorems": [
    "Hpp.C75_implicitDof_partial",
    "Hpp.C75_empty_level_refuted"
   ],
   "note": "True when each level has a constraint (C75_implicitDof_partial); undefined as soon as a level has none (C75_empty_level_refuted, C71_empty_level_refuted)."
  },
  {
   "property": "C76",
   "status": "partial",
   "theorems": [
    "Hpp.Log.C76_injective",
    "Hpp.Log.C76_rotation",
    "Hpp.Log.C76_log_exp",
    "Hpp.Log.C76_small_rotation",
    "Hpp.Log.C76_screw",
    "Hpp.Log.C76_half_turn_refuted",
    "Hpp.Log.C76_screw_small"
   ],
   "note": "Constant velocity motion reaches the argument in unit time: rotations of angle in (1e-6, pi), transforms of angle in [1e-2, pi). C76_screw_small: for transforms of angle in [0, 1e-2), where the code uses truncated series, the motion ends within 1e-18 of the rotation (exactly at it above 1e-6) and within 1e-15 times the size of the translation. C76_small_rotation: below 1e-6 the rotation vector is accurate to 1e-18. C76_injective: two rotations of angle less than pi with the same logarithm are equal. Refuted for an angle of exactly pi (C76_half_turn_refuted: signs of the components)."
  },
  {
   "property": "C77",
   "status": "partial",
   "theorems": [
    "Hpp.Log.C77_derivative",
    "Hpp.Log.C77_derivative_identity",
    "Hpp.Explicit.C77_log3_regular",
    "Hpp.Explicit.C77_log6_regular",
    "Hpp.Log.C77_small_refuted",
    "Hpp.Log.C77_derivative_small"
   ],
   "note": "Exact derivative for angles in (1e-6, pi) other than 1e-2 (there the code switches to truncated series) and at the identity rotation. Used to discharge the hypothesis of C56. C77_derivative_small: for angles less than 1e-6, each coefficient is within 1e-6 (1 + 2 P) of the derivative, where P bounds the coordinates of the translation; equality is false there, because JlogSO3 is an approximation: C77_small_refuted."
  },
  {
   "property": "C78",
   "status": "partial",
   "theorems": [
    "Hpp.Pose.C78_no_parent_partial",
    "Hpp.Pose.C78_refuted"
   ],
   "note": "C78_no_parent_partial: true when the parent of the freeflyer joint is the universe. C78_refuted: false with a parent joint (angular part has the wrong sign)."
  },
  {
   "property": "C79",
   "status": "partial",
   "theorems": [
    "Hpp.Com.C79_value",
    "Hpp.Com.C79_derivative_partial",
    "Hpp.Com.C79_between",
    "Hpp.Com.C79_extra_refuted"
   ],
   "note": "C79_value, C79_between; C79_derivative_partial: columns of the joints. Missing: C79_extra_refuted: the columns of the extra degrees of freedom are left as the caller passed them."
  },
  {
   "property": "C80",
   "status": "proved",
   "theorems": [
    "Hpp.Conf.C80_active",
    "Hpp.Conf.C80_value"
   ],
   "note": "C80_active, C80_value."
  },
  {
   "property": "C81",
   "status": "proved",
   "theorems": [
    "Hpp.Stab.C81_value",
    "Hpp.Stab.C81_pinv",
    "Hpp.Stab.C81_jacobian_times",
    "Hpp.Stab.C81_jacobian_transpose_times",
    "Hpp.Stab.C81_pinv_derivative"
   ],
   "note": "C81_value, C81_pinv, C81_jacobian_times, C81_jacobian_transpose_times, C81_pinv_derivative. The decomposition is a parameter with an exactness contract; existence of a decomposition of every matrix is proved (Verif/Svd/Exists.lean)."
  },
  {
   "property": "C82",
   "status": "proved",
   "theorems": [
    "Hpp.Stab.C82_value",
    "Hpp.Stab.C82_minimal",
    "Hpp.Stab.C82_zero_iff",
    "Hpp.Stab.C82_equilibrium",
    "Hpp.Stab.C82_derivative"
   ],
   "note": "C82_value, C82_minimal, C82_zero_iff, C82_equilibrium, C82_derivative (rank locally constant; no component of the least-squares forces equal to 0 or to minus the precision of isZero)."
  },
  {
   "property": "C83",
   "status": "partial",
   "theorems": [
    "Hpp.Contact.C83_contact_partial",
    "Hpp.Contact.C83_complement_partial",
    "Hpp.Contact.C83_hold_partial",
    "Hpp.Contact.C83_line_refuted"
   ],
   "note": "C83_contact_partial, C83_complement_partial, C83_hold_partial: contacts of points and polygons, unique nearest pair, projection off the outline, rotation where the computed logarithm is exact. C83_line_refuted: for a segment the value is defined and the Jacobian throws."
  },
  {
   "property": "C84",
   "status": "partial",
   "theorems": [
    "Hpp.Contact.C84_line_refuted",
    "Hpp.Contact.C84_plane",
    "Hpp.Contact.C84_defined",
    "Hpp.Contact.C84_point",
    "Hpp.Contact.C84_line_partial"
   ],
   "note": "C84_defined, C84_plane, C84_point: exact characterisation for polygons and points. C84_line_partial: for a segment a direction fixed to the joint and orthogonal to the segment must be opposite to the normal of the floor. C84_line_refuted: a segment lying in the floor is not in contact."
  },
  {
   "property": "C85",
   "status": "partial",
   "theorems": [
    "Hpp.Contact.C85_points",
    "Hpp.Contact.C85_far_refuted"
   ],
   "note": "C85_points: exact content of the result. C85_far_refuted: since floors are reversed by the constructor the sign of the distance is wrong, a surface arbitrarily far above the floor is reported as contact. C85_points shows that what is tested is height > -margin."
  },
  {
   "property": "C86",
   "status": "partial",
   "theorems": [
    "Hpp.Contact.C86_check",
    "Hpp.Contact.C86_inputs",
    "Hpp.Contact.C86_jacobian_partial",
    "Hpp.Contact.C86_satisfied_refuted",
    "Hpp.Contact.C86_jacobian_refuted",
    "Hpp.Contact.C86_point",
    "Hpp.Contact.C86_point_refuted",
    "Hpp.Contact.C86_parent_refuted",
    "Hpp.Contact.C86_output",
    "Hpp.Contact.C86_hold_partial",
    "Hpp.Contact.C86_satisfied_partial",
    "Hpp.Contact.C86_same_joint_partial"
   ],
   "note": "C86_check, C86_inputs: exact conditions of construction and inputs. C86_output: the output value realises any right hand side. C86_hold_partial: polygons keep their pose relative to the floor (computed logarithm exact). C86_satisfied_partial, C86_same_joint_partial: the implicit constraint is satisfied if the pair is still the nearest one, in particular if all floors move together. C86_jacobian_partial: all floors on the same joint, object attached to no joint. C86_satisfied_refuted, C86_jacobian_refuted: floors on different joints. C86_point, C86_point_refuted: the orientation of a point object is not kept. C86_parent_refuted: a freeflyer attached to another joint is accepted."
  },
  {
   "property": "C87",
   "status": "partial",
   "theorems": [
    "Hpp.Pose.C87_jacobian",
    "Hpp.Pose.C87_no_parent_partial",
    "Hpp.Pose.C87_refuted"
   ],
   "note": "C87_jacobian: equivalent to the property of the Jacobian of the explicit function (C78). C87_no_parent_partial: holds if joint 2 is attached to no joint. C87_refuted: false otherwise."
  },
  {
   "property": "C88",
   "status": "partial",
   "theorems": [
    "Hpp.Manip.C88_value",
    "Hpp.Manip.C88_zero_iff",
    "Hpp.Manip.C88_singular",
    "Hpp.Manip.C88_unique",
    "Hpp.Manip.C88_jacobian",
    "Hpp.Manip.C88_tall_refuted"
   ],
   "note": "C88_value, C88_zero_iff (no singular value below the smallest positive normal number), C88_singular, C88_unique, C88_jacobian. C88_tall_refuted: with more rows than active columns the determinant of J J^T is zero and the value may be zero. The decomposition is a parameter with a contract, shown to be satisfiable."
  },
  {
   "property": "C89",
   "status": "partial",
   "theorems": [
    "Hpp.Affine.C89_affine",
    "Hpp.Affine.C89_active",
    "Hpp.Affine.C89_value",
    "Hpp.Affine.C89_identity",
    "Hpp.Affine.C89_constant",
    "Hpp.Affine.C89_identity_active",
    "Hpp.Affine.C89_constant_refuted"
   ],
   "note": "C89_affine, C89_active, C89_value, C89_identity, C89_identity_active, C89_constant. C89_constant_refuted: a constant function declares all its parameters active."
  },
  {
   "property": "C90",
   "status": "partial",
   "theorems": [
    "Hpp.C90_derivative",
    "Hpp.C90_one_level",
    "Hpp.C90_first_level",
    "Hpp.C90_feasible",
    "Hpp.C90_levels_refuted",
    "Hpp.C90_armijo",
    "Hpp.C90_max_refuted"
   ],
   "note": "C90_derivative: what is computed, for every stack of levels. C90_one_level: never positive, zero exactly at critical points. C90_first_level, C90_feasible: several levels. C90_armijo: with one constraint small steps are accepted. C90_levels_refuted: positive with two levels that conflict. C90_max_refuted: the line search compares the maximum over the constraints, which every step may increase although the slope is negative."
  },
  {
   "property": "C91",
   "status": "partial",
   "theorems": [
    "Hpp.C91_converges",
    "Hpp.C91_success",
    "Hpp.C91_line_searches",
    "Hpp.C91_constant",
    "Hpp.C91_constant_iff",
    "Hpp.C91_infeasible_refuted",
    "Hpp.C91_level_by_level_refuted"
   ],
   "note": "C91_converges (any line search with step lengths in [bmin, 1]), C91_line_searches (the four line searches of the library), C91_constant, C91_constant_iff, C91_success (meaning of SUCCESS for each constraint). C91_infeasible_refuted: INFEASIBLE is returned if a solution is too close. C91_level_by_level_refuted: with solveLevelByLevel ERROR_INCREASED is returned for a solvable linear system. Saturation not included (see C110)."
  },
  {
   "property": "C92",
   "status": "partial",
   "theorems": [
    "Hpp.C92_line_searches",
    "Hpp.C92_bounds",
    "Hpp.C92_device",
    "Hpp.C92_by_substitution_partial",
    "Hpp.C92_output_refuted",
    "Hpp.C92_initial_refuted"
   ],
   "note": "C92_bounds, C92_line_searches, C92_device: HierarchicalIterative::solve, any status. C92_by_substitution_partial: variables that are not outputs of explicit constraints. C92_output_refuted: outputs of explicit constraints are computed after the saturation and may be out of bounds with status SUCCESS. C92_initial_refuted: an initial configuration out of the bounds is returned as it is if no iteration is needed."
  },
  {
   "property": "C93",
   "status": "partial",
   "theorems": [
    "Hpp.C93_decomposition",
    "Hpp.C93_shortest_partial",
    "Hpp.C93_unique_partial",
    "Hpp.C93_empty_first_refuted"
   ],
   "note": "C93_shortest_partial, C93_unique_partial: first level not empty, or one level. C93_decomposition: singular value decompositions with full V meet all that is assumed of the decomposition in C36, C90, C91, C94. C93_empty_first_refuted: if the first level is empty the direction contains what a previous iteration left."
  },
  {
   "property": "C94",
   "status": "proved",
   "theorems": [
    "Hpp.C94_converges",
    "Hpp.C94_success",
    "Hpp.C94_quadratic",
    "Hpp.C94_regular",
    "Hpp.C94_global_refuted",
    "Hpp.C94_saturated_regular",
    "Hpp.C94_saturated"
   ],
   "note": "C94_converges, C94_success, C94_quadratic; C94_regular: the hypotheses follow from differentiability with Lipschitz Jacobians on vector spaces. C94_saturated_regular, C94_saturated: the same with computeSaturation and saturation after integration (vector spaces, ball inside the bounds, steps may leave them). C94_global_refuted: convergence is only local. Mandatory levels only (lastIsOptional false)."
  },
  {
   "property": "C95",
   "status": "proved",
   "theorems": [
    "Hpp.C95_parametrises",
    "Hpp.C95_reduced_derivative",
    "Hpp.C95_solver",
    "Hpp.C95_refines",
    "Hpp.C95_linear",
    "Hpp.C95_converges",
    "Hpp.C95_success",
    "Hpp.C95_line_searches"
   ],
   "note": "C95_refines (any space parametrised by the free variables), C95_linear, C95_converges, C95_success, C95_line_searches; vector spaces with the explicit constraint set and the reduced Jacobian of the code: C95_parametrises, C95_reduced_derivative, C95_solver. Explicit constraints defined everywhere, saturation inactive, mandatory levels in C95_solver."
  },
  {
   "property": "C96",
   "status": "partial",
   "theorems": [
    "Hpp.RelPose.C96_ordered",
    "Hpp.RelPose.C96_generic",
    "Hpp.RelPose.C96_contact",
    "Hpp.RelPose.C96_contact_null",
    "Hpp.RelPose.C96_implicit_null",
    "Hpp.RelPose.C96_explicit_partial",
    "Hpp.RelPose.C96_explicit_refuted",
    "Hpp.RelPose.C96_shifted_refuted"
   ],
   "note": "Proved for generic transformations and contact functions. Refuted for explicit_::RelativeTransformation (its value depends on joint1 and on the parent of joint2: C96_explicit_refuted, C96_explicit_partial) and for the implicit form of constant functions whose output interval starts inside the variables of a joint (C96_shifted_refuted)."
  },
  {
   "property": "C97",
   "status": "partial",
   "theorems": [
    "Hpp.RelPose.C97_transformation_partial",
    "Hpp.RelPose.C97_transformation_so3_partial",
    "Hpp.RelPose.C97_constant_partial",
    "Hpp.RelPose.C97_locked",
    "Hpp.RelPose.C97_inequality_refuted",
    "Hpp.RelPose.C97_half_turn_refuted",
    "Hpp.RelPose.C97_shifted_refuted",
    "Hpp.RelPose.C97_incomplete_refuted"
   ],
   "note": "Proved when all the rows are compared with Equality or EqualToZero: transformations with vector values for angles less than pi (uses C76_injective), transformations in R^3 x SO(3) for all angles, constant explicit constraints on all the variables of a joint, locked joints. Refuted: comparison types are not looked at (C97_inequality_refuted), half turns (C97_half_turn_refuted), output interval not aligned with a joint (C97_shifted_refuted), converse (C97_incomplete_refuted: only dimension 6)."
  },
  {
   "property": "C98",
   "status": "partial",
   "theorems": [
    "Hpp.C98_constraint_partial",
    "Hpp.C98_fresh_defined",
    "Hpp.C98_constraint_refuted"
   ],
   "note": "Members that are written or recomputed are restored for every constraint (C98_constraint_partial). False for the two evaluation buffers output_ and logOutput_, neither written nor resized: C98_constraint_refuted shows that rightHandSideFromConfig and rightHandSideAt write out of bounds after reading, for every constraint with a non empty output; C98_fresh_defined shows that they are defined before. The functions are taken to be restored as they were."
  },
  {
   "property": "C99",
   "status": "partial",
   "theorems": [
    "Hpp.C99_round_trip_partial",
    "Hpp.C99_free",
    "Hpp.C99_values_refuted",
    "Hpp.C99_jacobian_fresh",
    "Hpp.C99_jacobian_refuted",
    "Hpp.C99_satisfaction_refuted"
   ],
   "note": "The structure is restored (C99_round_trip_partial, by a simulation between the original history and the insertions made by load; C99_free). False for the rest: right hand sides (a TODO in the code), threshold of the explicit part, which is the machine precision after reading (C99_values_refuted, C99_satisfaction_refuted), and the matrix JeExpanded_, left empty, in which the first iteration writes (C99_jacobian_refuted; C99_jacobian_fresh for a constructed solver). The constraints themselves are taken to be restored, see C98."
  },
  {
   "property": "C100",
   "status": "partial",
   "theorems": [
    "Hpp.Log.C100_history",
    "Hpp.Log.C100_derivative_partial",
    "Hpp.Log.C100_derivative_small",
    "Hpp.Log.C100_small_refuted",
    "Hpp.Log.C100_copy",
    "Hpp.Log.C100_copy_refuted"
   ],
   "note": "Proved for rotations equal to the identity or of angle between 1e-6 and pi, for every mask and history; below 1e-6 refuted (C100_small_refuted), with a bound of 1e-6 on the matrix used (C100_derivative_small).  A copy that is not invalidated uses an uninitialised angle (C100_copy_refuted); once invalidated it behaves as a new one (C100_copy)."
  },
  {
   "property": "C101",
   "status": "partial",
   "theorems": [
    "Hpp.Dist.C101_active",
    "Hpp.Dist.C101_value",
    "Hpp.Dist.C101_empty_refuted",
    "Hpp.Dist.C101_nearest_partial",
    "Hpp.Dist.C101_derivative_partial",
    "Hpp.Dist.C101_extra_refuted",
    "Hpp.Dist.C101_order_refuted"
   ],
   "note": "Activation of the pairs, exceptions and value: the whole statement, for non empty lists of objects (C101_active, C101_value). Jacobian: when the object of the first body is the first one of the pair, without extra configuration space (C101_derivative_partial). Refuted otherwise: C101_order_refuted (nearest points exchanged, wrong sign), C101_extra_refuted (sizes differ), C101_empty_refuted (index out of range)."
  },
  {
   "property": "C102",
   "status": "partial",
   "theorems": [
    "Hpp.ConEq.C102_symmetric",
    "Hpp.ConEq.C102_equal",
    "Hpp.ConEq.C102_locked",
    "Hpp.ConEq.C102_transitive_partial",
    "Hpp.ConEq.C102_copy_partial",
    "Hpp.ConEq.C102_create",
    "Hpp.ConEq.C102_locked_refuted",
    "Hpp.ConEq.C102_partial_refuted"
   ],
   "note": "C102_symmetric, C102_equal, C102_locked and C102_create hold for all constraints. C102_transitive_partial: constraints with constant functions are missing, their comparison is not transitive (C46_constant_refuted). C102_copy_partial: locked degrees of freedom of a joint and locked extra degrees of freedom are missing. C102_partial_refuted: comparing them, even with themselves, reads out of an empty vector. C102_locked_refuted: locked joints created with the same arguments are never equal."
  },
  {
   "property": "C103",
   "status": "partial",
   "theorems": [
    "Hpp.Pose.C103_state",
    "Hpp.Pose.C103_active",
    "Hpp.Pose.C103_create",
    "Hpp.Pose.C103_reference",
    "Hpp.Pose.C103_getter_partial",
    "Hpp.Pose.C103_getter_refuted",
    "Hpp.Pose.C103_exact",
    "Hpp.Pose.C103_small",
    "Hpp.Pose.C103_small_refuted"
   ],
   "note": "C103_state, C103_active, C103_create, C103_reference, C103_exact and C103_small prove the claim with the tests of Eigen up to 1e-12; C103_getter_refuted: reference () returns the inverse of the reference set (C103_getter_partial gives what is returned); C103_small_refuted: below 1e-12 Position and Transformation give different positions."
  },
  {
   "property": "C104",
   "status": "partial",
   "theorems": [
    "Hpp.C104_tangent_partial",
    "Hpp.C104_tangent_refuted",
    "Hpp.C104_bounds",
    "Hpp.C104_bounds_refuted",
    "Hpp.C104_config",
    "Hpp.C104_idempotent",
    "Hpp.C104_affine"
   ],
   "note": "C104_config (kernel, free variables only, closest), C104_idempotent, C104_bounds, C104_affine. C104_tangent_partial: with explicit constraints the projected velocity is tangent exactly when the outputs do not move; C104_tangent_refuted: a tangent velocity is projected on a non tangent one. C104_bounds_refuted: without constraint the result is not saturated. Vector spaces only; the decomposition is exact."
  },
  {
   "property": "C105",
   "status": "proved",
   "theorems": [
    "Hpp.Contact.C105_surfaces",
    "Hpp.Contact.C105_active",
    "Hpp.Contact.C105_value",
    "Hpp.Contact.C105_default",
    "Hpp.Explicit.C105_implicit_active",
    "Hpp.Explicit.C105_implicit_value",
    "Hpp.Explicit.C105_implicit_jacobian_partial"
   ],
   "note": "C105_active (flags, by pairs of surfaces), C105_surfaces (the surfaces are those of the value, same exceptions), C105_value (three contact functions), C105_default (complement and hold: all flags), C105_implicit_active, C105_implicit_value. C105_implicit_jacobian_partial: one factor, as with several factors the Jacobian is not defined (C56_several_factors_refuted). The columns of the Jacobians of contact functions are not covered."
  },
  {
   "property": "C106",
   "status": "partial",
   "theorems": [
    "Hpp.FArch.C106_implicit_evaluates",
    "Hpp.FArch.C106_explicit_evaluates",
    "Hpp.FArch.C106_output_space",
    "Hpp.FArch.C106_affine",
    "Hpp.FArch.C106_constant",
    "Hpp.FArch.C106_identity",
    "Hpp.FArch.C106_com",
    "Hpp.FArch.C106_explicit",
    "Hpp.FArch.C106_implicit",
    "Hpp.FArch.C106_transformation_partial",
    "Hpp.FArch.C106_transformation_refuted"
   ],
   "note": "C106_affine, C106_constant, C106_identity, C106_com, C106_explicit, C106_implicit: the object read is equal to the object written. C106_implicit_evaluates, C106_explicit_evaluates: evaluated from the members that were read, it has the value and the Jacobian of the model of the function that was built. C106_output_space: factors of the output space of a transformation in the order of the coefficients of the value. C106_transformation_partial: all the members of a generic transformation but Vindices_. C106_transformation_refuted: with any non-empty mask, the value is defined before and never after. Robots, joints and center of mass computations are restored by hpp-pinocchio (external)."
  },
  {
   "property": "C107",
   "status": "proved",
   "theorems": [
    "Hpp.Contact.C107_contact",
    "Hpp.Pose.C107_transformation"
   ],
   "note": "C107_transformation, C107_contact. The Jacobians of joints (pinocchio) are inputs; Robot.Kinematic states what is required of them: along a variable of joint a, the joints that descend from a move as one rigid body and the others do not move."
  },
  {
   "property": "C108",
   "status": "proved",
   "theorems": [
    "Hpp.C108_stall",
    "Hpp.C108_descent",
    "Hpp.C108_affine",
    "Hpp.C108_decrease",
    "Hpp.C108_fixed_refuted"
   ],
   "note": "Proved: C108_stall, C108_descent, C108_affine, C108_decrease. C108_fixed_refuted: fails if the lower and upper bounds of a coordinate are equal. One level, all variables free, vector space."
  },
  {
   "property": "C109",
   "status": "partial",
   "theorems": [
    "Hpp.C109_bounds",
    "Hpp.C109_defined",
    "Hpp.C109_default_partial",
    "Hpp.C109_default_refuted",
    "Hpp.C109_device",
    "Hpp.C109_saved_partial",
    "Hpp.C109_saved_refuted"
   ],
   "note": "Proved: C109_bounds, C109_defined, C109_device; positive parts C109_default_partial, C109_saved_partial. C109_default_refuted: Bounds(lb, ub) with configurations larger than velocities. C109_saved_refuted: indices of Bounds are lost in archives."
  },
  {
   "property": "C110",
   "status": "proved",
   "theorems": [
    "Hpp.C110_one_equation",
    "Hpp.C110_constant",
    "Hpp.C110_cycle_refuted"
   ],
   "note": "C110_one_equation, C110_constant: one equation. C110_cycle_refuted: several equations. Vector spaces, all variables free, exact decomposition."
  },
  {
   "property": "C111",
   "status": "proved",
   "theorems": [
    "Hpp.C111_at_limit_refuted",
    "Hpp.C111_reduced_jacobian",
    "Hpp.C111_other_rows",
    "Hpp.C111_squared_norm",
    "Hpp.C111_getters"
   ],
   "note": "C111_reduced_jacobian, C111_other_rows, C111_squared_norm, C111_getters. C111_at_limit_refuted: at the limit of an inequality the row is zero and the error is not differentiable. The derivative of the difference and the Jacobians of the functions are assumed right; the flags of active parameters too where rows are left out."
  },
  {
   "property": "C112",
   "status": "partial",
   "theorems": [
    "Hpp.C112_active_set",
    "Hpp.C112_out_of_range",
    "Hpp.C112_still",
    "Hpp.C112_stopped",
    "Hpp.C112_same_columns",
    "Hpp.C112_flags_refuted"
   ],
   "note": "Value, sizes, Jacobian, velocities, order and nesting, undefined behaviour. The flags are false: all the variables are declared active, C112_flags_refuted."
  },
  {
   "property": "C113",
   "status": "proved",
   "theorems": [
    "Hpp.C113_read",
    "Hpp.C113_write",
    "Hpp.C113_transpose",
    "Hpp.C113_keep",
    "Hpp.C113_block",
    "Hpp.C113_isZero"
   ],
   "note": "Assertions of extract (see C05) are preconditions of block, middleRows and middleCols."
  },
  {
   "property": "C114",
   "status": "proved",
   "theorems": [
    "Hpp.C114_same_steps",
    "Hpp.C114_derivative",
    "Hpp.C114_regular",
    "Hpp.C114_success",
    "Hpp.C114_lost_constraint"
   ],
   "note": "Configuration space: a vector space; output spaces: any, given the derivative of the difference. Without saturation (see C94_saturated) and without optional level."
  },
  {
   "property": "C115",
   "status": "proved",
   "theorems": [
    "Hpp.C115_same_steps",
    "Hpp.C115_level_derivative",
    "Hpp.C115_success",
    "Hpp.C115_satisfied"
   ],
   "note": "Configuration space: a vector space; output spaces of the implicit constraints: any, given the derivative of the difference. Without saturation and without optional level."
  },
  {
   "property": "C116",
   "status": "partial",
   "theorems": [
    "Hpp.Explicit.C116_so2",
    "Hpp.Explicit.C116_so3",
    "Hpp.Explicit.C116_so3_satisfied_partial",
    "Hpp.Explicit.C116_so3_refuted",
    "Hpp.Explicit.C116_locked_ball_refuted",
    "Hpp.Explicit.C116_r2xso2",
    "Hpp.Explicit.C116_se2_satisfied_partial",
    "Hpp.Explicit.C116_se2_refuted",
    "Hpp.Explicit.C116_locked_plane_refuted"
   ],
   "note": "C116_so2: SO(2). C116_so3: exact expression of both sides on SO(3). C116_so3_satisfied_partial: equality where the constraint holds. C116_so3_refuted: elsewhere some velocity gives another derivative; C116_locked_ball_refuted: concrete motion of a locked spherical joint. The differences on SO(2) and SO(3) are those of hpp-pinocchio (external), with the logarithm of tools.hh. C116_r2xso2, C116_se2_satisfied_partial, C116_se2_refuted and C116_locked_plane_refuted: planar joints, with the logarithm of SE(2) of pinocchio (external)."
  },
  {
   "property": "C117",
   "status": "partial",
   "theorems": [
    "Hpp.C117_one_partial",
    "Hpp.C117_absent",
    "Hpp.C117_agree_partial",
    "Hpp.C117_given_threshold_partial",
    "Hpp.C117_hidden_refuted",
    "Hpp.C117_minus_one_refuted"
   ],
   "note": "C117_one_partial, C117_absent: one constraint. C117_agree_partial: all constraints, thresholds of both parts. C117_given_threshold_partial: threshold given by the caller. Missing: false for an explicit constraint whose function is also the function of an implicit one (C117_hidden_refuted), and for the given threshold -1 which the explicit part takes as \"my own threshold\" (C117_minus_one_refuted)."
  },
  {
   "property": "C118",
   "status": "partial",
   "theorems": [
    "Hpp.C118_intervals",
    "Hpp.C118_order",
    "Hpp.C118_saturation",
    "Hpp.C118_line_searches",
    "Hpp.C118_unchanged_partial",
    "Hpp.C118_by_substitution_partial",
    "Hpp.C118_out_of_bounds_refuted",
    "Hpp.C118_resets",
    "Hpp.C118_rhs_refuted",
    "Hpp.C118_add_resets"
   ],
   "note": "C118_intervals, C118_order: the set given, in any order and with overlaps. C118_saturation: variables within their bounds. C118_line_searches: the hypothesis holds for each line search. C118_unchanged_partial, C118_by_substitution_partial: solve. C118_resets, C118_add_resets: right hand sides. Missing: false for variables out of their bounds, which the saturation moves (C118_out_of_bounds_refuted); right hand sides are not kept (C118_rhs_refuted)."
  },
  {
   "property": "C119",
   "status": "partial",
   "theorems": [
    "Hpp.C119_direction",
    "Hpp.C119_one_level",
    "Hpp.C119_levels",
    "Hpp.C119_bounds_partial",
    "Hpp.C119_bounds_refuted",
    "Hpp.C119_singular_refuted"
   ],
   "note": "C119_one_level: value for any sequence of calls with one level. C119_levels: defined iff the recorded ranks fit, recorded ranks, zero iff a level has lost rank. C119_direction: same direction as the model of C36. C119_bounds_partial: no access out of bounds if there are no more rows than free variables. Missing: several levels with more rows than variables may read out of bounds (C119_bounds_refuted); sigma does not vanish at a singular configuration if no greater rank has been met (C119_singular_refuted)."
  },
  {
   "property": "C120",
   "status": "partial",
   "theorems": [
    "Hpp.Contact.C120_frame",
    "Hpp.Contact.C120_aligned_rigid",
    "Hpp.Contact.C120_aligned_partial",
    "Hpp.Contact.C120_aligned_refuted",
    "Hpp.Contact.C120_aligned_origin_refuted"
   ],
   "note": "C120_frame: frame of the surface, all shapes. C120_aligned_rigid: when the aligned frame is a rigid body transformation. C120_aligned_partial: aligned frame for a joint at the origin of the world and unit vectors of the plane or normal vectors. Missing: false for vectors out of the plane (C120_aligned_refuted) and for joints away from the origin of the world (C120_aligned_origin_refuted)."
  },
  {
   "property": "C121",
   "status": "partial",
   "theorems": [
    "Hpp.Contact.C121_mirror_partial",
    "Hpp.Contact.C121_closest_iff",
    "Hpp.Contact.C121_closest_refuted"
   ],
   "note": "C121_mirror_partial: the closest point to the point symmetric to the one given with respect to the first end of the segment. C121_closest_iff: the result is right exactly if the point projects onto the first end. Missing: false otherwise (C121_closest_refuted)."
  },
  {
   "property": "C122",
   "status": "partial",
   "theorems": [
    "Hpp.Contact.C122_leaf_partial",
    "Hpp.Contact.C122_any_partial",
    "Hpp.Contact.C122_converse",
    "Hpp.Contact.C122_point_refuted",
    "Hpp.Contact.C122_half_turn_refuted"
   ],
   "note": "C122_leaf_partial: contact reached, objects that are segments or polygons (half turn about the normal included). C122_any_partial: any value of the contact function, polygons whose frames differ by less than a half turn. C122_converse: full converse. Missing: false for objects reduced to a point (C122_point_refuted) and at a half turn when the contact is not reached (C122_half_turn_refuted)."
  },
  {
   "property": "C123",
   "status": "partial",
   "theorems": [
    "Hpp.C123_result",
    "Hpp.C123_linear_partial",
    "Hpp.C123_line_searches",
    "Hpp.C123_linear_refuted",
    "Hpp.C123_stale_refuted"
   ],
   "note": "C123_result: the verdict, from any configuration. C123_linear_partial with C123_line_searches: linear constraints, from a configuration that satisfies the explicit constraints. Missing: false if the explicit constraints do not hold initially (C123_linear_refuted); for a nonlinear constraint the outcome depends on the error left by an earlier call (C123_stale_refuted). Saturation and the exception are in the model only as an absent computation and as the outcome none."
  },
  {
   "property": "C124",
   "status": "partial",
   "theorems": [
    "Hpp.C124_view",
    "Hpp.C124_assign",
    "Hpp.C124_expression_partial",
    "Hpp.C124_expression_refuted"
   ],
   "note": "C124_view: every functor, destination of the right size. C124_assign: plain assignment, any previous size. C124_expression_partial: plain assignment of an expression. Missing: false for += of an expression of a matrix and a view, the functor is ignored (C124_expression_refuted). Aliasing of the destination with the viewed matrix is not modelled."
  },
  {
   "property": "C125",
   "status": "partial",
   "theorems": [
    "Hpp.RelPose.C125_components",
    "Hpp.RelPose.C125_error_partial",
    "Hpp.RelPose.C125_solve_partial",
    "Hpp.RelPose.C125_half_turn_refuted"
   ],
   "note": "C125_components: rows of any constraint. C125_error_partial, C125_solve_partial: poses of angle less than pi minus the threshold; the angle at the configuration returned is then proved less than pi. Missing: false for half turns (C125_half_turn_refuted: zero error, point at distance 2). The proof shows that the exponential does not increase distances (mean value theorem along the segment, right Jacobian of norm at most 1) and that the logarithm computed is its inverse up to 5e-19. Rounding errors of floating point are not modelled."
  },
  {
   "property": "C126",
   "status": "proved",
   "theorems": [
    "Hpp.Contact.C126_solve",
    "Hpp.Contact.C126_plane",
    "Hpp.Contact.C126_point",
    "Hpp.Contact.C126_converse"
   ],
   "note": "C126_plane, C126_point, C126_converse about the function; C126_solve for the solver. The two components of the logarithm used bound the tilt of the normals from both sides, in the three cases of the formula of logSO3, half turns included (log_tilt). Distances and projections are stated with the polygons given to the constructor, as in C84. Rounding errors of floating point are not modelled."
  },
  {
   "property": "C127",
   "status": "partial",
   "theorems": [
    "Hpp.C127_hierarchical",
    "Hpp.C127_kept",
    "Hpp.C127_again",
    "Hpp.C127_better_partial",
    "Hpp.C127_moves_refuted"
   ],
   "note": "C127_hierarchical, C127_kept and C127_again are complete. C127_better_partial: configurations between a fourth of the squared threshold and the squared threshold are not kept, they are improved by at most two iterations; C127_moves_refuted: with the line search FixedSequence of the code and one equation x = 0, the result of a successful call is moved again by a second one. C127_again assumes that explicit constraints are defined at configurations where they have been solved (their functions read only input variables)."
  },
  {
   "property": "C128",
   "status": "proved",
   "theorems": [
    "Hpp.C128_substitution",
    "Hpp.C128_implicit",
    "Hpp.C128_order",
    "Hpp.C128_direction",
    "Hpp.C128_slope",
    "Hpp.C128_saturation"
   ],
   "note": "Exact arithmetic; the singular value decompositions of the two solvers may be different, both exact. C128_direction, C128_slope and C128_saturation: the descent direction, the slope of backtracking and the columns blocked by saturation depend on a level only through the squared norms of its linearised errors. C128_order: the whole of solve for HierarchicalIterative. C128_substitution: the whole of impl_solve for BySubstitution when both the explicit and the implicit constraints are permuted (explicit constraints defined everywhere, sorted inputs; same free variables). C128_implicit: explicit constraints that may be undefined, inserted in the same order."
  },
  {
   "property": "C129",
   "status": "proved",
   "theorems": [
    "Hpp.C129_line_searches",
    "Hpp.C129_never",
    "Hpp.C129_nothing",
    "Hpp.C129_removable"
   ],
   "note": "C129_line_searches: the configuration returned by each line search is obtained by integration. C129_never: an unsatisfied mandatory constraint out of reach excludes SUCCESS. C129_nothing: no constraint depends on the free variables. C129_removable: removal of a constraint out of reach; the two solvers have the same number of levels, exact arithmetic."
  },
  {
   "property": "C130",
   "status": "proved",
   "theorems": [
    "Hpp.C130_norm",
    "Hpp.C130_line_searches",
    "Hpp.C130_path",
    "Hpp.C130_status_refuted"
   ],
   "note": "The derivative of the difference of a product of Lie groups is assumed diagonal by blocks (hpp-pinocchio). Exact arithmetic. C130_status_refuted: the results are not always the same, because the norm of the error of each constraint is compared with the threshold: there is a configuration where the solver with the parts returns SUCCESS at once and the solver with the stack does not."
  },
  {
   "property": "C131",
   "status": "partial",
   "theorems": [
    "Hpp.C131_step",
    "Hpp.C131_one_iteration",
    "Hpp.C131_many_refuted",
    "Hpp.C131_optional_refuted"
   ],
   "note": "Exact arithmetic, no saturation. C131_many_refuted: for K constraints with equal errors the step to the solution is kept exactly if K is at most 500, and the line search fails exactly if K is at least 880. C131_optional_refuted: with one mandatory and one optional constraint, both satisfied by the step, the line search fails if the optional error is large, because the optional level is counted in the slope (computeLocalSlope) and not in the error (computeError)."
  },
  {
   "property": "C132",
   "status": "proved",
   "theorems": [
    "Hpp.C132_solutions",
    "Hpp.C132_priorities",
    "Hpp.C132_units",
    "Hpp.C132_redundant",
    "Hpp.C132_path",
    "Hpp.C132_conflict_refuted"
   ],
   "note": "Exact arithmetic and decompositions; the first level must not be empty if there are several (see C93_empty_first_refuted). C132_conflict_refuted: without common solution units and priorities matter, the direction is c^2/(c^2+1) for the constraints x = 1 multiplied by c and x = 0."
  },
  {
   "property": "C133",
   "status": "proved",
   "theorems": [
    "Hpp.C133_substitution",
    "Hpp.C133_priorities"
   ],
   "note": "Exact arithmetic and decompositions, no saturation; some constraint of priority 0 has a row to be solved for in both solvers (see C93_empty_first_refuted). Without common solution priorities matter: C132_conflict_refuted. C133_substitution is about BySubstitution::impl_solve, for solvers without optional level."
  },
  {
   "property": "C134",
   "status": "partial",
   "theorems": [
    "Hpp.C134_substitution_iterations",
    "Hpp.C134_optimize",
    "Hpp.C134_substitution_threshold",
    "Hpp.C134_hierarchical_partial",
    "Hpp.C134_substitution_partial",
    "Hpp.C134_by_level_refuted",
    "Hpp.C134_iterations",
    "Hpp.C134_threshold"
   ],
   "note": "Totally ordered numbers. C134_by_level_refuted: with the option to solve level by level, a larger threshold turns a success into a failure. C134_hierarchical_partial, C134_substitution_partial: without this option and with a line search that does not read the threshold (the line search ErrorNormBased does), since the steps themselves change otherwise; the number of iterations alone needs neither (C134_iterations, C134_substitution_iterations). Iterations of the solver by substitution: when the error is initially below the threshold and the solver does not optimize, two iterations must be allowed (only two are performed, the code starts counting at max - 2). Optimization: unless an explicit function is evaluated out of its domain, in which case the configuration out of the domain is returned."
  },
  {
   "property": "C135",
   "status": "proved",
   "theorems": [
    "Hpp.C135_substitution_iterations",
    "Hpp.C135_substitution",
    "Hpp.C135_unit",
    "Hpp.C135_direction",
    "Hpp.C135_slope",
    "Hpp.C135_saturation",
    "Hpp.C135_line_searches",
    "Hpp.C135_iterations"
   ],
   "note": "Real numbers, exact decompositions (so that the truncation of small singular values plays no role). The functions have values in vector spaces, where the derivative of the difference is the identity. The line searches are compared by a specification that the four line searches of the library are shown to meet. The lower bound on the norm of the step is a constant of the code: it is not converted, the steps being the same."
  },
  {
   "property": "C136",
   "status": "proved",
   "theorems": [
    "Hpp.RelPose.C136_root",
    "Hpp.RelPose.C136_relative_transformation",
    "Hpp.RelPose.C136_absolute_refuted",
    "Hpp.RelPose.C136_relative_com",
    "Hpp.RelPose.C136_feet",
    "Hpp.RelPose.C136_distance",
    "Hpp.RelPose.C136_contact",
    "Hpp.RelPose.C136_robot",
    "Hpp.RelPose.C136_floor_refuted",
    "Hpp.RelPose.C136_qp_stability",
    "Hpp.RelPose.C136_stability",
    "Hpp.RelPose.C136_tilted_refuted"
   ],
   "note": "Real numbers. The exceptions are theorems: C136_absolute_refuted, C136_floor_refuted and C136_tilted_refuted are the last sentence of the statement, not exceptions to it. The first sentence is proved for the model of forward kinematics; the others for all states of the robot that are displaced, also when they are not reached by forward kinematics. The solver of quadratic programs and the decomposition are parameters."
  },
  {
   "property": "C137",
   "status": "proved",
   "theorems": [
    "Hpp.C137_numbering",
    "Hpp.C137_direction",
    "Hpp.C137_slope",
    "Hpp.C137_saturation",
    "Hpp.C137_line_searches",
    "Hpp.C137_iterations"
   ],
   "note": "Real numbers, exact decompositions. The bijections are on the natural numbers, so that the numbers of variables of both robots may differ. The list of free variables has no repetition (hypothesis). The work variable dq_ of both solvers corresponds at the start. The four line searches are shown to meet the specification used for them. The implicit constraints only: the graph of explicit constraints is not renumbered."
  },
  {
   "property": "C138",
   "status": "partial",
   "theorems": [
    "Hpp.Stab.C138_test",
    "Hpp.Stab.C138_unique",
    "Hpp.Stab.C138_unique_iff",
    "Hpp.Stab.C138_derivative_partial",
    "Hpp.Stab.C138_passes_refuted",
    "Hpp.Stab.C138_fails_refuted"
   ],
   "note": "C138_test: the forces are optimal, pass checkQPSol, and the meaning of the second test. C138_unique, C138_unique_iff: when the test passes the optimal forces are unique if and only if the contacts that carry a force are independent. C138_derivative_partial: the test passes and these contacts are independent: twice the Jacobian (see C59_half_refuted) is the derivative. C138_passes_refuted: the test passes although the value has no derivative. C138_fails_refuted: the test fails although the Jacobian is the derivative. Real numbers, exact solver; the dual solution of qpOASES is modelled by its definition (the gradient of the objective)."
  },
  {
   "property": "C139",
   "status": "proved",
   "theorems": [
    "Hpp.C139_substitution_iterations",
    "Hpp.C139_explicit",
    "Hpp.C139_line_searches",
    "Hpp.C139_substitution",
    "Hpp.C139_symmetry"
   ],
   "note": "C139_symmetry: HierarchicalIterative (A is any set of configurations, e.g. poses and joint values). C139_substitution: BySubstitution; C139_explicit gives its hypothesis on the explicit constraints from the explicit functions; C139_line_searches: the line searches of the library; C139_substitution_iterations: the iterations alone. C136 tells which functions of the library are unchanged by a displacement. Saturation must not depend on the transformed variables (the position of the root has no bounds). Real numbers, exact decompositions."
  },
  {
   "property": "C140",
   "status": "partial",
   "theorems": [
    "Hpp.C140_units_partial",
    "Hpp.C140_status_refuted",
    "Hpp.C140_direction",
    "Hpp.C140_slope",
    "Hpp.C140_saturation",
    "Hpp.C140_direction_refuted",
    "Hpp.C140_iterations"
   ],
   "note": "C140_direction, C140_slope, C140_saturation: descent direction, slope and saturation of HierarchicalIterative; C140_iterations: the iterations; C140_units_partial: solvers built by insertion of constraints. Partial because false in general: C140_direction_refuted (an under-determined problem has another shortest step in other units), C140_status_refuted (the squared norm of the step is compared with a constant, so that a solvable problem becomes \"infeasible\" in larger units). Not level by level; the first level is not empty. Real numbers, exact decompositions."
  },
  {
   "property": "C141",
   "status": "proved",
   "theorems": [
    "Hpp.C141_same_leaf",
    "Hpp.C141_leaf",
    "Hpp.C141_leaf_component",
    "Hpp.C141_start",
    "Hpp.C141_not_worse",
    "Hpp.C141_kept",
    "Hpp.C141_same_leaf_explicit",
    "Hpp.C141_substitution",
    "Hpp.C141_substitution_start",
    "Hpp.C141_solver",
    "Hpp.C141_solver_start",
    "Hpp.C141_drift_refuted"
   ],
   "note": "C141_start, C141_leaf, C141_leaf_component, C141_kept, C141_not_worse, C141_same_leaf: HierarchicalIterative; C141_substitution, C141_substitution_start, C141_same_leaf_explicit: BySubstitution; C141_solver, C141_solver_start: BySubstitution::rightHandSideFromConfig followed by solve, for solvers built by add. Numerical steps are arbitrary except the error. Components that are not compared by Equality are supposed neutral at q0 (otherwise see C25_mixed_refuted), except in the vector space versions. The drift of repeated calls is C141_drift_refuted."
  },
  {
   "property": "C142",
   "status": "proved",
   "theorems": [
    "Hpp.C142_substitution",
    "Hpp.C142_reached_refuted",
    "Hpp.C142_line_searches",
    "Hpp.C142_any_space",
    "Hpp.C142_bounds",
    "Hpp.C142_vector_space"
   ],
   "note": "C142_bounds: any configuration space; C142_vector_space: condition on the full steps only; C142_line_searches: Constant, Backtracking (default parameters), FixedSequence and ErrorNormBased look only at the segment between the configuration and the full step; C142_substitution: the same for BySubstitution, optimizing or not; C142_reached_refuted: with an upper bound larger than 1 the example succeeds, with the upper bound 1/2 it reports MAX_ITERATION_REACHED."
  },
  {
   "property": "C143",
   "status": "proved",
   "theorems": [
    "Hpp.C143_line_searches",
    "Hpp.C143_success"
   ],
   "note": "C143_success, for the solvers built by add (C114 with bounds, by C142_any_space and the trajectories of C94); C143_line_searches: the step lengths of the four line searches of the library. Configuration space: a vector space. Without optional level, levels solved together."
  },
  {
   "property": "C144",
   "status": "proved",
   "theorems": [
    "Hpp.C144_line_searches",
    "Hpp.C144_success"
   ],
   "note": "C144_success, for the solvers built by add (C115 with bounds, by C142_substitution and the trajectories of C95); C144_line_searches: the step lengths of the four line searches of the library. Configuration space: a vector space; explicit functions defined everywhere. Without optional level, levels solved together."
  },
  {
   "property": "C145",
   "status": "proved",
   "theorems": [
    "Hpp.C145_columns_substitution",
    "Hpp.C145_direction_substitution",
    "Hpp.C145_stays_substitution",
    "Hpp.C145_line_searches",
    "Hpp.C145_columns",
    "Hpp.C145_direction",
    "Hpp.C145_in_bounds",
    "Hpp.C145_stays"
   ],
   "note": "C145_columns, C145_columns_substitution: any number of levels; C145_direction, C145_direction_substitution, C145_stays, C145_stays_substitution: one level; C145_in_bounds: HierarchicalIterative, any number of levels; C145_line_searches: the four line searches. Bounds with an interior (lower < upper); for lower = upper see C108_fixed_refuted. The flags of the variables without bounds are supposed to be zero initially. For BySubstitution the coordinates written by explicit constraints are not covered (see C92)."
  },
  {
   "property": "C146",
   "status": "proved",
   "theorems": [
    "Hpp.C146_rows",
    "Hpp.C146_levels",
    "Hpp.C146_iterations",
    "Hpp.C146_errors",
    "Hpp.C146_success",
    "Hpp.C146_converse_refuted"
   ],
   "note": "C146_rows, C146_levels, C146_iterations, C146_errors: equality of the computations; C146_success: the results, when BySubstitution does not optimize the last level; C146_converse_refuted: no free variable and error between a quarter of the threshold and the threshold."
  },
  {
   "property": "C147",
   "status": "proved",
   "theorems": [
    "Hpp.C147_explicit",
    "Hpp.C147_line_searches",
    "Hpp.C147_kept",
    "Hpp.C147_never",
    "Hpp.C147_nothing"
   ],
   "note": "C147_explicit: the set of explicit constraints; C147_kept: solve in both modes; C147_never, C147_nothing: statuses; C147_line_searches: the four line searches. The counterpart of C129 for BySubstitution. Simplification of the model: when an explicit function is not defined at a configuration (status INFEASIBLE), nothing is stated about the configuration returned."
  },
  {
   "property": "C148",
   "status": "proved",
   "theorems": [
    "Hpp.FD.C148_step",
    "Hpp.FD.C148_vector_space",
    "Hpp.FD.C148_forward",
    "Hpp.FD.C148_central",
    "Hpp.FD.C148_limit",
    "Hpp.FD.C148_central_real",
    "Hpp.FD.C148_central_first_order",
    "Hpp.FD.C148_forward_sharp",
    "Hpp.Manip.C148_manipulability"
   ],
   "note": "Exact arithmetic: the loss of precision due to rounding for small steps is not modelled. C148_forward, C148_central, C148_limit: any integration and any difference of values; C148_central_real, C148_central_first_order: values in vector spaces; C148_forward_sharp: the bound is reached; C148_manipulability."
  },
  {
   "property": "C149",
   "status": "proved",
   "theorems": [
    "Hpp.Stab.C149_forces",
    "Hpp.Stab.C149_iff",
    "Hpp.Stab.C149_sufficient",
    "Hpp.Stab.C149_independent",
    "Hpp.Stab.C149_disagree"
   ],
   "note": "C149_iff is the equivalence, C149_forces the correction, C149_sufficient and C149_independent the comparison with QPStaticStability, C149_disagree the configuration in equilibrium that StaticStability rejects. Exact arithmetic; contracts of the SVD and of qpOASES as in C59 and C82 (both are shown to have models)."
  },
  {
   "property": "C150",
   "status": "proved",
   "theorems": [
    "Hpp.C150_blocked",
    "Hpp.C150_first",
    "Hpp.C150_optional_refuted"
   ],
   "note": "C150_blocked, C150_first: not solving level by level, first level not empty if there are several (see C93_empty_first_refuted). C150_optional_refuted: an optional level prevents the mandatory one from being solved, line search Constant."
  },
  {
   "property": "C151",
   "status": "proved",
   "theorems": [
    "Hpp.C151_backtracking_refuted",
    "Hpp.C151_direction",
    "Hpp.C151_ignored",
    "Hpp.C151_solver",
    "Hpp.C151_line_searches"
   ],
   "note": "C151_direction: the direction; C151_ignored: the whole of solve for any levels; C151_solver: for a solver built by insertions, all the rows of which depend on a free variable (Kept); C151_line_searches. C151_backtracking_refuted: with Backtracking, one mandatory and one optional constraint, the step to the solution is accepted without the optional level and divided by 5 with it, although the optional level is not used for the direction."
  },
  {
   "property": "C152",
   "status": "proved",
   "theorems": [
    "Hpp.C152_stops",
    "Hpp.C152_all",
    "Hpp.C152_documented_refuted"
   ],
   "note": "C152_stops, C152_all: the levels that are read, by the linearised error (linError); C152_documented_refuted: three levels on which the documented criterion (the level is not satisfied) is wrong in both directions."
  },
  {
   "property": "C153",
   "status": "proved",
   "theorems": [
    "Hpp.C153_solver",
    "Hpp.C153_each",
    "Hpp.C153_solve",
    "Hpp.C153_five_refuted"
   ],
   "note": "C153_each: the levels satisfied after k iterations; C153_solve: the result; C153_solver: the same for the rows, errors and reduced Jacobians that a solver computes for the constraints inserted, on a vector space; C153_five_refuted: the five levels x0 = 1, x1 = x0, ..., x4 = x3, for which ERROR_INCREASED is returned one iteration before the solution. Exact arithmetic. The counterpart of C91 for this option."
  },
  {
   "property": "C154",
   "status": "proved",
   "theorems": [
    "Hpp.C154_substitution",
    "Hpp.C154_direction",
    "Hpp.C154_gaps",
    "Hpp.C154_first_refuted"
   ],
   "note": "C154_direction: removal of the levels without rows; C154_gaps: solve for solvers built by insertions; C154_substitution: BySubstitution; C154_first_refuted: one constraint with priority 0 or 1, the results differ by any direction left by a previous call in the kernel of the Jacobian. Exact arithmetic."
  },
  {
   "property": "C155",
   "status": "proved",
   "theorems": [
    "Hpp.C155_substitution",
    "Hpp.C155_substitution_refuted",
    "Hpp.C155_optimize",
    "Hpp.C155_optimize_refuted",
    "Hpp.C155_explicit",
    "Hpp.C155_resume",
    "Hpp.C155_increased_refuted",
    "Hpp.C155_line_search_refuted",
    "Hpp.C155_calls"
   ],
   "note": "C155_resume: all statuses; C155_calls: any number of calls; C155_increased_refuted: one call returns ERROR_INCREASED, two calls return SUCCESS (levels of C153_five_refuted); C155_line_search_refuted: FixedSequence; C155_substitution, C155_substitution_refuted: solver by substitution without optimization, for explicit constraints that keep what they return; C155_explicit: this holds for every solver built by insertions; C155_optimize, C155_optimize_refuted: with optimization. Totally ordered numbers."
  },
  {
   "property": "C156",
   "status": "proved",
   "theorems": [
    "Hpp.C156_progress",
    "Hpp.C156_count",
    "Hpp.C156_substitution",
    "Hpp.C156_substitution_count",
    "Hpp.C156_larger_refuted"
   ],
   "note": "C156_progress and C156_count: hierarchical solver; C156_substitution and C156_substitution_count: solver by substitution without optimization; the theorems on counts: at least (n - 2) / 3 of n iterations decrease the error; C156_larger_refuted: the error returned is not bounded in terms of the initial error. Totally ordered numbers."
  }
 ]
}