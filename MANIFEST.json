{
 "claims": [
  {
   "property": "C01",
   "status": "proved",
   "theorems": [
    "Verif.Discover.Claims.C01_finish_wellformed",
    "Verif.Discover.Claims.C01_finish_complete_unchanged",
    "Verif.Discover.Claims.C01_finish_multi",
    "Verif.Discover.Claims.C01_finish_empty"
   ],
   "note": "np.random.choice is an arbitrary function into arity-0 tokens"
  },
  {
   "property": "C04",
   "status": "proved",
   "theorems": [
    "Verif.Discover.Claims.C04_parent_sibling",
    "Verif.Discover.Claims.C04_at_once",
    "Verif.Discover.Claims.C04_arity3_counterexample"
   ],
   "note": "arities at most two, as in every shipped library; counterexample shows arity 3 would break it"
  },
  {
   "property": "C05",
   "status": "partial",
   "theorems": [
    "Verif.Discover.Claims.C05_ancestors_exact",
    "Verif.Discover.Claims.C05_ancestors_partial",
    "Verif.Discover.Claims.C05_binary_counterexample"
   ],
   "note": "False for binary effectors (second operand not detected): exact behaviour proved, full property for unary effectors, counterexample for binary ones"
  },
  {
   "property": "C06",
   "status": "partial",
   "theorems": [
    "Verif.Discover.Claims.C06_relational",
    "Verif.Discover.Claims.C06_descendant_unary",
    "Verif.Discover.Claims.C06_descendant_partial",
    "Verif.Discover.Claims.C06_program_with_length",
    "Verif.Discover.Claims.C06_filler_counterexample",
    "Verif.Discover.Claims.C06_descendant_counterexample"
   ],
   "note": "All relationships proved; descendant only for unary effectors (code defect); programs completed by random fillers (no length constraint) may violate constraints"
  },
  {
   "property": "C07",
   "status": "proved",
   "theorems": [
    "Verif.Discover.Claims.C07_no_nested_trig"
   ],
   "note": "needs the right-operand constraint for binary derivative operators"
  },
  {
   "property": "C08",
   "status": "proved",
   "theorems": [
    "Verif.Discover.Claims.C08_max_length",
    "Verif.Discover.Claims.C08_episode_length",
    "Verif.Discover.Claims.C08_min_length",
    "Verif.Discover.Claims.C08_never_stuck",
    "Verif.Discover.Claims.C08_max2_counterexample",
    "Verif.Discover.Claims.C08_stuck_counterexample"
   ],
   "note": "max>=3; progress needs a unary operator (counterexamples otherwise)"
  },
  {
   "property": "C09",
   "status": "proved",
   "theorems": [
    "Verif.Discover.Claims.C09_repeat",
    "Verif.Discover.Claims.C09_max0_counterexample",
    "Verif.Discover.Claims.C12_repeat"
   ],
   "note": "max>=1 (counterexample for 0)"
  },
  {
   "property": "C10",
   "status": "proved",
   "theorems": [
    "Verif.Discover.Claims.C10_mentions_state",
    "Verif.Discover.Claims.C10_single_token_counterexample"
   ],
   "note": ""
  },
  {
   "property": "C11",
   "status": "proved",
   "theorems": [
    "Verif.Discover.Claims.C11_no_inverse_pair"
   ],
   "note": ""
  },
  {
   "property": "C12",
   "status": "partial",
   "theorems": [
    "Verif.Discover.Claims.C12_relational",
    "Verif.Discover.Claims.C12_trig",
    "Verif.Discover.Claims.C12_trig_tree",
    "Verif.Discover.Claims.C12_repeat",
    "Verif.Discover.Claims.C12_repeat_mask",
    "Verif.Discover.Claims.C12_length",
    "Verif.Discover.Claims.C12_noInputs",
    "Verif.Discover.Claims.C12_inverse",
    "Verif.Discover.Claims.C12_descendant_partial",
    "Verif.Discover.Claims.C12_nested_effector_counterexample",
    "Verif.Discover.Claims.C12_effector_count_counterexample",
    "Verif.Discover.Claims.C12_target_effector_counterexample",
    "Verif.Discover.Claims.C12_lchild_rchild_raise"
   ],
   "note": "Exact for child/sibling/uchild/trig/repeat/length/no-inputs/inverse; the descendant check is sound but incomplete (code defects, counterexamples) and left/right child checks raise"
  },
  {
   "property": "C13",
   "status": "partial",
   "theorems": [
    "Verif.Discover.Claims.C13_recorded_partial",
    "Verif.Discover.Claims.C13_network_input",
    "Verif.Discover.Claims.C13_priors",
    "Verif.Discover.Claims.C13_dangling_counterexample"
   ],
   "note": "False for the dangling column (in-place update before recording); proved for action, parent, sibling, priors and hence for the default network input"
  },
  {
   "property": "C41",
   "status": "proved",
   "theorems": [
    "Verif.Discover.Claims.C41_prior_at_once"
   ],
   "note": ""
  },
  {
   "property": "C42",
   "status": "proved",
   "theorems": [
    "Verif.Discover.Claims.C42_replay"
   ],
   "note": ""
  },
  {
   "property": "C43",
   "status": "partial",
   "theorems": [
    "Verif.Discover.Claims.C43_policy_outputs_partial",
    "Verif.Discover.Claims.C43_first_step",
    "Verif.Discover.Claims.C43_recurrent_counterexample"
   ],
   "note": "False: the sampling loop never passes the recurrent state on; proved for state-independent outputs and the first step"
  },
  {
   "property": "C02",
   "status": "proved",
   "theorems": [
    "Verif.Discover.Claims.C02_rebuild_preorder",
    "Verif.Discover.Claims.C02_preorder_rebuild",
    "Verif.Discover.Claims.C02_rebuild_fails_iff",
    "Verif.Discover.Claims.C02_traversal_determines_tree",
    "Verif.Discover.Claims.C02_walk",
    "Verif.Discover.Claims.C02_walk_arity3"
   ],
   "note": "Python's recursion limit is the fuel parameter (any fuel at least the length)"
  },
  {
   "property": "C03",
   "status": "proved",
   "theorems": [
    "Verif.Discover.Claims.C03_execute_eval",
    "Verif.Discover.Claims.C03_value_iff",
    "Verif.Discover.Claims.C03_derivative_axis",
    "Verif.Discover.Claims.C03_numpy_never_raises"
   ],
   "note": "operator semantics and data are arbitrary parameters; a failing data read (index out of range) raises, as in the code; the torch version is covered by C03_execute_eval and C03_value_iff"
  },
  {
   "property": "C18",
   "status": "partial",
   "theorems": [
    "Verif.Discover.Claims.C18_terms_partial",
    "Verif.Discover.Claims.C18_signs_partial",
    "Verif.Discover.Claims.C18_sub_sub_counterexample",
    "Verif.Discover.Claims.C18_sub_add_counterexample",
    "Verif.Discover.Claims.C18_names",
    "Verif.Discover.Claims.C18_signs"
   ],
   "note": "The terms are right and some choice of signs makes the sum right (regression refits coefficients); the signs the code records are wrong when a sum or difference is subtracted (counterexamples)"
  },
  {
   "property": "C44",
   "status": "proved",
   "theorems": [
    "Verif.Discover.Claims.C44_reconstruct",
    "Verif.Discover.Claims.C44_split_reconstruct",
    "Verif.Discover.Claims.C44_pad_finish",
    "Verif.Discover.Claims.C44_too_long"
   ],
   "note": ""
  },
  {
   "property": "C45",
   "status": "proved",
   "theorems": [
    "Verif.Discover.Claims.C45_mutate_single",
    "Verif.Discover.Claims.C45_mutate_term",
    "Verif.Discover.Claims.C45_cross_over"
   ],
   "note": "random draws are arbitrary"
  },
  {
   "property": "C14",
   "status": "partial",
   "theorems": [
    "Verif.Memory.Claims.C14_bookkeeping",
    "Verif.Memory.Claims.C14_keeps_best_partial",
    "Verif.Memory.Claims.C14_reading_partial",
    "Verif.Memory.Claims.C14_rescored_counterexample",
    "Verif.Memory.Claims.C14_rm_same_counterexample",
    "Verif.Memory.Claims.C14_rm_same_refuses",
    "Verif.Memory.Claims.C14_rm_same_replaces",
    "Verif.Memory.Claims.C14_rm_same_otherwise"
   ],
   "note": "Size, uniqueness and membership for every history; best-of-all-pushes when an identifier always comes with the same score (a better score for a held identifier is ignored: counterexample) and without remove-same-rewards (counterexample for every n)"
  },
  {
   "property": "C15",
   "status": "proved",
   "theorems": [
    "Verif.Memory.Claims.C15_recent",
    "Verif.Memory.Claims.C15_recent_unbounded",
    "Verif.Memory.Claims.C15_zero_counterexample"
   ],
   "note": "capacity at least one (a queue of capacity 0 holds one item: counterexample)"
  },
  {
   "property": "C16",
   "status": "partial",
   "theorems": [
    "Verif.Discover.Claims.C16_same_object_partial",
    "Verif.Discover.Claims.C16_counts_partial",
    "Verif.Discover.Claims.C16_width_counterexample"
   ],
   "note": "Full property per array item size; different expressions never share an object across item sizes; the same expression as int64 and int32 array gives two objects (counterexample)"
  },
  {
   "property": "C46",
   "status": "partial",
   "theorems": [
    "Verif.Discover.Claims.C46_lookup_partial",
    "Verif.Discover.Claims.C46_stochastic_counterexample"
   ],
   "note": "Holds for requests through the cache; fails for stochastic tasks, which bypass it"
  },
  {
   "property": "C17",
   "status": "proved",
   "theorems": [
    "Verif.Discover.Searcher.Claims.C17_best_is_max",
    "Verif.Discover.Searcher.Claims.C17_monotone",
    "Verif.Discover.Searcher.Claims.C17_best_expression",
    "Verif.Discover.Searcher.Claims.C17_raises_iff",
    "Verif.Discover.Searcher.Claims.C17_raises_counterexample",
    "Verif.Discover.Searcher.Claims.C17_first_best"
   ],
   "note": "rewards finite or NaN; invalid programs have non-positive reward (shipped tasks); numpy's tie-breaking and quantile position arbitrary; exact condition under which an iteration raises; the final replacement of best_p by stability selection is not modelled; a GP aggregator (not offered by the estimators) is taken not to change the submitted list, which it does for equal rewards (C161)"
  },
  {
   "property": "C19",
   "status": "proved",
   "theorems": [
    "Verif.Claims.C19_wellformed",
    "Verif.Claims.C19_partition",
    "Verif.Claims.C19_depth_one_raises",
    "Verif.Claims.built_tables_ok"
   ],
   "note": "depth limit at least two (a limit of one raises IndexError, proved); the tables of every successfully built context meet the hypotheses (built_tables_ok)"
  },
  {
   "property": "C20",
   "status": "partial",
   "theorems": [
    "Verif.Claims.C20_wellformed_partial",
    "Verif.Claims.C20_keeps_shape_partial",
    "Verif.Claims.built_tables_xden",
    "Verif.Claims.C20_x_field_counterexample",
    "Verif.Claims.C20_operator_pick_exists",
    "Verif.Claims.C20_leaf_pick_exists",
    "Verif.Claims.C20_hang_counterexample"
   ],
   "note": "Holds whenever \"x\" names only a spatial axis; a field or parameter called x breaks it in simple mode (counterexample); the leaf loop never ends on a grid with a single spatial axis not called x (counterexample)"
  },
  {
   "property": "C23",
   "status": "partial",
   "theorems": [
    "Verif.Claims.C23_roundtrip",
    "Verif.Claims.C23_parse_sound_partial",
    "Verif.Claims.C23_roundtrip_single",
    "Verif.Claims.C23_unknown_axes_counterexample"
   ],
   "note": "Full with a list of known axes; without it multi-letter axes are misread (counterexample)"
  },
  {
   "property": "C24",
   "status": "partial",
   "theorems": [
    "Verif.Claims.C24_refused",
    "Verif.Claims.C24_no_collision_partial",
    "Verif.Claims.C24_total",
    "Verif.Claims.C24_chain_counterexample"
   ],
   "note": "Everything except that a non-conflicting name is renamed when an earlier field was given it (counterexample)"
  },
  {
   "property": "C29",
   "status": "partial",
   "theorems": [
    "Verif.Claims.C29_tables_partial",
    "Verif.Claims.C29_no_derivative_partial",
    "Verif.Claims.C29_terms",
    "Verif.Claims.C29_param_counterexample",
    "Verif.Claims.C29_primary_axis",
    "Verif.Claims.C29_primary_refused",
    "Verif.Claims.C29_first_axis",
    "Verif.Claims.C29_clash",
    "Verif.Claims.C29_operators"
   ],
   "note": "Names of user parameter fields are not checked for derivative names (counterexample)"
  },
  {
   "property": "C48",
   "status": "proved",
   "theorems": [
    "Verif.Claims.C48_unique_reading",
    "Verif.Claims.C48_ambiguous_rejected"
   ],
   "note": ""
  },
  {
   "property": "C49",
   "status": "proved",
   "theorems": [
    "Verif.Claims.C49_names_distinct",
    "Verif.Claims.C49_data"
   ],
   "note": ""
  },
  {
   "property": "C47",
   "status": "proved",
   "theorems": [
    "Verif.Claims.C47_value",
    "Verif.Claims.C47_rejected"
   ],
   "note": "For the terms the search generates and mutates, under the conditions that guarantee legal terms (x only names an axis)"
  },
  {
   "property": "C21",
   "status": "proved",
   "theorems": [
    "Verif.Claims.C21_aligned",
    "Verif.Claims.C21_idempotent"
   ],
   "note": ""
  },
  {
   "property": "C22",
   "status": "proved",
   "theorems": [
    "Verif.Claims.C22_elitist",
    "Verif.Claims.C22_never_raises",
    "Verif.Claims.C22_start",
    "Verif.Claims.C22_best",
    "Verif.Claims.C22_usable"
   ],
   "note": "Scores compared as np.argsort does (NaN last); reported best and absence of exceptions when no score is NaN"
  },
  {
   "property": "C28",
   "status": "proved",
   "theorems": [
    "Verif.Claims.C28_first",
    "Verif.Claims.C28_second",
    "Verif.Claims.C28_short",
    "Verif.Claims.C28_linear"
   ],
   "note": "Exact arithmetic in any field with 2 ≠ 0"
  },
  {
   "property": "C30",
   "status": "partial",
   "theorems": [
    "Verif.Claims.C30_support_partial",
    "Verif.Claims.C30_never_readmitted",
    "Verif.Claims.C30_rounds",
    "Verif.Claims.C30_all_below_counterexample",
    "Verif.Claims.C30_at_tolerance_counterexample"
   ],
   "note": "Fails as stated when every coefficient is below the tolerance at the first round (dense, un-normalised coefficients are returned) and for a coefficient exactly at the tolerance; both are proved as counterexamples"
  },
  {
   "property": "C31",
   "status": "partial",
   "theorems": [
    "Verif.Claims.C31_best_partial",
    "Verif.Claims.C31_nan_counterexample"
   ],
   "note": "Holds when no score is NaN; a NaN score of the dense fit freezes the answer (counterexample proved)"
  },
  {
   "property": "C36",
   "status": "partial",
   "theorems": [
    "Verif.Claims.C36_extract_partial",
    "Verif.Claims.C36_latex",
    "Verif.Claims.C36_shown",
    "Verif.Claims.C36_concise",
    "Verif.Claims.C36_nan_counterexample"
   ],
   "note": "Proved for every coefficient vector, where a coefficient reaches the tolerance if it is not below it; a NaN coefficient counts as reaching it and is shown as 1 (C36_nan_counterexample)"
  },
  {
   "property": "C37",
   "status": "partial",
   "theorems": [
    "Verif.Claims.C37_delta",
    "Verif.Claims.C37_edge_partial",
    "Verif.Claims.C37_edge_length",
    "Verif.Claims.C37_interior",
    "Verif.Claims.C37_param_counterexample",
    "Verif.Claims.C37_single_point_counterexample"
   ],
   "note": "Holds for fields and coordinates; parameter fields are not trimmed (counterexample) and a one-point axis is trimmed to nothing"
  },
  {
   "property": "C40",
   "status": "partial",
   "theorems": [
    "Verif.Claims.C40_legacy_partial",
    "Verif.Claims.C40_inferred_partial",
    "Verif.Claims.C40_explicit_counterexample"
   ],
   "note": "Holds for legacy datasets and for N-D datasets without explicit choice; every explicit choice with an N-D dataset raises (proved)"
  },
  {
   "property": "C50",
   "status": "proved",
   "theorems": [
    "Verif.Claims.C50_text_determines_term",
    "Verif.Claims.C50_text_determines_candidate",
    "Verif.Claims.C50_search_terms",
    "Verif.Claims.C50_search_candidates"
   ],
   "note": ""
  },
  {
   "property": "C51",
   "status": "partial",
   "theorems": [
    "Verif.Claims.C51_leaf_letters",
    "Verif.Claims.C51_leaf_injective",
    "Verif.Claims.C51_leibniz_partial",
    "Verif.Claims.C51_subscript_partial",
    "Verif.Claims.C51_value_partial",
    "Verif.Claims.exCtx_readable",
    "Verif.Claims.C51_derivative_counterexample",
    "Verif.Claims.C51_power_counterexample"
   ],
   "note": "Unique up to the bracketing of products in Leibniz notation (in subscript notation without derivative operators) unless a power is taken of a product enclosed in brackets by chance; outside these limits two counterexamples (derivative of a product in subscript notation; power of a product of sums)"
  },
  {
   "property": "C52",
   "status": "partial",
   "theorems": [
    "Verif.Claims.C52_lhs_partial",
    "Verif.Claims.C52_label",
    "Verif.Claims.C52_other_target_counterexample"
   ],
   "note": "Only when the target is u and the left-hand-side axis is t (counterexample otherwise)"
  },
  {
   "property": "C25",
   "status": "partial",
   "theorems": [
    "Verif.Claims.C25_accepted_iff",
    "Verif.Claims.C25_consistent",
    "Verif.Claims.C25_agree_partial",
    "Verif.Claims.C25_complex_counterexample"
   ],
   "note": "Consistency and exact acceptance for all arguments; legacy and N-D constructors agree for real data, for complex data only the legacy one takes the real part (counterexample)"
  },
  {
   "property": "C26",
   "status": "partial",
   "theorems": [
    "Verif.Claims.C26_range_partial",
    "Verif.Claims.constructed_xt",
    "Verif.Claims.C26_axis_order_counterexample"
   ],
   "note": "Holds when x is stored before t (all legacy datasets); fails for axis order t, x (counterexample)"
  },
  {
   "property": "C27",
   "status": "partial",
   "theorems": [
    "Verif.Claims.C27_random_partial",
    "Verif.Claims.C27_ratio",
    "Verif.Claims.C27_uniform_partial",
    "Verif.Claims.C27_rejected",
    "Verif.Claims.C27_float",
    "Verif.Claims.C27_axis_order_counterexample",
    "Verif.Claims.C27_uniform_repeats_counterexample"
   ],
   "note": "Holds when x is stored before t, for every random outcome and any rounding of linspace; fails for axis order t, x; uniform sampling may repeat points; the spline method is not modelled"
  },
  {
   "property": "C53",
   "status": "partial",
   "theorems": [
    "Verif.Claims.C53_datapoint_partial",
    "Verif.Claims.constructed_xt",
    "Verif.Claims.C53_axis_order_counterexample",
    "Verif.Claims.C53_axis_order_error_counterexample"
   ],
   "note": "Holds when x is stored before t; counterexample otherwise"
  },
  {
   "property": "C54",
   "status": "proved",
   "theorems": [
    "Verif.Claims.C54_mesh_aligned",
    "Verif.Claims.C54_boundaries",
    "Verif.Claims.C54_xy_counterexample",
    "Verif.Claims.C54_boundaries_nd"
   ],
   "note": "default indexing, x stored before t; with indexing xy the rows are not in flattened order (counterexample)"
  },
  {
   "property": "C55",
   "status": "partial",
   "theorems": [
    "Verif.Claims.C55_index_derivative_partial",
    "Verif.Claims.C55_index_derivative_t_partial",
    "Verif.Claims.C55_unit_spacing_partial",
    "Verif.Claims.C55_spacing_counterexample"
   ],
   "note": "Differences per index step: exact for linear data only when the spacing is 1 (counterexample otherwise)"
  },
  {
   "property": "C56",
   "status": "partial",
   "theorems": [
    "Verif.Claims.C56_orientation_partial",
    "Verif.Claims.C56_none",
    "Verif.Claims.C56_square_counterexample"
   ],
   "note": "Holds when the axes have different lengths; square data stored by rows of x is transposed (counterexample)"
  },
  {
   "property": "C32",
   "status": "partial",
   "theorems": [
    "Verif.Claims.C32_get",
    "Verif.Claims.C32_set",
    "Verif.Claims.C32_roundtrip_partial",
    "Verif.Claims.C32_unknown",
    "Verif.Claims.C32_unknown_raises",
    "Verif.Claims.C32_missing_attribute",
    "Verif.Claims.C32_shipped_wellformed",
    "Verif.Claims.C32_not_atomic_counterexample",
    "Verif.Claims.C32_underscore_counterexample",
    "Verif.Claims.C32_shipped_counterexample"
   ],
   "note": "Holds for every well-formed estimator (all constructor parameters stored, no trailing underscores); shipped KD_Discover and KD_DLGA do not store all their parameters, so both calls raise on them; a failing set_params is not undone; sharing of sub-estimators is not modelled"
  },
  {
   "property": "C33",
   "status": "partial",
   "theorems": [
    "Verif.Claims.C33_answer",
    "Verif.Claims.C33_answer_unique",
    "Verif.Claims.C33_exact",
    "Verif.Claims.C33_registered",
    "Verif.Claims.C33_lazy",
    "Verif.Claims.C33_repeat",
    "Verif.Claims.C33_eager_pure",
    "Verif.Claims.C33_lookup_stable_partial",
    "Verif.Claims.C33_unregister_partial",
    "Verif.Claims.C33_clear",
    "Verif.Claims.C33_shipped",
    "Verif.Claims.C33_lookup_counterexample",
    "Verif.Claims.C33_override_counterexample",
    "Verif.Claims.C33_unregister_counterexample"
   ],
   "note": "The answer is determined by the history for all histories; \"lookups never change later answers\" holds except when a lookup resolves a lazy registration of a proper ancestor or overrides an explicit adapter (counterexamples), and unregistering does not reach a still lazy entry (counterexample)"
  },
  {
   "property": "C57",
   "status": "proved",
   "theorems": [
    "Verif.Claims.C57_dispatch",
    "Verif.Claims.C57_backend"
   ],
   "note": "for usable backends"
  },
  {
   "property": "C58",
   "status": "partial",
   "theorems": [
    "Verif.Claims.C58_style_restored_partial",
    "Verif.Claims.C58_configure",
    "Verif.Claims.C58_backend_counterexample",
    "Verif.Claims.C58_style_applied"
   ],
   "note": "style and parameters are restored in every case; the backend named by one call stays for later calls (counterexample)"
  },
  {
   "property": "C34",
   "status": "partial",
   "theorems": [
    "Verif.Claims.C34_legal_partial",
    "Verif.Claims.C34_length_counterexample",
    "Verif.Claims.C34_generations_counterexample",
    "Verif.Claims.C34_base_odd_counterexample",
    "Verif.Claims.C34_add_distinct"
   ],
   "note": "Legal genes, module lengths, non-empty genomes and constant population size in every run; the number of modules is not bounded by the maximum (counterexample), more generations than genomes always raises (counterexample for all runs), the base class loses a genome when the size is odd"
  },
  {
   "property": "C35",
   "status": "partial",
   "theorems": [
    "Verif.Claims.C35_monotone_partial",
    "Verif.Claims.C35_initial_counterexample"
   ],
   "note": "Monotone over all generations; the best of the initial population may be lost in the first generation (counterexample); NaN fitness excluded"
  },
  {
   "property": "C59",
   "status": "proved",
   "theorems": [
    "Verif.Claims.C59_result_belongs",
    "Verif.Claims.C59_fitness",
    "Verif.Claims.C59_residual"
   ],
   "note": "for legal parameters; NaN fitness excluded; the SVD step is a parameter"
  },
  {
   "property": "C60",
   "status": "partial",
   "theorems": [
    "Verif.Claims.C60_columns",
    "Verif.Claims.C60_latex_unknown",
    "Verif.Claims.C60_text",
    "Verif.Claims.C60_terms",
    "Verif.Claims.C60_latex_factors",
    "Verif.Claims.C60_latex_text",
    "Verif.Claims.C60_latex_sorted",
    "Verif.Claims.C60_latex_names_partial",
    "Verif.Claims.C60_unknown_counterexample",
    "Verif.Claims.C60_latex_counterexample",
    "Verif.Claims.C60_latex_constant"
   ],
   "note": "Holds when all operators are available; unavailable operators shift the names (counterexample); the LaTeX form ignores the user's operator list (counterexample, correct for prefixes of the built-in list)"
  },
  {
   "property": "C61",
   "status": "partial",
   "theorems": [
    "Verif.Claims.C61_aligned",
    "Verif.Claims.C61_split",
    "Verif.Claims.C61_checkpoint_partial",
    "Verif.Claims.C61_checkpoint_counterexample"
   ],
   "note": "All of it, but the error recorded for an epoch is that of the weights one step before the saved ones (counterexample to \"best saved network\")"
  },
  {
   "property": "C62",
   "status": "partial",
   "theorems": [
    "Verif.Claims.C62_dataset_unchanged_partial",
    "Verif.Claims.C62_dataset_counterexample"
   ],
   "note": "Holds for samples and non-contiguous arrays; on the full mesh of a contiguous array the data set is scrambled (counterexample)"
  },
  {
   "property": "C38",
   "status": "proved",
   "theorems": [
    "Verif.Claims.C38_pareto",
    "Verif.Claims.C38_distinct",
    "Verif.Claims.C38_represented"
   ],
   "note": ""
  },
  {
   "property": "C39",
   "status": "proved",
   "theorems": [
    "Verif.Claims.C39_filter_same",
    "Verif.Claims.C39_filter_same_first",
    "Verif.Claims.C39_delete_duplicates"
   ],
   "note": "NaN scores excluded"
  },
  {
   "property": "C63",
   "status": "partial",
   "theorems": [
    "Verif.Claims.C63_sound",
    "Verif.Claims.C63_represented_partial",
    "Verif.Claims.C63_loses_other",
    "Verif.Claims.C63_not_shortest",
    "Verif.Claims.C63_not_transitive",
    "Verif.Claims.C63_distinct_kept"
   ],
   "note": "No exception, alignment and distinctness for all inputs; \"loses nothing\" is false in general (wrong index: counterexample; tolerance not transitive: counterexample), proved when no length clash can occur"
  },
  {
   "property": "C64",
   "status": "proved",
   "theorems": [
    "Verif.Discover.Claims.C64_complete",
    "Verif.Discover.Claims.C64_exact",
    "Verif.Discover.Claims.C64_unweighted"
   ],
   "note": "arities at most two; effectors of descendant constraints are not terminals"
  },
  {
   "property": "C65",
   "status": "partial",
   "theorems": [
    "Verif.Discover.Claims.C65_network_input_partial",
    "Verif.Discover.Claims.C65_input_iff_partial",
    "Verif.Discover.Claims.C65_dangling_counterexample",
    "Verif.Discover.Claims.C65_embedding_counterexample",
    "Verif.Discover.Claims.C65_arity3_counterexample"
   ],
   "note": "Full for action, parent and sibling with arities at most two; observing the dangling count always raises (counterexample), and so may an operator of three operands (counterexample); embedding=True raises at the first observation (counterexample)"
  },
  {
   "property": "C66",
   "status": "proved",
   "theorems": [
    "Verif.Discover.Claims.C66_no_bad_value",
    "Verif.Discover.Claims.C66_value_iff"
   ],
   "note": ""
  },
  {
   "property": "C67",
   "status": "proved",
   "theorems": [
    "Verif.Discover.Claims.C67_right_operand",
    "Verif.Discover.Claims.C67_left_operand",
    "Verif.Discover.Claims.C67_left_strict",
    "Verif.Discover.Claims.C67_below_sums",
    "Verif.Discover.Claims.C67_below_nonlinear",
    "Verif.Discover.Claims.C67_laplace"
   ],
   "note": "token names distinct; operators of at most two operands"
  },
  {
   "property": "C68",
   "status": "partial",
   "theorems": [
    "Verif.Claims.C68_once_partial",
    "Verif.Claims.C68_remembered",
    "Verif.Claims.C68_new_evaluated",
    "Verif.Claims.C68_pruned_counterexample",
    "Verif.Claims.C68_initial_counterexample"
   ],
   "note": "Holds for candidates that lose no term when evaluated and for those found after the start; a candidate with a rejected term is remembered under a different text, and the initial population is not remembered (counterexamples)"
  },
  {
   "property": "C69",
   "status": "proved",
   "theorems": [
    "Verif.Claims.C69_crossover",
    "Verif.Claims.C69_mutation"
   ],
   "note": ""
  },
  {
   "property": "C70",
   "status": "partial",
   "theorems": [
    "Verif.Discover.Fit.Claims.C70_columns",
    "Verif.Discover.Fit.Claims.C70_valid_iff",
    "Verif.Discover.Fit.Claims.C70_best",
    "Verif.Discover.Fit.Claims.C70_sizes_partial",
    "Verif.Discover.Fit.Claims.C70_weak_form_partial",
    "Verif.Discover.Fit.Claims.C70_constant_counterexample",
    "Verif.Discover.Fit.Claims.C70_weak_form_counterexample",
    "Verif.Discover.Fit.Claims.C70_weak_form_error_counterexample",
    "Verif.Discover.Fit.Claims.C70_weak_form_error",
    "Verif.Discover.Fit.Claims.C70_reasons"
   ],
   "note": "Full except: after a small constant was dropped the sizes are not checked again; the weak form may drop a term when a constant is asked for and ignores evaluation errors on the second data set (counterexamples). The solver's contract is a hypothesis of C70_best; exact numbers"
  },
  {
   "property": "C71",
   "status": "partial",
   "theorems": [
    "Verif.Discover.Fit.Claims.C71_accepted_iff",
    "Verif.Discover.Fit.Claims.C71_state_partial",
    "Verif.Discover.Fit.Claims.C71_spatial",
    "Verif.Discover.Fit.Claims.C71_spatial_placeholder",
    "Verif.Discover.Fit.Claims.C71_mul_counterexample",
    "Verif.Discover.Fit.Claims.C71_diff_counterexample"
   ],
   "note": "The accepted programs are characterised exactly; because the check looks for the letter u in the text, operators such as mul count as state variables (counterexamples)"
  },
  {
   "property": "C72",
   "status": "partial",
   "theorems": [
    "Verif.Discover.Reward.Claims.C72_range",
    "Verif.Discover.Reward.Claims.C72_monotone",
    "Verif.Discover.Reward.Claims.C72_valid_beats_invalid_partial",
    "Verif.Discover.Reward.Claims.C72_units",
    "Verif.Discover.Reward.Claims.C72_success",
    "Verif.Discover.Reward.Claims.C72_metrics",
    "Verif.Discover.Reward.Claims.C72_correlation",
    "Verif.Discover.Reward.Claims.C72_many_terms_counterexample",
    "Verif.Discover.Reward.Claims.C72_construct"
   ],
   "note": "Full for fewer than 1/lambda terms; beyond that a valid program ranks below invalid ones (counterexample). Real numbers instead of floating point"
  },
  {
   "property": "C73",
   "status": "partial",
   "theorems": [
    "Verif.Discover.Fit.Claims.C73_warnings_partial",
    "Verif.Discover.Fit.Claims.C73_torch",
    "Verif.Discover.Fit.Claims.C73_exception_counterexample",
    "Verif.Discover.Fit.Claims.C73_torch_counterexample",
    "Verif.Discover.Fit.Claims.C73_torch_leak"
   ],
   "note": "Holds as long as no evaluation raises and torch and numpy evaluation are not mixed; otherwise the next evaluation is blamed (counterexamples)"
  },
  {
   "property": "C74",
   "status": "partial",
   "theorems": [
    "Verif.Discover.Fit.Claims.C74_term",
    "Verif.Discover.Fit.Claims.C74_expression_partial",
    "Verif.Discover.Fit.Claims.C74_invalid_counterexample"
   ],
   "note": "Full for valid programs; invalid programs all show their first term with coefficient 0 (counterexample)"
  },
  {
   "property": "C75",
   "status": "partial",
   "theorems": [
    "Verif.Discover.Fit.Claims.C75_sympy",
    "Verif.Discover.Fit.Claims.C75_coefficient",
    "Verif.Discover.Fit.Claims.C75_dlga",
    "Verif.Discover.Fit.Claims.C75_discover_partial",
    "Verif.Discover.Fit.Claims.C75_constant_counterexample",
    "Verif.Discover.Fit.Claims.C75_refused",
    "Verif.Discover.Fit.Claims.C75_unit",
    "Verif.Discover.Fit.Claims.C75_sign"
   ],
   "note": "SymPy's parser and LaTeX printer are parameters; a program with a constant is shown as an error (counterexample)"
  },
  {
   "property": "C76",
   "status": "partial",
   "theorems": [
    "Verif.Discover.FD.Claims.C76_first_1d",
    "Verif.Discover.FD.Claims.C76_second_1d",
    "Verif.Discover.FD.Claims.C76_third_1d",
    "Verif.Discover.FD.Claims.C76_fourth_1d_partial",
    "Verif.Discover.FD.Claims.C76_fourth_counterexample",
    "Verif.Discover.FD.Claims.C76_first_3d",
    "Verif.Discover.FD.Claims.C76_second_3d",
    "Verif.Discover.FD.Claims.C76_laplace_3d",
    "Verif.Discover.FD.Claims.C76_first_2d_partial",
    "Verif.Discover.FD.Claims.C76_second_2d_partial",
    "Verif.Discover.FD.Claims.C76_first_2d_interior",
    "Verif.Discover.FD.Claims.C76_periodic_counterexample",
    "Verif.Discover.FD.Claims.C76_coordinate_counterexample",
    "Verif.Discover.FD.Claims.C76_coordinate_1d",
    "Verif.Discover.FD.Claims.C76_uneven_counterexample"
   ],
   "note": "Full for 1-D and 3-D; 2-D operators wrap around at the ends (counterexample), fourth derivatives are exact for cubics only near the ends, uneven grids and an operand of the coordinate's shape go wrong (counterexamples). Exact arithmetic"
  },
  {
   "property": "C77",
   "status": "proved",
   "theorems": [
    "Verif.Discover.Adapter.Claims.C77_values_nd",
    "Verif.Discover.Adapter.Claims.C77_derivative_nd",
    "Verif.Discover.Adapter.Claims.C77_storage_order",
    "Verif.Discover.Adapter.Claims.C77_legacy",
    "Verif.Discover.Adapter.Claims.constructed_nd"
   ],
   "note": "N-D and legacy data sets; constructed_nd: every data set the N-D constructor returns satisfies the hypothesis. Exact arithmetic; sym_true lookup not modelled"
  },
  {
   "property": "C78",
   "status": "partial",
   "theorems": [
    "Verif.Discover.Adapter.Claims.C78_accepted_nd_partial",
    "Verif.Discover.Adapter.Claims.C78_accepted_legacy",
    "Verif.Discover.Adapter.Claims.C78_tolerance_counterexample",
    "Verif.Discover.Adapter.Claims.C78_sparse_nonfinite_counterexample"
   ],
   "note": "The accepted data sets are characterised exactly; they include unevenly spaced space axes and (below 1e-8) time axes, and the sparse adapter does not check legacy data (counterexamples)"
  },
  {
   "property": "C79",
   "status": "partial",
   "theorems": [
    "Verif.Discover.Adapter.Claims.C79_measured_nd_partial",
    "Verif.Discover.Adapter.Claims.C79_colloc_nd",
    "Verif.Discover.Adapter.Claims.C79_star_nd",
    "Verif.Discover.Adapter.Claims.C79_measured_legacy",
    "Verif.Discover.Adapter.Claims.C79_star_legacy",
    "Verif.Discover.Adapter.Claims.C79_colloc_legacy",
    "Verif.Discover.Adapter.Claims.C79_one_point",
    "Verif.Discover.Adapter.Claims.C79_cut_params_counterexample",
    "Verif.Discover.Adapter.Claims.firstDraws_valid"
   ],
   "note": "Full except that cut_quantile does not trim the parameter fields (counterexample). numpy's choice and the Latin hypercube are parameters with their contract as hypothesis"
  },
  {
   "property": "C80",
   "status": "partial",
   "theorems": [
    "Verif.Claims.EqGpt.C80_board_partial",
    "Verif.Claims.EqGpt.C80_best_partial",
    "Verif.Claims.EqGpt.C80_size_counterexample",
    "Verif.Claims.EqGpt.C80_nan_counterexample"
   ],
   "note": "Full while no reward is NaN, for the board size fixed by the first epoch's distinct rewards (counterexamples for both)"
  },
  {
   "property": "C81",
   "status": "partial",
   "theorems": [
    "Verif.Claims.EqGpt.C81_first",
    "Verif.Claims.EqGpt.C81_shown",
    "Verif.Claims.EqGpt.C81_idempotent",
    "Verif.Claims.EqGpt.C81_nothing_lost_partial",
    "Verif.Claims.EqGpt.C81_division_counterexample",
    "Verif.Claims.EqGpt.firsts_spec"
   ],
   "note": "Full for equations without '/' between factors; u*ux and u/ux are taken for the same term (counterexample). nothing_lost: every dropped term is a reordering of a kept one"
  },
  {
   "property": "C82",
   "status": "partial",
   "theorems": [
    "Verif.Claims.EqGpt.C82_meaning_partial",
    "Verif.Claims.EqGpt.C82_sampled_defined",
    "Verif.Claims.EqGpt.C82_nested_counterexample",
    "Verif.Claims.EqGpt.C82_sint_counterexample",
    "Verif.Claims.EqGpt.C82_uyyt_counterexample",
    "Verif.Claims.EqGpt.C82_sqrt_counterexample",
    "Verif.Claims.EqGpt.readings_render",
    "Verif.Claims.EqGpt.C82_square_counterexample"
   ],
   "note": "Full for the words of the term table except the listed counterexamples; derivatives abstract"
  },
  {
   "property": "C83",
   "status": "partial",
   "theorems": [
    "Verif.Claims.EqGpt.C83_columns",
    "Verif.Claims.EqGpt.C83_entries",
    "Verif.Claims.EqGpt.C83_reward_partial",
    "Verif.Claims.EqGpt.C83_at_most_one",
    "Verif.Claims.EqGpt.C83_forbidden",
    "Verif.Claims.EqGpt.C83_unmentioned",
    "Verif.Claims.EqGpt.C83_nan_counterexample",
    "Verif.Claims.EqGpt.C83_unmentioned_all",
    "Verif.Claims.EqGpt.C83_plain_demo",
    "Verif.Claims.EqGpt.C83_infinite",
    "Verif.Claims.EqGpt.C83_merged"
   ],
   "note": "Full while every case's reward is a number; a NaN case is left out of the mean (counterexample)"
  },
  {
   "property": "C84",
   "status": "partial",
   "theorems": [
    "Verif.Claims.EqGpt.C84_sentence_partial",
    "Verif.Claims.EqGpt.C84_evaluated_partial",
    "Verif.Claims.EqGpt.C84_mask_shrinks",
    "Verif.Claims.EqGpt.C84_nan_masked",
    "Verif.Claims.EqGpt.C84_all_masked_counterexample",
    "Verif.Claims.EqGpt.C84_known_word"
   ],
   "note": "Full while at least one operand and one operator is unmasked; the network is an arbitrary function, draws arbitrary"
  },
  {
   "property": "C85",
   "status": "partial",
   "theorems": [
    "Verif.Api.Claims.C85_override",
    "Verif.Api.Claims.C85_default",
    "Verif.Api.Claims.C85_accepted_iff",
    "Verif.Api.Claims.C85_wellformed",
    "Verif.Api.Claims.C85_path_partial",
    "Verif.Api.Claims.C85_no_config",
    "Verif.Api.Claims.C85_python310_counterexample",
    "Verif.Api.Claims.C85_path_counterexample"
   ],
   "note": "Full for dict configurations on Python 3.9; on Python >= 3.10 every non-empty configuration raises and a path never works (counterexamples)"
  },
  {
   "property": "C86",
   "status": "partial",
   "theorems": [
    "Verif.Discover.Facade.Claims.C86_no_trace_partial",
    "Verif.Discover.Facade.Claims.C86_function_set",
    "Verif.Discover.Facade.Claims.C86_network",
    "Verif.Discover.Facade.Claims.C86_raw_fit_counterexample",
    "Verif.Discover.Facade.Claims.C86_out_path_counterexample",
    "Verif.Discover.Facade.Claims.C86_refused"
   ],
   "note": "Full for import_dataset except out_path; raw fits keep the previous network configuration (counterexamples)"
  },
  {
   "property": "C87",
   "status": "partial",
   "theorems": [
    "Verif.Discover.Facade.Claims.C87_carried_partial",
    "Verif.Discover.Facade.Claims.C87_best_of_all",
    "Verif.Discover.Facade.Claims.C87_returned_counterexample"
   ],
   "note": "Full for the carried equation; the returned one is not compared with it (counterexample)"
  },
  {
   "property": "C88",
   "status": "partial",
   "theorems": [
    "Verif.Discover.Facade.Claims.C88_own_data",
    "Verif.Discover.Facade.Claims.C88_regular_partial",
    "Verif.Discover.Facade.Claims.C88_predict_partial",
    "Verif.Discover.Facade.Claims.C88_regular_counterexample",
    "Verif.Discover.Facade.Claims.C88_predict_counterexample",
    "Verif.Discover.Facade.Claims.C88_start"
   ],
   "note": "Full for sparse training and regression fits; regular training and predict are disturbed by other set-ups (counterexamples)"
  },
  {
   "property": "C89",
   "status": "partial",
   "theorems": [
    "Verif.Discover.Facade.Claims.C89_seed_partial",
    "Verif.Discover.Facade.Claims.C89_seed_sparse_partial",
    "Verif.Discover.Facade.Claims.C89_weights",
    "Verif.Discover.Facade.Claims.C89_seed_counterexample"
   ],
   "note": "Holds up to what is drawn before the seeds are set (controller weights; sparse split and collocation points)"
  },
  {
   "property": "C90",
   "status": "proved",
   "theorems": [
    "Verif.Discover.Regression.Claims.C90_rowwise",
    "Verif.Discover.Regression.Claims.C90_append",
    "Verif.Discover.Regression.Claims.C90_refused",
    "Verif.Discover.Regression.Claims.C90_inputs"
   ],
   "note": "Derivative operators and `harmonic`, which look at whole columns, are outside the property's quantifier"
  },
  {
   "property": "C91",
   "status": "partial",
   "theorems": [
    "Verif.Discover.Regression.Claims.C91_consistent_partial",
    "Verif.Discover.Regression.Claims.C91_stays_partial",
    "Verif.Discover.Regression.Claims.C91_best_constants",
    "Verif.Discover.Regression.Claims.C91_report_fails_iff",
    "Verif.Discover.Regression.Claims.C91_stale_counterexample"
   ],
   "note": "Holds until the shared program is assigned other constants by from_str_tokens (counterexample)"
  },
  {
   "property": "C92",
   "status": "partial",
   "theorems": [
    "Verif.Discover.RegressionMetric.Claims.C92_range",
    "Verif.Discover.RegressionMetric.Claims.C92_choice",
    "Verif.Discover.RegressionMetric.Claims.C92_one_iff",
    "Verif.Discover.RegressionMetric.Claims.C92_monotone",
    "Verif.Discover.RegressionMetric.Claims.C92_parsimony",
    "Verif.Discover.RegressionMetric.Claims.C92_units_partial",
    "Verif.Discover.RegressionMetric.Claims.C92_long_counterexample",
    "Verif.Discover.RegressionMetric.Claims.C92_small_targets_counterexample"
   ],
   "note": "Full except: units only above the variance floor, order only while the penalty is affordable (counterexamples)"
  },
  {
   "property": "C93",
   "status": "partial",
   "theorems": [
    "Verif.Discover.RegressionText.Claims.C93_named_partial",
    "Verif.Discover.RegressionText.Claims.C93_named_shipped_partial",
    "Verif.Discover.RegressionText.Claims.C93_flux_counterexample",
    "Verif.Discover.RegressionText.Claims.C93_swapped_counterexample"
   ],
   "note": "Fails for names containing the default name of an earlier variable (counterexamples)"
  },
  {
   "property": "C94",
   "status": "partial",
   "theorems": [
    "Verif.Discover.RegressionText.Claims.C94_roundtrip_partial",
    "Verif.Discover.RegressionText.Claims.C94_exact_partial",
    "Verif.Discover.RegressionText.Claims.operators_readable",
    "Verif.Discover.RegressionText.Claims.C94_constants_named",
    "Verif.Discover.RegressionText.Claims.C94_small_counterexample",
    "Verif.Discover.RegressionText.Claims.C94_mixed_counterexample",
    "Verif.Discover.RegressionText.Claims.C94_hard_counterexample"
   ],
   "note": "Exact rationals instead of floats (no NaN, infinity); fails for libraries with names that are numbers and for constants without value (counterexamples)"
  },
  {
   "property": "C95",
   "status": "partial",
   "theorems": [
    "Verif.App.Claims.C95_success_partial",
    "Verif.App.Claims.C95_exit_zero",
    "Verif.App.Claims.C95_complete",
    "Verif.App.Claims.C95_torn_counterexample",
    "Verif.App.Claims.C95_stale_counterexample",
    "Verif.App.Claims.C95_demoted_counterexample",
    "Verif.App.Claims.C95_unknown"
   ],
   "note": "Full for exit code 0 and for runs without kill; a killed or refused run can leave an earlier run's success report, a failing final print overwrites a success (counterexamples)"
  },
  {
   "property": "C96",
   "status": "partial",
   "theorems": [
    "Verif.App.Claims.C96_same_settings_partial",
    "Verif.App.Claims.C96_sample_counterexample"
   ],
   "note": "Fails only for sample numbers between 0 and 1 (counterexample)"
  },
  {
   "property": "C97",
   "status": "partial",
   "theorems": [
    "Verif.App.Claims.C97_label_partial",
    "Verif.App.Claims.C97_job_named",
    "Verif.App.Claims.C97_no_temp_file",
    "Verif.App.Claims.C97_both_counterexample",
    "Verif.App.Claims.C97_missing_counterexample",
    "Verif.App.Claims.C97_upload_counterexample"
   ],
   "note": "Wrong label with both a name and a file; missing files fall back silently; uploaded files are never used (counterexamples)"
  },
  {
   "property": "C98",
   "status": "partial",
   "theorems": [
    "Verif.App.Claims.C98_status",
    "Verif.App.Claims.C98_polling_partial",
    "Verif.App.Claims.C98_shows_found",
    "Verif.App.Claims.C98_download_counterexample",
    "Verif.App.Claims.C98_second_counterexample",
    "Verif.App.Claims.C98_error_counterexample",
    "Verif.App.Claims.C98_text"
   ],
   "note": "A failed download, a second submission or a local run forgets the job (counterexamples)"
  },
  {
   "property": "C99",
   "status": "proved",
   "theorems": [
    "Verif.App.Claims.C99_parse",
    "Verif.App.Claims.C99_stable"
   ],
   "note": "White space is any set of characters without the comma"
  },
  {
   "property": "C100",
   "status": "partial",
   "theorems": [
    "Verif.Claims.C100_files_partial",
    "Verif.Claims.C100_mat_partial",
    "Verif.Claims.C100_single_partial",
    "Verif.Claims.C100_reshape",
    "Verif.Claims.C100_refused",
    "Verif.Claims.C100_square_counterexample"
   ],
   "note": "Proved when the axes differ in length; a square solution stored by rows of x is turned (counterexample)"
  },
  {
   "property": "C101",
   "status": "proved",
   "theorems": [
    "Verif.Claims.C101_grid"
   ],
   "note": "Exact arithmetic"
  },
  {
   "property": "C102",
   "status": "partial",
   "theorems": [
    "Verif.Claims.C102_names",
    "Verif.Claims.C102_unknown",
    "Verif.Claims.C102_shipped_arrays_partial",
    "Verif.Claims.C102_none_counterexample"
   ],
   "note": "Names and refusals in full; one shipped name has no file and gives None (counterexample)"
  },
  {
   "property": "C103",
   "status": "partial",
   "theorems": [
    "Verif.Claims.C103_same_partial",
    "Verif.Claims.C103_turned_counterexample"
   ],
   "note": "Agreement for files stored by rows of x with axes of different length; other files are refused by the deprecated loaders (counterexample)"
  },
  {
   "property": "C104",
   "status": "partial",
   "theorems": [
    "Verif.Claims.C104_epi_partial",
    "Verif.Claims.C104_ignored",
    "Verif.Claims.C104_rejected",
    "Verif.Claims.C104_uneven_counterexample"
   ],
   "note": "epi in full; other keywords are ignored for array files and rejected for .mat files (counterexample)"
  },
  {
   "property": "C105",
   "status": "partial",
   "theorems": [
    "Verif.Claims.C105_other_partial",
    "Verif.Claims.C105_own",
    "Verif.Claims.C105_shared_counterexample"
   ],
   "note": "Edits never reach other names; they reach the same name through the registry's own dictionaries (counterexample)"
  },
  {
   "property": "C106",
   "status": "partial",
   "theorems": [
    "Verif.Claims.C106_mat_partial",
    "Verif.Claims.C106_npy",
    "Verif.Claims.C106_refused",
    "Verif.Claims.C106_turned_counterexample"
   ],
   "note": ".mat when the axes differ in length; .npy is always read row by row (counterexample for an array stored by rows of t)"
  },
  {
   "property": "C107",
   "status": "proved",
   "theorems": [
    "Verif.Claims.C107_table",
    "Verif.Claims.C107_shipped",
    "Verif.Claims.C107_offered"
   ],
   "note": "The description and source texts are not modelled"
  },
  {
   "property": "C108",
   "status": "proved",
   "theorems": [
    "Verif.Discover.Build.Claims.C108_layout",
    "Verif.Discover.Build.Claims.C108_refused",
    "Verif.Discover.Build.Claims.C108_valid",
    "Verif.Discover.Build.Claims.C108_operators",
    "Verif.Discover.Build.Claims.C108_max_counterexample"
   ],
   "note": "torch_add (never set by a caller) is not modelled; max and min take one operand (counterexample)"
  },
  {
   "property": "C109",
   "status": "partial",
   "theorems": [
    "Verif.Discover.Build.Claims.C109_distinct_partial",
    "Verif.Discover.Build.Claims.C109_text",
    "Verif.Discover.Build.Claims.C109_names_counterexample",
    "Verif.Discover.Build.Claims.C109_comma_counterexample"
   ],
   "note": "Distinct for operators and const given once, not by protected_ names, with distinct parameter names; otherwise accepted libraries repeat names (counterexamples)"
  },
  {
   "property": "C110",
   "status": "partial",
   "theorems": [
    "Verif.Discover.Build.Claims.C110_same_shape",
    "Verif.Discover.Build.Claims.C110_protected",
    "Verif.Discover.Build.Claims.C110_values",
    "Verif.Discover.Build.Claims.C110_torch_values_partial",
    "Verif.Discover.Protected.Claims.C110_real_values",
    "Verif.Discover.Protected.Claims.C110_real_bounds",
    "Verif.Discover.Protected.Claims.C110_sigmoid_counterexample",
    "Verif.Discover.Build.Claims.C110_sign_counterexample"
   ],
   "note": "Exact (rational and real) arithmetic; the torch division loses the sign of tiny negative divisors and disagrees with the numpy one, and the protected sigmoid is 1 instead of 0 from -100 downwards (counterexamples)"
  },
  {
   "property": "C111",
   "status": "partial",
   "theorems": [
    "Verif.Discover.Build.Claims.C111_torch",
    "Verif.Discover.Build.Claims.C111_torch_library",
    "Verif.Discover.Build.Claims.C111_switch_partial",
    "Verif.Discover.Build.Claims.C111_switch_counterexample"
   ],
   "note": "Fails for sub, hard-coded numbers and mixed function sets (counterexamples)"
  },
  {
   "property": "C112",
   "status": "proved",
   "theorems": [
    "Verif.Viz.Data.Claims.C112_residual",
    "Verif.Viz.Data.Claims.C112_parity",
    "Verif.Viz.Data.Claims.C112_parity_example",
    "Verif.Viz.Data.Claims.C112_field"
   ],
   "note": "Exact arithmetic on arrays given by shape and entries"
  },
  {
   "property": "C113",
   "status": "proved",
   "theorems": [
    "Verif.Viz.Data.Claims.C113_small",
    "Verif.Viz.Data.Claims.C113_slice",
    "Verif.Viz.Data.Claims.C113_empty",
    "Verif.Viz.Data.Claims.C113_example"
   ],
   "note": ""
  },
  {
   "property": "C114",
   "status": "partial",
   "theorems": [
    "Verif.Viz.Data.Claims.C114_sga",
    "Verif.Viz.Data.Claims.C114_dlga_partial",
    "Verif.Viz.Data.Claims.C114_label_counterexample"
   ],
   "note": "Panels are at closest grid times for both; the DLGA titles show the requested time instead of the time of the data (counterexample)"
  },
  {
   "property": "C115",
   "status": "partial",
   "theorems": [
    "Verif.Viz.Data.Claims.C115_field",
    "Verif.Viz.Data.Claims.C115_no_lhs",
    "Verif.Viz.Data.Claims.C115_parity_partial",
    "Verif.Viz.Data.Claims.C115_residual_counterexample",
    "Verif.Viz.Data.Claims.C115_example"
   ],
   "note": "Field and parity figures proved; the residual figure does not depend on the discovered equation (counterexample)"
  },
  {
   "property": "C116",
   "status": "partial",
   "theorems": [
    "Verif.Viz.Data.Claims.C116_parity",
    "Verif.Viz.Data.Claims.C116_terms_partial",
    "Verif.Viz.Data.Claims.C116_example",
    "Verif.Viz.Data.Claims.C116_counterexample",
    "Verif.Viz.Data.Claims.C116_constant",
    "Verif.Viz.Data.Claims.C116_warning"
   ],
   "note": "Under the hypothesis that every operator has a stored field and no term is empty; otherwise terms are left out or the figure fails (counterexample)"
  },
  {
   "property": "C117",
   "status": "partial",
   "theorems": [
    "Verif.Viz.Data.Claims.C117_best",
    "Verif.Viz.Data.Claims.C117_monotone",
    "Verif.Viz.Data.Claims.C117_density_partial",
    "Verif.Viz.Data.Claims.C117_density_auto",
    "Verif.Viz.Data.Claims.C117_counterexample",
    "Verif.Viz.Data.Claims.C117_density_negative"
   ],
   "note": "max_curves is exceeded and epochs beyond the history shift labels (counterexample)"
  },
  {
   "property": "C118",
   "status": "partial",
   "theorems": [
    "Verif.Viz.Fields.Claims.C118_laplacian_line",
    "Verif.Viz.Fields.Claims.C118_term",
    "Verif.Viz.Fields.Claims.C118_field",
    "Verif.Viz.Fields.Claims.C118_second_partial",
    "Verif.Viz.Fields.Claims.C118_counterexample",
    "Verif.Viz.Fields.Claims.C118_time_counterexample",
    "Verif.Viz.Fields.Claims.C118_three",
    "Verif.Viz.Fields.Claims.C118_two_counterexample",
    "Verif.Viz.Fields.Claims.C118_laplacian",
    "Verif.Viz.Fields.Claims.C118_quotient_counterexample",
    "Verif.Viz.Fields.Claims.C118_higher",
    "Verif.Viz.Fields.Claims.C118_arithmetic"
   ],
   "note": "Holds for first derivatives, sums, products, powers on even grids; fails for second derivatives, quotients, uneven grids, time axis and two space dimensions (counterexamples)"
  },
  {
   "property": "C119",
   "status": "partial",
   "theorems": [
    "Verif.Viz.Data.Claims.C119_saved",
    "Verif.Viz.Data.Claims.C119_dlga_partial",
    "Verif.Viz.Data.Claims.C119_counterexample",
    "Verif.Viz.Data.Claims.C119_dlga_moved"
   ],
   "note": "Fails for the second DLGA field comparison in a directory and for equations that cannot be rendered (counterexample)"
  },
  {
   "property": "C120",
   "status": "partial",
   "theorems": [
    "Verif.Api.PySR.Claims.C120_refused",
    "Verif.Api.PySR.Claims.C120_fit_partial",
    "Verif.Api.PySR.Claims.C120_history",
    "Verif.Api.PySR.Claims.C120_kwargs",
    "Verif.Api.PySR.Claims.C120_unfitted",
    "Verif.Api.PySR.Claims.C120_parity",
    "Verif.Api.PySR.Claims.C120_parity_given",
    "Verif.Api.PySR.Claims.C120_latex",
    "Verif.Api.PySR.Claims.C120_counterexample"
   ],
   "note": "After a fit that fails inside PySR the old equation is reported with the new data (counterexample)"
  },
  {
   "property": "C121",
   "status": "partial",
   "theorems": [
    "Verif.Discover.Pinn.Claims.C121_rows",
    "Verif.Discover.Pinn.Claims.C121_merged",
    "Verif.Discover.Pinn.Claims.C121_all_samples_partial",
    "Verif.Discover.Pinn.Claims.C121_scale",
    "Verif.Discover.Pinn.Claims.C121_counterexample"
   ],
   "note": "Fails for a second pretraining (validation points twice) and a box without extent (counterexample)"
  },
  {
   "property": "C122",
   "status": "partial",
   "theorems": [
    "Verif.Discover.Pinn.Claims.C122_pretrain_partial",
    "Verif.Discover.Pinn.Claims.C122_load",
    "Verif.Discover.Pinn.Claims.C122_counterexample"
   ],
   "note": "The saved file is the best network, the network used afterwards is the last one (counterexample)"
  },
  {
   "property": "C123",
   "status": "partial",
   "theorems": [
    "Verif.Discover.Pinn.Claims.C123_loss_partial",
    "Verif.Discover.Pinn.Claims.C123_round",
    "Verif.Discover.Pinn.Claims.C123_last",
    "Verif.Discover.Pinn.Claims.C123_unbound_counterexample",
    "Verif.Discover.Pinn.Claims.C123_counterexample",
    "Verif.Discover.Pinn.Claims.C123_nan"
   ],
   "note": "Loss proved for one equation; with several only the last counts, the best checkpoint is one update late, a NaN first loss ends in UnboundLocalError (counterexamples)"
  },
  {
   "property": "C124",
   "status": "partial",
   "theorems": [
    "Verif.Discover.Pinn.Claims.C124_residual_partial",
    "Verif.Discover.Pinn.Claims.C124_const_counterexample"
   ],
   "note": "Fails with a constant term (counterexample)"
  },
  {
   "property": "C125",
   "status": "partial",
   "theorems": [
    "Verif.Discover.Pinn.Claims.C125_points_partial",
    "Verif.Discover.Pinn.Claims.C125_quantile",
    "Verif.Discover.Pinn.Claims.C125_outside",
    "Verif.Discover.Pinn.Claims.C125_remaining",
    "Verif.Discover.Pinn.Claims.C125_extreme_counterexample",
    "Verif.Discover.Pinn.Claims.C125_one_counterexample"
   ],
   "note": "Ratio 0 still removes the extreme points in space; the one-dimensional variant fails for several coordinates (counterexamples)"
  },
  {
   "property": "C126",
   "status": "partial",
   "theorems": [
    "Verif.Discover.Pinn.Claims.C126_constant_partial",
    "Verif.Discover.Pinn.Claims.C126_small_counterexample"
   ],
   "note": "Parameters below 5e-9 in size are taken as constant (counterexample)"
  },
  {
   "property": "C127",
   "status": "partial",
   "theorems": [
    "Verif.Discover.Stability.Claims.C127_vote_partial",
    "Verif.Discover.Stability.Claims.C127_error",
    "Verif.Discover.Stability.Claims.C127_recovers",
    "Verif.Discover.Stability.Claims.C127_reported",
    "Verif.Discover.Stability.Claims.C127_nan",
    "Verif.Discover.Stability.Claims.C127_duplicate_counterexample",
    "Verif.Discover.Stability.Claims.C127_distinct_kept",
    "Verif.Discover.Stability.Claims.C127_empty_resample"
   ],
   "note": "The vote and the errors are proved; the test for duplicates may drop the best program before the vote (counterexample)"
  },
  {
   "property": "C128",
   "status": "partial",
   "theorems": [
    "Verif.EqGpt.Surrogate.Claims.C128_create_partial",
    "Verif.EqGpt.Surrogate.Claims.C128_counterexample"
   ],
   "note": "What is accepted is characterised; bools count as counts, fractional seeds and any number of surrogate epochs are accepted (counterexample)"
  },
  {
   "property": "C129",
   "status": "partial",
   "theorems": [
    "Verif.EqGpt.Surrogate.Claims.C129_cases_partial",
    "Verif.EqGpt.Surrogate.Claims.C129_period",
    "Verif.EqGpt.Surrogate.Claims.C129_failures",
    "Verif.EqGpt.Surrogate.Claims.C129_counterexample",
    "Verif.EqGpt.Surrogate.Claims.C129_period_sound"
   ],
   "note": "The filter looks for the letter N anywhere in the name, and a case without shipped weights is left out silently (counterexample)"
  },
  {
   "property": "C130",
   "status": "partial",
   "theorems": [
    "Verif.EqGpt.Surrogate.Claims.C130_split",
    "Verif.EqGpt.Surrogate.Claims.C130_best_partial",
    "Verif.EqGpt.Surrogate.Claims.C130_counterexample"
   ],
   "note": "Holds if the first validation error is a number; a NaN there always selects the network after 500 updates, and fewer than 20 rows leave no validation rows (counterexample)"
  },
  {
   "property": "C131",
   "status": "partial",
   "theorems": [
    "Verif.EqGpt.Surrogate.Claims.C131_grid",
    "Verif.EqGpt.Surrogate.Claims.C131_positions_partial",
    "Verif.EqGpt.Surrogate.Claims.C131_counterexample"
   ],
   "note": "Layout proved; a retrained network is trained in other coordinates than it is evaluated in (counterexample)"
  },
  {
   "property": "C132",
   "status": "proved",
   "theorems": [
    "Verif.EqGpt.Surrogate.Claims.C132_batch"
   ],
   "note": ""
  },
  {
   "property": "C133",
   "status": "partial",
   "theorems": [
    "Verif.EqGpt.Augment.Claims.C133_same",
    "Verif.EqGpt.Augment.Claims.C133_number",
    "Verif.EqGpt.Augment.Claims.C133_orders",
    "Verif.EqGpt.Augment.Claims.C133_end_partial",
    "Verif.EqGpt.Augment.Claims.C133_counterexample"
   ],
   "note": "The end word is final only without products; otherwise it wanders with the last factor (counterexample)"
  },
  {
   "property": "C134",
   "status": "partial",
   "theorems": [
    "Verif.EqGpt.Augment.Claims.C134_read_partial",
    "Verif.EqGpt.Augment.Claims.C134_ignored",
    "Verif.EqGpt.Augment.Claims.C134_leak",
    "Verif.EqGpt.Augment.Claims.C134_counterexample",
    "Verif.EqGpt.Augment.Claims.C134_unknown",
    "Verif.EqGpt.Augment.Claims.C134_order"
   ],
   "note": "Violated: the name is not passed on, the withheld equation is taught"
  },
  {
   "property": "C135",
   "status": "proved",
   "theorems": [
    "Verif.EqGpt.Augment.Claims.C135_vocabulary"
   ],
   "note": ""
  },
  {
   "property": "C136",
   "status": "partial",
   "theorems": [
    "Verif.Utils.Claims.C136_first",
    "Verif.Utils.Claims.C136_second",
    "Verif.Utils.Claims.C136_fourth_partial",
    "Verif.Utils.Claims.C136_short",
    "Verif.Utils.Claims.C136_third_counterexample",
    "Verif.Utils.Claims.C136_counterexample"
   ],
   "note": "Order 3 has the wrong sign at every inner point; orders 3 and 4 are 0 at the ends; unsupported orders give zeros (counterexamples)"
  },
  {
   "property": "C137",
   "status": "partial",
   "theorems": [
    "Verif.Utils.Claims.C137_diff",
    "Verif.Utils.Claims.C137_exact",
    "Verif.Utils.Claims.C137_fourth_partial",
    "Verif.Utils.Claims.C137_fourth_counterexample",
    "Verif.Utils.Claims.C137_int_counterexample",
    "Verif.Utils.Claims.C137_alias_counterexample"
   ],
   "note": "Order 4 is wrong near the ends, integer data are cut to integers, a later computation overwrites an earlier result (counterexamples)"
  },
  {
   "property": "C138",
   "status": "partial",
   "theorems": [
    "Verif.Utils.Claims.C138_history_partial",
    "Verif.Utils.Claims.C138_delete",
    "Verif.Utils.Claims.C138_counterexample"
   ],
   "note": "Fails for names every dictionary has as attributes (counterexample)"
  },
  {
   "property": "C139",
   "status": "partial",
   "theorems": [
    "Verif.Sga.Autograd.Claims.C139_fit_partial",
    "Verif.Sga.Autograd.Claims.C139_gradients",
    "Verif.Sga.Autograd.Claims.C139_high",
    "Verif.Sga.Autograd.Claims.C139_statistics_counterexample",
    "Verif.Sga.Autograd.Claims.C139_origin_counterexample"
   ],
   "note": "Fails on the original grid after delete_edges and for networks from files or other data: the statistics are those of the grid at hand (counterexamples)"
  },
  {
   "property": "C140",
   "status": "partial",
   "theorems": [
    "Verif.Sga.Autograd.Claims.C140_axes",
    "Verif.Sga.Autograd.Claims.C140_plain_partial",
    "Verif.Sga.Autograd.Claims.C140_values_counterexample",
    "Verif.Sga.Autograd.Claims.C140_stop_counterexample"
   ],
   "note": "With normalisation the refined values belong to stretched coordinates; a missing file ends the process (counterexamples)"
  },
  {
   "property": "C141",
   "status": "partial",
   "theorems": [
    "Verif.Sga.Autograd.Claims.C141_setup_partial",
    "Verif.Sga.Autograd.Claims.C141_source",
    "Verif.Sga.Autograd.Claims.C141_reuse_counterexample"
   ],
   "note": "Networks are kept in the configuration and reused for other data (counterexample)"
  },
  {
   "property": "C142",
   "status": "partial",
   "theorems": [
    "Verif.Sga.Derivs.Claims.C142_lhs",
    "Verif.Sga.Derivs.Claims.C142_space",
    "Verif.Sga.Derivs.Claims.C142_cubic_partial",
    "Verif.Sga.Derivs.Claims.C142_edge_counterexample",
    "Verif.Sga.Derivs.Claims.C142_variables",
    "Verif.Sga.Derivs.Claims.C142_works_iff"
   ],
   "note": "u_xx and u_xxx are repeated first differences, wrong for cubics near the ends (counterexample)"
  },
  {
   "property": "C143",
   "status": "partial",
   "theorems": [
    "Verif.Sga.Problems.Claims.C143_names",
    "Verif.Sga.Problems.Claims.C143_data",
    "Verif.Sga.Problems.Claims.C143_label",
    "Verif.Sga.Problems.Claims.C143_error_partial",
    "Verif.Sga.Problems.Claims.C143_error_counterexample",
    "Verif.Sga.Problems.Claims.C143_named_counterexample"
   ],
   "note": "The Chafee-Infante template lacks u_xx; the name alone decides on the equation (counterexamples)"
  },
  {
   "property": "C144",
   "status": "partial",
   "theorems": [
    "Verif.Dataset.Info.Claims.C144_from_dict",
    "Verif.Dataset.Info.Claims.C144_copy",
    "Verif.Dataset.Info.Claims.C144_eq",
    "Verif.Dataset.Info.Claims.C144_update_partial",
    "Verif.Dataset.Info.Claims.C144_words",
    "Verif.Dataset.Info.Claims.C144_atomic_counterexample",
    "Verif.Dataset.Info.Claims.C144_keywords_counterexample",
    "Verif.Dataset.Info.Claims.C144_method_counterexample",
    "Verif.Dataset.Info.Claims.C144_alias_counterexample"
   ],
   "note": "update is not atomic, stores keyword texts unsplit and accepts method names; from_dict shares the list (counterexamples)"
  },
  {
   "property": "C145",
   "status": "partial",
   "theorems": [
    "Verif.Dataset.Info.Claims.C145_choice",
    "Verif.Dataset.Info.Claims.C145_formats",
    "Verif.Dataset.Info.Claims.C145_table_partial",
    "Verif.Dataset.Info.Claims.C145_header_counterexample"
   ],
   "note": "The first csv row is always dropped as a header (counterexample)"
  },
  {
   "property": "C146",
   "status": "partial",
   "theorems": [
    "Verif.Dataset.Info.Claims.C146_accept_partial",
    "Verif.Dataset.Info.Claims.C146_subclass_counterexample"
   ],
   "note": "Inheriting subclasses of PDEDataset are refused (counterexample)"
  },
  {
   "property": "C147",
   "status": "partial",
   "theorems": [
    "Verif.Dataset.Info.Claims.C147_points_partial",
    "Verif.Dataset.Info.Claims.C147_diagonal",
    "Verif.Dataset.Info.Claims.C147_values_counterexample"
   ],
   "note": "Values are transposed against the points (counterexample)"
  },
  {
   "property": "C148",
   "status": "proved",
   "theorems": [
    "Verif.EqGpt.Gpt.Claims.C148_causal",
    "Verif.EqGpt.Gpt.Claims.C148_length",
    "Verif.EqGpt.Gpt.Claims.C148_padding_counterexample"
   ],
   "note": "The hypothesis that a word precedes is needed: sentences that begin with the padding see later words (counterexample; neither the sampler nor the loader makes such sentences)"
  },
  {
   "property": "C149",
   "status": "proved",
   "theorems": [
    "Verif.EqGpt.Gpt.Claims.C149_loss"
   ],
   "note": "Log-softmax and mean are the library's; the terms and the distributions they are taken under are proved equal"
  },
  {
   "property": "C150",
   "status": "partial",
   "theorems": [
    "Verif.Discover.Soft.Claims.C150_uniform",
    "Verif.Discover.Soft.Claims.C150_after_partial",
    "Verif.Discover.Soft.Claims.C150_before_counterexample"
   ],
   "note": "Before the target the soft length prior does not lower terminals (counterexample)"
  },
  {
   "property": "C151",
   "status": "partial",
   "theorems": [
    "Verif.Dlga.Claims.C151_exact_partial",
    "Verif.Dlga.Claims.C151_error_partial",
    "Verif.Dlga.Claims.C151_residual_partial",
    "Verif.Dlga.Claims.C151_fit_counterexample"
   ],
   "note": "Exact relations are recovered up to a factor within about 1e-8 of 1; otherwise the last singular vector is total least squares, not the best fit (counterexample)"
  },
  {
   "property": "C152",
   "status": "proved",
   "theorems": [
    "Verif.Dlga.Claims.C152_record"
   ],
   "note": ""
  },
  {
   "property": "C153",
   "status": "partial",
   "theorems": [
    "Verif.Dlga.Claims.C153_names_partial",
    "Verif.Dlga.Claims.C153_tautology_counterexample"
   ],
   "note": "Holds for operator lists without u_t and u_tt; with u_t among the operators u_t = u_t is discovered (counterexample)"
  },
  {
   "property": "C154",
   "status": "partial",
   "theorems": [
    "Verif.Discover.Stats.Claims.C154_quantile_partial",
    "Verif.Discover.Stats.Claims.C154_sum_counterexample",
    "Verif.Discover.Stats.Claims.C154_weights"
   ],
   "note": "Holds for levels up to the sum of the weights; above it (rounding, or weights that do not add up to one) the smallest value is returned (counterexample)"
  },
  {
   "property": "C155",
   "status": "proved",
   "theorems": [
    "Verif.Discover.Stats.Claims.C155_shannon",
    "Verif.Discover.Stats.Claims.C155_range",
    "Verif.Discover.Stats.Claims.C155_zero",
    "Verif.Discover.Stats.Claims.C155_names"
   ],
   "note": "Over the reals"
  },
  {
   "property": "C156",
   "status": "proved",
   "theorems": [
    "Verif.Discover.Stats.Claims.C156_r2",
    "Verif.Discover.Stats.Claims.C156_l2",
    "Verif.Discover.Stats.Claims.C156_scale",
    "Verif.Discover.Stats.Claims.C156_eval"
   ],
   "note": "Over the reals, for columns"
  },
  {
   "property": "C157",
   "status": "proved",
   "theorems": [
    "Verif.Memory.Claims.C157_stored",
    "Verif.Memory.Claims.C157_sampled",
    "Verif.Memory.Claims.C157_sample_total",
    "Verif.Memory.Claims.C157_whole",
    "Verif.Memory.Claims.C157_best",
    "Verif.Memory.Claims.C157_selected",
    "Verif.Memory.Claims.C157_batch"
   ],
   "note": "With a GP aggregator (not offered by the estimators) the list of programs is changed in place: see C161"
  },
  {
   "property": "C158",
   "status": "partial",
   "theorems": [
    "Verif.Discover.ProgramState.Claims.C158_copy_partial",
    "Verif.Discover.ProgramState.Claims.C158_reward_counterexample",
    "Verif.Discover.ProgramState.Claims.C158_invalid_counterexample",
    "Verif.Discover.ProgramState.Claims.C158_counts_counterexample",
    "Verif.Discover.ProgramState.Claims.C158_fails_iff"
   ],
   "note": "False of the code: the reward is looked up under another name than it is stored, so copies lose reward, coefficients, validity and counters; proved is what a copy keeps"
  },
  {
   "property": "C159",
   "status": "proved",
   "theorems": [
    "Verif.Discover.ProgramState.Claims.C159_split"
   ],
   "note": ""
  },
  {
   "property": "C160",
   "status": "proved",
   "theorems": [
    "Verif.Discover.ProgramState.Claims.C160_value",
    "Verif.Discover.ProgramState.Claims.C160_names",
    "Verif.Discover.ProgramState.Claims.C160_text"
   ],
   "note": "Over the reals"
  },
  {
   "property": "C161",
   "status": "partial",
   "theorems": [
    "Verif.Discover.Agg.Claims.C161_fails_iff",
    "Verif.Discover.Agg.Claims.C161_record",
    "Verif.Discover.Agg.Claims.C161_better_partial",
    "Verif.Discover.Agg.Claims.C161_lost_best_counterexample"
   ],
   "note": "Failure and record proved in general; \"better than all\" and \"list unchanged\" for programs whose rewards differ by more than the tolerance; otherwise false (counterexample: the best program is overwritten)"
  },
  {
   "property": "C162",
   "status": "partial",
   "theorems": [
    "Verif.Discover.Agg.Claims.C162_complete",
    "Verif.Discover.Agg.Claims.C162_directions_partial",
    "Verif.Discover.Agg.Claims.C162_second_derivative_counterexample",
    "Verif.Discover.Agg.Claims.C162_third_derivative_counterexample",
    "Verif.Discover.Agg.Claims.C162_supplement",
    "Verif.Discover.Agg.Claims.C162_supplement_all"
   ],
   "note": "Exact set of completions proved; the stated symmetry holds for one place of an input variable, false for nested derivatives (counterexamples)"
  },
  {
   "property": "C163",
   "status": "partial",
   "theorems": [
    "Verif.Discover.Expand.Claims.C163_value",
    "Verif.Discover.Expand.Claims.C163_unchanged",
    "Verif.Discover.Expand.Claims.C163_expanded",
    "Verif.Discover.Expand.Claims.C163_reads_partial",
    "Verif.Discover.Expand.Claims.C163_sum_display",
    "Verif.Discover.Expand.Claims.C163_sum_counterexample",
    "Verif.Discover.Expand.Claims.C163_concrete"
   ],
   "note": "Expansion proved to change no value; the display is right for terms that expand to a single product; for a sum the display has no parentheses, so the coefficient reaches the first summand only (what is displayed is proved; counterexample)"
  },
  {
   "property": "C164",
   "status": "partial",
   "theorems": [
    "Verif.Discover.Policy.Claims.C164_distribution",
    "Verif.Discover.Policy.Claims.C164_likelihood_partial",
    "Verif.Discover.Policy.Claims.C164_finite_iff",
    "Verif.Discover.Policy.Claims.C164_padding_counterexample",
    "Verif.Discover.Policy.Claims.C164_entropy",
    "Verif.Discover.Policy.Claims.C164_sequence_entropy",
    "Verif.Discover.Policy.Claims.C164_gradient",
    "Verif.Discover.Policy.Claims.C164_loss",
    "Verif.Discover.Policy.Claims.C164_concrete"
   ],
   "note": "Proved for sequences whose recorded tokens are all allowed; a forbidden token recorded after the end makes the loss non-finite (counterexample; the exact condition is proved)"
  },
  {
   "property": "C165",
   "status": "partial",
   "theorems": [
    "Verif.Discover.PriorBuild.Claims.C165_build",
    "Verif.Discover.PriorBuild.Claims.C165_consumed",
    "Verif.Discover.PriorBuild.Claims.C165_second_build",
    "Verif.Discover.PriorBuild.Claims.C165_regular_partial",
    "Verif.Discover.PriorBuild.Claims.C165_reimport_counterexample",
    "Verif.Discover.PriorBuild.Claims.C165_sparse_counterexample",
    "Verif.Discover.PriorBuild.Claims.C165_sparse_fit",
    "Verif.Discover.PriorBuild.Claims.C165_failed_setup",
    "Verif.Discover.PriorBuild.Claims.C165_history",
    "Verif.Discover.PriorBuild.Claims.C165_length",
    "Verif.Discover.PriorBuild.Claims.C165_concrete"
   ],
   "note": "A build is exact, but switches every entry of the configuration off, so each later build of the same estimator has no constraint: proved for regular mode with one import; false after a second import and for sparse mode with import_dataset and train (proved in general for every configuration)"
  },
  {
   "property": "C166",
   "status": "partial",
   "theorems": [
    "Verif.Discover.PriorBuild.Claims.C166_works_iff",
    "Verif.Discover.PriorBuild.Claims.C166_counts_partial",
    "Verif.Discover.PriorBuild.Claims.C166_report_partial",
    "Verif.Discover.PriorBuild.Claims.C166_names",
    "Verif.Discover.PriorBuild.Claims.C166_default_counterexample",
    "Verif.Discover.PriorBuild.Claims.C166_percentage_counterexample",
    "Verif.Discover.PriorBuild.Claims.C166_report_empty"
   ],
   "note": "Right if all hard constraints come first (exact condition proved); otherwise IndexError, also for the default configuration; the share can exceed one (counterexamples)"
  },
  {
   "property": "C167",
   "status": "partial",
   "theorems": [
    "Verif.Sga.Reuse.Claims.C167_first_partial",
    "Verif.Sga.Reuse.Claims.C167_first_grid_partial",
    "Verif.Sga.Reuse.Claims.C167_again_partial",
    "Verif.Sga.Reuse.Claims.C167_stale_counterexample",
    "Verif.Sga.Reuse.Claims.C167_axes_counterexample",
    "Verif.Sga.Reuse.Claims.C167_new_grid_partial",
    "Verif.Sga.Reuse.Claims.C167_incomplete"
   ],
   "note": "Holds for the first context, for repeated building and for a new grid given together with its axes; new arrays u, x, t after a first context are never analysed, and a new grid keeps the axes of the old one (proved for every configuration)"
  },
  {
   "property": "C168",
   "status": "proved",
   "theorems": [
    "Verif.Sga.MetaTrain.Claims.C168_generators_untouched",
    "Verif.Sga.MetaTrain.Claims.C168_reproducible",
    "Verif.Sga.MetaTrain.Claims.C168_errors",
    "Verif.Sga.MetaTrain.Claims.C168_data",
    "Verif.Sga.MetaTrain.Claims.C168_empty"
   ],
   "note": "Full; exact arithmetic for the share. A share below one point trains on nothing without an error (C168_empty)"
  },
  {
   "property": "C169",
   "status": "partial",
   "theorems": [
    "Verif.App.Form.Claims.C169_never_counterexample",
    "Verif.App.Form.Claims.C169_error_counterexample",
    "Verif.App.Form.Claims.C169_eqgpt_partial",
    "Verif.App.Form.Claims.C169_with_module_partial",
    "Verif.App.Form.Claims.C169_unknown"
   ],
   "note": "Holds for EqGPT only: listing the plot types imports kd.model.kd_dscv, which does not exist, so every other successful training is shown as an error (proved for every dataset, model and fit); proved in full for a repository that had the module"
  },
  {
   "property": "C170",
   "status": "partial",
   "theorems": [
    "Verif.App.Form.Claims.C170_offered",
    "Verif.App.Form.Claims.C170_nodup",
    "Verif.App.Form.Claims.C170_discover_counterexample",
    "Verif.App.Form.Claims.C170_shipped",
    "Verif.App.Form.Claims.C170_only_eqgpt",
    "Verif.App.Form.Claims.C170_active",
    "Verif.App.Form.Claims.C170_selected",
    "Verif.App.Form.Claims.C170_models_partial",
    "Verif.App.Form.Claims.C170_shipped_models"
   ],
   "note": "What is offered is characterised exactly; the form asks for the keys dscv and dscv_spr while the registry uses discover and discover_spr, so DISCOVER is never offered and four datasets offer EqGPT only (counterexample for every such registry)"
  },
  {
   "property": "C171",
   "status": "partial",
   "theorems": [
    "Verif.App.Form.Claims.C171_figure",
    "Verif.App.Form.Claims.C171_tempdir",
    "Verif.App.Form.Claims.C171_dir_counterexample",
    "Verif.App.Form.Claims.C171_no_model_partial",
    "Verif.App.Form.Claims.C171_message"
   ],
   "note": "What is shown is characterised exactly; configure(save_dir=None) changes nothing, so the removed temporary directory stays configured (counterexample for every call)"
  },
  {
   "property": "C172",
   "status": "partial",
   "theorems": [
    "Verif.Discover.Inner.Claims.C172_where",
    "Verif.Discover.Inner.Claims.C172_all_counterexample",
    "Verif.Discover.Inner.Claims.C172_unknown",
    "Verif.Discover.Inner.Claims.C172_content_partial",
    "Verif.Discover.Inner.Claims.C172_type_counterexample",
    "Verif.Discover.Inner.Claims.C172_twice_counterexample"
   ],
   "note": "Which names load from which directory is characterised exactly: chafee-infante and Burgers from the root of the repository only, Kdv from kd/model only, so never all; other types than regular are ignored silently (counterexamples)"
  },
  {
   "property": "C173",
   "status": "proved",
   "theorems": [
    "Verif.Dlga.BaseText.Claims.C173_text",
    "Verif.Dlga.BaseText.Claims.C173_concrete",
    "Verif.Dlga.BaseText.Claims.C173_empty_module"
   ],
   "note": "Genes outside the table of names (none is drawn by the search) are excluded by hypothesis"
  },
  {
   "property": "C174",
   "status": "proved",
   "theorems": [
    "Verif.Discover.Search.Claims.C174_row_obeys",
    "Verif.Discover.Search.Claims.C174_reported",
    "Verif.Discover.Search.Claims.C174_nothing",
    "Verif.Discover.Search.Claims.C174_total",
    "Verif.Discover.Search.Claims.C174_objects",
    "Verif.Discover.Search.Claims.C174_memory",
    "Verif.Discover.Search.Claims.C174_concrete"
   ],
   "note": "Composition of the models of sampling, completion, program cache, search loop and memory; for library constraints whose masks are sound (C05 excludes descendant constraints with binary effectors) and a length constraint that matches the row length; the reward is any function of the expression within the clip bound, at most 0 when invalid"
  },
  {
   "property": "C175",
   "status": "proved",
   "theorems": [
    "Verif.Discover.Recover.Claims.C175_exact_fit",
    "Verif.Discover.Recover.Claims.C175_exact_reward",
    "Verif.Discover.Recover.Claims.C175_recovery",
    "Verif.Discover.Recover.Claims.C175_invalid",
    "Verif.Discover.Recover.Claims.C175_terms"
   ],
   "note": "Exact real arithmetic with a monotone rounding of the reward; the solver returns least-squares minimisers (its contract); no constant term; the coefficients are unique and of acceptable size"
  },
  {
   "property": "C176",
   "status": "proved",
   "theorems": [
    "Verif.Claims.C176_run",
    "Verif.Claims.C176_shown",
    "Verif.Claims.C176_concrete",
    "Verif.Claims.C31_float"
   ],
   "note": "Composition of the models of tables, tree generation, evaluation, regression, evolution and display; the dense regression of finite columns has a score (not NaN) and returns one coefficient per column; argsort sorts; kernels are arbitrary functions"
  },
  {
   "property": "C177",
   "status": "partial",
   "theorems": [
    "Verif.Sga.Aic.Claims.C177_error",
    "Verif.Sga.Aic.Claims.C177_residuals",
    "Verif.Sga.Aic.Claims.C177_size",
    "Verif.Sga.Aic.Claims.C177_exact_least_partial",
    "Verif.Sga.Aic.Claims.C177_discarded",
    "Verif.Claims.C177_first_discards",
    "Verif.Sga.Aic.Claims.C177_ties_counterexample",
    "Verif.Claims.C177_concrete"
   ],
   "note": "Fails: candidates with a score below -100, so every exact equation, are thrown away while the first population is drawn; exact equations of different size tie at minus infinity; the rest is proved over the reals"
  },
  {
   "property": "C178",
   "status": "partial",
   "theorems": [
    "Verif.Dlga.Meta.Claims.C178_rows",
    "Verif.Dlga.Meta.Claims.C178_coordinates_partial",
    "Verif.Dlga.Meta.Claims.C178_library_partial",
    "Verif.Dlga.Meta.Claims.C178_one_coordinate_counterexample",
    "Verif.Dlga.Meta.Claims.C178_three_coordinates_counterexample",
    "Verif.Dlga.Meta.Claims.C178_base",
    "Verif.Dlga.Meta.Claims.C178_recovers",
    "Verif.Dlga.Meta.Claims.C178_hypotheses"
   ],
   "note": "Proved for points (x, t); false for points with one coordinate (u_t and u_tt are zero) and with three (u_t is the derivative along the second coordinate); exact derivatives, any network that maps rows independently"
  },
  {
   "property": "C179",
   "status": "proved",
   "theorems": [
    "Verif.Dlga.Run.Claims.C179_best",
    "Verif.Dlga.Run.Claims.C179_total",
    "Verif.Dlga.Run.Claims.C179_run",
    "Verif.Dlga.Run.Claims.C179_text",
    "Verif.Dlga.Run.Claims.C179_recovers",
    "Verif.Dlga.Run.Claims.C179_concrete"
   ],
   "note": "For two or more genomes and not more generations than genomes (C34), known operators and points (x, t) (C178); exact real arithmetic; the SVD is a function with the properties of C151 where they are used; composition of the models of library, translation, fitness, search and text"
  },
  {
   "property": "C180",
   "status": "partial",
   "theorems": [
    "Verif.EqGpt.Run.Claims.C180_report_partial",
    "Verif.EqGpt.Run.Claims.C180_masked",
    "Verif.EqGpt.Run.Claims.C180_candidates",
    "Verif.EqGpt.Run.Claims.C180_shown",
    "Verif.EqGpt.Run.Claims.topkOf_ok",
    "Verif.EqGpt.Run.Claims.C180_concrete",
    "Verif.EqGpt.Run.Claims.C180_trained"
   ],
   "note": "For runs with at least one sample per epoch in which no reward is NaN and no draw raises; with a NaN reward the report can be wrong (C80_nan_counterexample, C83_nan_counterexample), and it never has more entries than the first epoch has distinct rewards (C80_size_counterexample); the network is a function from its state and the prefix to a distribution; composition of the models of sampling, reward, mask and top ten"
  },
  {
   "property": "C181",
   "status": "partial",
   "theorems": [
    "Verif.Claims.VizNd.C181_figures_partial",
    "Verif.Claims.VizNd.C181_equation",
    "Verif.Claims.VizNd.C181_axes",
    "Verif.Claims.VizNd.C181_order_counterexample",
    "Verif.Claims.VizNd.C181_hypotheses",
    "Verif.Claims.VizNd.C181_grid"
   ],
   "note": "Full for increasing coordinates; with a decreasing axis the figures are wrong (counterexample). Rational entries; default slicing options (others: C113); titles show step numbers, not times (C118_time_counterexample)"
  },
  {
   "property": "C182",
   "status": "partial",
   "theorems": [
    "Verif.Discover.SprRun.Claims.kept_search",
    "Verif.Discover.SprRun.Claims.C182_equations_partial",
    "Verif.Discover.SprRun.Claims.C182_network",
    "Verif.Discover.SprRun.Claims.C182_loss",
    "Verif.Discover.SprRun.Claims.C182_invalid_counterexample",
    "Verif.Discover.SprRun.Claims.C182_concrete",
    "Verif.Discover.SprRun.Claims.C182_hypotheses"
   ],
   "note": "Exact characterisation proved; the wish that the network is trained towards the expression found is false for an invalid expression (C182_invalid_counterexample), and the last search is not compared with the equation carried (C87, C182_concrete). One dependent variable; draws, stability tests, derivatives and regression are arguments"
  },
  {
   "property": "C183",
   "status": "partial",
   "theorems": [
    "Verif.Viz.SgaFig.Claims.C183_comparison_partial",
    "Verif.Viz.SgaFig.Claims.C183_slices",
    "Verif.Viz.SgaFig.Claims.C183_comparison_one",
    "Verif.Viz.SgaFig.Claims.C183_slices_one",
    "Verif.Viz.SgaFig.Claims.C183_grids_counterexample",
    "Verif.Viz.SgaFig.Claims.C183_hypotheses"
   ],
   "note": "Full when the field used and the original field have one grid; otherwise both figures raise ValueError (C183_grids_counterexample: after delete_edges and with use_metadata). Rational entries; what matplotlib draws is the data handed to it"
  },
  {
   "property": "C184",
   "status": "partial",
   "theorems": [
    "Verif.Claims.VizSpr.C184_shown",
    "Verif.Claims.VizSpr.C184_residual_partial",
    "Verif.Claims.VizSpr.C184_stale_counterexample",
    "Verif.Claims.VizSpr.C184_hypotheses",
    "Verif.Claims.VizSpr.C184_field",
    "Verif.Claims.VizSpr.C184_field_points",
    "Verif.Claims.VizSpr.C184_zero_counterexample",
    "Verif.Claims.VizSpr.C184_bins",
    "Verif.Claims.VizSpr.C184_bins_counterexample",
    "Verif.Claims.VizSpr.C184_panels",
    "Verif.Claims.VizSpr.C184_transposed_counterexample",
    "Verif.Claims.VizSpr.C184_scatter_counterexample"
   ],
   "note": "What the figures show is proved exactly for every run; it is the right residual only if the last training of the network left the terms as they were (C184_stale_counterexample). Fields: positions, bins and panels for any interpolation; zero is drawn where there is no value, bins overlap for short spans of large times, the older field figure exchanges space and time (counterexamples)"
  },
  {
   "property": "C185",
   "status": "partial",
   "theorems": [
    "Verif.Discover.InnerPinn.Claims.C185_training_partial",
    "Verif.Discover.InnerPinn.Claims.C185_fails_iff",
    "Verif.Discover.InnerPinn.Claims.C185_training_fails_iff",
    "Verif.Discover.InnerPinn.Claims.C185_name_counterexample",
    "Verif.Discover.InnerPinn.Claims.C185_dimension_counterexample",
    "Verif.Discover.InnerPinn.Claims.C185_error_counterexample",
    "Verif.Discover.InnerPinn.Claims.C185_hypotheses",
    "Verif.Discover.InnerPinn.Claims.C185_error",
    "Verif.Discover.InnerPinn.Claims.C185_type"
   ],
   "note": "The trained network never depends on the name if import and first training succeed; exactly characterised when they fail because of the name (KS, KS_sine, KS2; several space dimensions with the name of a shipped data set)."
  },
  {
   "property": "C186",
   "status": "proved",
   "theorems": [
    "Verif.Discover.InnerPinn.Claims.C186_sample",
    "Verif.Discover.InnerPinn.Claims.C186_box",
    "Verif.Discover.InnerPinn.Claims.C186_result",
    "Verif.Discover.InnerPinn.Claims.C186_noise_free",
    "Verif.Discover.InnerPinn.Claims.C186_concrete",
    "Verif.Discover.InnerPinn.Claims.C186_columns"
   ],
   "note": "Exact arithmetic (the float product `int(n * 0.8)` is taken as the exact share); files whose array does not fit the axes are excluded; the picture is not modelled."
  },
  {
   "property": "C187",
   "status": "partial",
   "theorems": [
    "Verif.Discover.RegressionRun.Claims.C187_result",
    "Verif.Discover.RegressionRun.Claims.C187_returns_partial",
    "Verif.Discover.RegressionRun.Claims.C187_runs",
    "Verif.Discover.RegressionRun.Claims.C187_recovery",
    "Verif.Discover.RegressionRun.Claims.C187_concrete",
    "Verif.Discover.RegressionRun.Claims.C187_penalty_counterexample"
   ],
   "note": "All statements hold for every run of the search and every optimiser; the search itself raises if a batch has only valid programs whose penalty eats the whole reward (C187_penalty_counterexample)"
  },
  {
   "property": "C188",
   "status": "partial",
   "theorems": [
    "Verif.Discover.Claims.C188_answer",
    "Verif.Discover.Claims.C188_same",
    "Verif.Discover.Claims.C188_exact_partial",
    "Verif.Discover.Claims.C188_length_counterexample",
    "Verif.Discover.Claims.C188_disabled_counterexample"
   ],
   "note": "Exact for relational and repeat constraints; for the length and no-inputs constraints the missing operands are counted one token late, and the check leaves the mask value 1 behind (counterexamples)"
  },
  {
   "property": "C189",
   "status": "proved",
   "theorems": [
    "Verif.Viz.Line.Claims.C189_residual",
    "Verif.Viz.Line.Claims.C189_parity",
    "Verif.Viz.Line.Claims.C189_field",
    "Verif.Viz.Line.Claims.C189_warning",
    "Verif.Viz.Line.Claims.C189_trained",
    "Verif.Viz.Line.Claims.C189_demo"
   ],
   "note": "For every grid, data and equation that can be drawn; rational entries, the standard deviation of the summary and the picture itself are not modelled; where drawn values differ from training values is C118, that the time axis counts steps is C118_time_counterexample"
  },
  {
   "property": "C190",
   "status": "partial",
   "theorems": [
    "Verif.EqGpt.Simulate.Claims.C190_advection_partial",
    "Verif.EqGpt.Simulate.Claims.C190_rows",
    "Verif.EqGpt.Simulate.Claims.C190_left_counterexample",
    "Verif.EqGpt.Simulate.Claims.C190_derivatives_partial",
    "Verif.EqGpt.Simulate.Claims.C190_uxx_counterexample",
    "Verif.EqGpt.Simulate.Claims.C190_next_step",
    "Verif.EqGpt.Simulate.Claims.C190_third_derivatives",
    "Verif.EqGpt.Simulate.Claims.C190_third_step",
    "Verif.EqGpt.Simulate.Claims.C190_third_rhs"
   ],
   "note": "Exact at inner points as stated; false at the left end of the advection step (a moving linear profile is not moved there), at its right end for curved profiles, and for the second derivative of the second equation, which is divided by 12 dx instead of 12 dx^2 (counterexamples). Exact arithmetic"
  },
  {
   "property": "C191",
   "status": "proved",
   "theorems": [
    "Verif.EqGpt.Simulate.Claims.C191_range",
    "Verif.EqGpt.Simulate.Claims.C191_monotone",
    "Verif.EqGpt.Simulate.Claims.C191_shipped",
    "Verif.EqGpt.Simulate.Claims.C191_demo",
    "Verif.EqGpt.Simulate.Claims.C191_condition_counterexample"
   ],
   "note": "Exact arithmetic; the condition on the time step holds for the shipped numbers (C191_shipped) and is needed (counterexample)"
  },
  {
   "property": "C192",
   "status": "partial",
   "theorems": [
    "Verif.EqGpt.Simulate.Claims.C192_shifted_partial",
    "Verif.EqGpt.Simulate.Claims.C192_shift_counterexample",
    "Verif.EqGpt.Simulate.Claims.C192_end_counterexample",
    "Verif.EqGpt.Simulate.Claims.C192_weights",
    "Verif.EqGpt.Simulate.Claims.C192_weights_demo"
   ],
   "note": "The value at a point is the derivative at the next point (exact for quadratics); at point n - 4 a flux that was never computed counts as 0 (counterexamples). The Gaussian filter and the third derivative built on it are not modelled"
  },
  {
   "property": "C193",
   "status": "partial",
   "theorems": [
    "Verif.Viz.DlgaOld.Claims.C193_parity",
    "Verif.Viz.DlgaOld.Claims.C193_parity_drawn",
    "Verif.Viz.DlgaOld.Claims.C193_relations",
    "Verif.Viz.DlgaOld.Claims.C193_major",
    "Verif.Viz.DlgaOld.Claims.C193_slices_partial",
    "Verif.Viz.DlgaOld.Claims.C193_one_generation_counterexample",
    "Verif.Viz.DlgaOld.Claims.C193_slice_counterexample",
    "Verif.Viz.DlgaOld.Claims.C193_demo",
    "Verif.Viz.DlgaOld.Claims.C193_constant_counterexample",
    "Verif.Viz.DlgaOld.Claims.C193_skipped",
    "Verif.Viz.DlgaOld.Claims.C193_negative"
   ],
   "note": "False for a history of one generation (the optimisation figure raises), for relative times outside [0, 1] and between two samples (rounded down, not to the nearest; negative ones count from the end) and for terms without genes in the relation figure (counterexamples); otherwise as stated, in exact arithmetic. Drawing and the population panel are not modelled"
  },
  {
   "property": "C194",
   "status": "partial",
   "theorems": [
    "Verif.Discover.Trim.Claims.C194_block",
    "Verif.Discover.Trim.Claims.C194_other",
    "Verif.Discover.Trim.Claims.C194_whole_iff",
    "Verif.Discover.Trim.Claims.C194_small_partial",
    "Verif.Discover.Trim.Claims.C194_tensor",
    "Verif.Discover.Trim.Claims.C194_never_counterexample",
    "Verif.Discover.Trim.Claims.C194_shipped",
    "Verif.Discover.Trim.Claims.C194_demo"
   ],
   "note": "The trimmed block is as stated, but the left-hand side is not trimmed with the terms: on a grid with an axis of 34 points or more (shipped ratio) no program of array terms can be fitted (C194_never_counterexample); proved for small grids and tensors. Exact arithmetic; that least squares refuses columns of another length is a hypothesis"
  },
  {
   "property": "C195",
   "status": "proved",
   "theorems": [
    "Verif.Viz.TreeFig.Claims.C195_figure",
    "Verif.Viz.TreeFig.Claims.C195_identity",
    "Verif.Viz.TreeFig.Claims.C195_tree",
    "Verif.Viz.TreeFig.Claims.C195_again",
    "Verif.Viz.TreeFig.Claims.C195_process",
    "Verif.Viz.TreeFig.Claims.C195_arity",
    "Verif.Viz.TreeFig.Claims.C195_short"
   ],
   "note": "Every program and library, any order of figures in a process. A graph is its node and edge statements; graphviz itself (rendering, colons as ports) is not modelled"
  },
  {
   "property": "C196",
   "status": "partial",
   "theorems": [
    "Verif.Viz.RewardFig.Claims.C196_curves_partial",
    "Verif.Viz.RewardFig.Claims.C196_fails_iff",
    "Verif.Viz.RewardFig.Claims.C196_entries",
    "Verif.Viz.RewardFig.Claims.C196_final",
    "Verif.Viz.RewardFig.Claims.C196_skipped_counterexample",
    "Verif.Viz.RewardFig.Claims.C196_density",
    "Verif.Viz.RewardFig.Claims.C196_five_counterexample",
    "Verif.Viz.RewardFig.Claims.C196_history"
   ],
   "note": "The curves and densities are as stated for the kept iterations, but iterations without anything to train on are not counted (C196_skipped_counterexample) and at most four epochs can be drawn (C196_five_counterexample). Rewards as in C17; kernel density estimation not modelled"
  },
  {
   "property": "C197",
   "status": "partial",
   "theorems": [
    "Verif.Discover.Weak.Claims.C197_rows",
    "Verif.Discover.Weak.Claims.C197_exact",
    "Verif.Discover.Weak.Claims.C197_recovers_partial",
    "Verif.Discover.Weak.Claims.C197_gauss",
    "Verif.Discover.Weak.Claims.C197_never_counterexample",
    "Verif.Discover.Weak.Claims.C197_grid"
   ],
   "note": "Proved of weak_form_cal, glq_cal and the weak-form fit: rows, exactness, recovery, and the five-node default rule. False of a search: with weak_params the windows are never produced and the first admissible program raises IndexError."
  },
  {
   "property": "C198",
   "status": "partial",
   "theorems": [
    "Verif.Discover.TorchDiff.Claims.C198_value_partial",
    "Verif.Discover.TorchDiff.Claims.C198_local",
    "Verif.Discover.TorchDiff.Claims.C198_parameter_counterexample",
    "Verif.Discover.TorchDiff.Claims.C198_concrete"
   ],
   "note": "Proved for all expressions over the network's outputs and the parameters in which only expressions with a network output are differentiated; expressions without one are refused (diff) or raise (lap). Automatic differentiation is the derivative of a real function; rounding and the switching points of the protected operators are not modelled"
  },
  {
   "property": "C199",
   "status": "partial",
   "theorems": [
    "Verif.Viz.Api.Claims.C199_accepts",
    "Verif.Viz.Api.Claims.C199_options",
    "Verif.Viz.Api.Claims.C199_adapter_partial",
    "Verif.Viz.Api.Claims.C199_subclass_counterexample",
    "Verif.Viz.Api.Claims.C199_handlers",
    "Verif.Viz.Api.Claims.C199_draws",
    "Verif.Viz.Api.Claims.C199_none",
    "Verif.Viz.Api.Claims.C199_printed_partial",
    "Verif.Viz.Api.Claims.C199_printed_counterexample",
    "Verif.Viz.Api.Claims.C199_files"
   ],
   "note": "Proved except: classes derived from KD_PySR get no adapter before a KD_PySR was plotted, and files saved together with a warning are not named in the printed line. Style and backend of render are C58; drawing is not modelled"
  },
  {
   "property": "C200",
   "status": "partial",
   "theorems": [
    "Verif.Dlga.Hist.Claims.C200_fit",
    "Verif.Dlga.Hist.Claims.C200_loss",
    "Verif.Dlga.Hist.Claims.C200_figures_partial",
    "Verif.Dlga.Hist.Claims.C200_unfitted",
    "Verif.Dlga.Hist.Claims.C200_refit_counterexample",
    "Verif.Dlga.Hist.Claims.C200_failed",
    "Verif.Dlga.Hist.Claims.C200_network"
   ],
   "note": "The account of every single fit and the figures of the first fit are proved; after a second fit of the same estimator the figures show both runs as one (counterexample). Losses and fitness values other than NaN; a raising training is not modelled"
  },
  {
   "property": "C201",
   "status": "partial",
   "theorems": [
    "Verif.Viz.DlgaCmp.Claims.C201_first_partial",
    "Verif.Viz.DlgaCmp.Claims.C201_stale",
    "Verif.Viz.DlgaCmp.Claims.C201_history_counterexample",
    "Verif.Viz.DlgaCmp.Claims.C201_refused",
    "Verif.Viz.DlgaCmp.Claims.C201_demo"
   ],
   "note": "The first call of a directory, and every refused call, is as stated; any later call answers the path of the first picture with the new data (counterexample for every pair of calls). One space axis"
  },
  {
   "property": "C202",
   "status": "proved",
   "theorems": [
    "Verif.Viz.DlgaCmp.Claims.C202_terms",
    "Verif.Viz.DlgaCmp.Claims.C202_terms_missing",
    "Verif.Viz.DlgaCmp.Claims.C202_residuals",
    "Verif.Viz.DlgaCmp.Claims.C202_residual_sizes",
    "Verif.Viz.DlgaCmp.Claims.C202_histogram",
    "Verif.Viz.DlgaCmp.Claims.C202_demo"
   ],
   "note": "Exact arithmetic; training points of one place and one time; the true and the predicted field of one shape"
  },
  {
   "property": "C203",
   "status": "partial",
   "theorems": [
    "Verif.Discover.Notation.Claims.C203_axes_partial",
    "Verif.Discover.Notation.Claims.C203_renamed",
    "Verif.Discover.Notation.Claims.C203_unique",
    "Verif.Discover.Notation.Claims.C203_function",
    "Verif.Discover.Notation.Claims.C203_derivative",
    "Verif.Discover.Notation.Claims.C203_parameter_counterexample",
    "Verif.Discover.Notation.Claims.C203_axes_counterexample"
   ],
   "note": "The names are right exactly if the left-hand side is along t and the space axes are called x, y (, z) in this order; the displayed equation does not depend on the names at all; derivatives of the state are written uniquely, those of a parameter field with a double subscript. SymPy's printing of sums, products and powers is not modelled"
  },
  {
   "property": "C204",
   "status": "partial",
   "theorems": [
    "Verif.App.RunnerViz.Claims.C204_files_partial",
    "Verif.App.RunnerViz.Claims.C204_jobs_partial",
    "Verif.App.RunnerViz.Claims.C204_none",
    "Verif.App.RunnerViz.Claims.C204_alongside_counterexample",
    "Verif.App.RunnerViz.Claims.C204_restored_counterexample"
   ],
   "note": "Which files are written, below which directory, is proved for every session; two parts of the full statement are false: no figure is next to result.json, and the configured directory is not restored. The drawing itself is not modelled here"
  },
  {
   "property": "C205",
   "status": "partial",
   "theorems": [
    "Verif.Viz.SgaLegacy.Claims.C205_which",
    "Verif.Viz.SgaLegacy.Claims.C205_curves",
    "Verif.Viz.SgaLegacy.Claims.C205_rhs",
    "Verif.Viz.SgaLegacy.Claims.C205_images",
    "Verif.Viz.SgaLegacy.Claims.C205_places_partial",
    "Verif.Viz.SgaLegacy.Claims.C205_scale_counterexample",
    "Verif.Viz.SgaLegacy.Claims.C205_time_counterexample",
    "Verif.Viz.SgaLegacy.Claims.C205_residual_counterexample",
    "Verif.Viz.SgaLegacy.Claims.C205_zero"
   ],
   "note": "What is drawn, and when, is proved node by node; false are: the common place axis for u_t and u_x, the common time of the two curves (never with the default refinement) and the residual of refined Chafee–Infante data. Exact arithmetic"
  },
  {
   "property": "C206",
   "status": "partial",
   "theorems": [
    "Verif.Sga.InputDim.Claims.C206_honest_partial",
    "Verif.Sga.InputDim.Claims.C206_decides",
    "Verif.Sga.InputDim.Claims.C206_fields_partial",
    "Verif.Sga.InputDim.Claims.C206_front_counterexample",
    "Verif.Sga.InputDim.Claims.C206_own"
   ],
   "note": "Proved for every network whose declared numbers and first linear layer are true; a network with another layer in front of its first linear one is judged by the wrong number (C206_front_counterexample)"
  },
  {
   "property": "C207",
   "status": "partial",
   "theorems": [
    "Verif.Viz.Containers.C207_history",
    "Verif.Viz.Containers.C207_reward",
    "Verif.Viz.Containers.C207_history_demo",
    "Verif.Viz.Containers.C207_terms",
    "Verif.Viz.Containers.C207_terms_demo",
    "Verif.Viz.Containers.C207_axes",
    "Verif.Viz.Containers.C207_coords_given",
    "Verif.Viz.Containers.C207_stacked_counterexample",
    "Verif.Viz.Containers.C207_slices_partial",
    "Verif.Viz.Containers.C207_slices_demo",
    "Verif.Viz.Containers.C207_nan_counterexample"
   ],
   "note": "Histories, rewards, terms and coordinates proved in full; time slices without NaN: NaN passes the range check (C207_nan_counterexample)"
  },
  {
   "property": "C208",
   "status": "partial",
   "theorems": [
    "Verif.Utils.Logging.C208_counts",
    "Verif.Utils.Logging.C208_below",
    "Verif.Utils.Logging.C208_once_partial",
    "Verif.Utils.Logging.C208_level",
    "Verif.Utils.Logging.C208_refused",
    "Verif.Utils.Logging.C208_twice_counterexample"
   ],
   "note": "One line per message is proved while a single accepted call names the logger or one above it; every further call adds a line (C208_twice_counterexample)"
  },
  {
   "property": "C209",
   "status": "partial",
   "theorems": [
    "Verif.Dataset.Handler.C209_clean",
    "Verif.Dataset.Handler.C209_determined",
    "Verif.Dataset.Handler.C209_load_partial",
    "Verif.Dataset.Handler.C209_source_kept",
    "Verif.Dataset.Handler.C209_demo",
    "Verif.Dataset.Handler.C209_stale_counterexample"
   ],
   "note": "Cleaning, copying and the refusal of other sources are proved for every table and history; a load that fails is not reported, the earlier table stays (C209_stale_counterexample)"
  },
  {
   "property": "C210",
   "status": "partial",
   "theorems": [
    "Verif.Viz.SgaParity.C210_stored",
    "Verif.Viz.SgaParity.C210_again",
    "Verif.Viz.SgaParity.C210_given_partial",
    "Verif.Viz.SgaParity.C210_demo",
    "Verif.Viz.SgaParity.C210_dropped_counterexample",
    "Verif.Viz.SgaParity.C210_no_table",
    "Verif.Viz.SgaParity.C210_no_names"
   ],
   "note": "What is compared and the summary are proved for every shape, prediction and option; the last resort leaves terms out and another shape silently changes the target (C210_dropped_counterexample)"
  },
  {
   "property": "C211",
   "status": "partial",
   "theorems": [
    "Verif.Discover.Objects.C211_position",
    "Verif.Discover.Objects.C211_cut",
    "Verif.Discover.Objects.C211_repeat_partial",
    "Verif.Discover.Objects.C211_length",
    "Verif.Discover.Objects.C211_demo",
    "Verif.Discover.Objects.C211_previous_counterexample",
    "Verif.Discover.Objects.C211_observation",
    "Verif.Discover.Objects.C211_parent",
    "Verif.Discover.Objects.C211_ancestor",
    "Verif.Discover.Objects.C211_ancestor_terminal_counterexample",
    "Verif.Discover.Objects.C211_scan_demo"
   ],
   "note": "Cutting, positions and the bounds are proved for every number of expressions; the repeat bound counts the last token of the expression before as well (C211_previous_counterexample)"
  },
  {
   "property": "C212",
   "status": "partial",
   "theorems": [
    "Verif.EqGpt.Answer.C212_weights",
    "Verif.EqGpt.Answer.C212_decode",
    "Verif.EqGpt.Answer.C212_answer_partial",
    "Verif.EqGpt.Answer.C212_demo",
    "Verif.EqGpt.Answer.C212_start_counterexample"
   ],
   "note": "Ending, extension, weights and the text returned are proved for every model, sentence and draw; the kinds of words are those of an older vocabulary, so that a sentence with the start word S is continued wrongly (C212_start_counterexample)"
  }
 ]
}