{
 "claims": [
  {
   "property": "C01",
   "status": "proved",
   "theorems": [
    "Verif.GP.C01_execute_denotes",
    "Verif.GP.C01_trailing_ignored"
   ],
   "note": "Executing the listing of a program is its denotation; trailing nodes are ignored."
  },
  {
   "property": "C02",
   "status": "proved",
   "theorems": [
    "Verif.GP.C02_size",
    "Verif.GP.C02_depth",
    "Verif.GP.C02_depth_raises"
   ],
   "note": "Depth for function sets without nullary functions; with a nullary function depth() raises (theorem)."
  },
  {
   "property": "C03",
   "status": "proved",
   "theorems": [
    "Verif.GP.C03_randomSubtree",
    "Verif.GP.C03_randomSubtree_typed"
   ],
   "note": ""
  },
  {
   "property": "C04",
   "status": "proved",
   "theorems": [
    "Verif.GP.C04_replaceSubtree",
    "Verif.GP.C04_replaceSubtree_typed"
   ],
   "note": ""
  },
  {
   "property": "C05",
   "status": "proved",
   "theorems": [
    "Verif.GP.C05_crossover_legal",
    "Verif.GP.C05_crossover_typed",
    "Verif.GP.C05_crossover_unmatched",
    "Verif.GP.C05_crossover_arity"
   ],
   "note": ""
  },
  {
   "property": "C06",
   "status": "proved",
   "theorems": [
    "Verif.GP.C06_crossover_conserves"
   ],
   "note": ""
  },
  {
   "property": "C07",
   "status": "proved",
   "theorems": [
    "Verif.GP.C07_mutation_legal"
   ],
   "note": ""
  },
  {
   "property": "C08",
   "status": "partial",
   "theorems": [
    "Verif.GP.C08_creation_typed_partial",
    "Verif.GP.C08_mutation_typed_partial",
    "Verif.GP.C08_untyped",
    "Verif.GP.C08_refuted"
   ],
   "note": "False in general (C08_refuted: a float ERC in an int slot); proved when the ERC type is the only numeric type in use or there is no ERC range, and in untyped mode."
  },
  {
   "property": "C09",
   "status": "proved",
   "theorems": [
    "Verif.GP.C09_erc_mutation",
    "Verif.GP.C09_erc_mutation_builtin",
    "Verif.GP.C09_equal_numbers",
    "Verif.GP.C09_shape"
   ],
   "note": "Numeric terminals are ordinary numbers (int, float, bool); C09_erc_mutation_builtin says which values they have without reference to the model."
  },
  {
   "property": "C10",
   "status": "proved",
   "theorems": [
    "Verif.GP.C10_full",
    "Verif.GP.C10_full_returns"
   ],
   "note": ""
  },
  {
   "property": "C11",
   "status": "proved",
   "theorems": [
    "Verif.GP.C11_grow",
    "Verif.GP.C11_grow_returns"
   ],
   "note": ""
  },
  {
   "property": "C12",
   "status": "proved",
   "theorems": [
    "Verif.GP.C12_half",
    "Verif.GP.C12_half_too_small",
    "Verif.GP.C12_half_returns"
   ],
   "note": ""
  },
  {
   "property": "C13",
   "status": "partial",
   "theorems": [
    "Verif.GP.C13_addTree_partial",
    "Verif.GP.C13_refuted_root",
    "Verif.GP.C13_refuted_deep",
    "Verif.GP.C13_refuted"
   ],
   "note": "False for the root of a typed tree and for slots below the second level; exact for arguments of the root and in untyped mode."
  },
  {
   "property": "C14",
   "status": "partial",
   "theorems": [
    "Verif.GP.C14_execute_kwargs_partial",
    "Verif.GP.C14_refuted"
   ],
   "note": "False for constants: a constant in the terminal set makes every call fail."
  },
  {
   "property": "C15",
   "status": "proved",
   "theorems": [
    "Verif.GP.C15_matrix",
    "Verif.GP.C15_matrix_typed"
   ],
   "note": ""
  },
  {
   "property": "C16",
   "status": "proved",
   "theorems": [
    "Verif.GA.C16_genes_conserved",
    "Verif.GA.C16_bounds_preserved",
    "Verif.GA.C16_too_many_points"
   ],
   "note": ""
  },
  {
   "property": "C17",
   "status": "partial",
   "theorems": [
    "Verif.GA.C17_refuted",
    "Verif.GA.C17_segments_partial",
    "Verif.GA.C17_one_point_partial",
    "Verif.GA.C17_actual_segments_partial"
   ],
   "note": "False for k >= 2: start_idx is never advanced; proved for k = 1, and the actually exchanged segments are characterised for every k."
  },
  {
   "property": "C18",
   "status": "proved",
   "theorems": [
    "Verif.GA.C18_created_in_bounds",
    "Verif.GA.C18_illegal_bounds_rejected",
    "Verif.GA.C18_constructor"
   ],
   "note": ""
  },
  {
   "property": "C19",
   "status": "proved",
   "theorems": [
    "Verif.GA.C19_mutations_keep_bounds"
   ],
   "note": "All eight mutation classes."
  },
  {
   "property": "C20",
   "status": "partial",
   "theorems": [
    "Verif.GA.C20_at_most_n_cells",
    "Verif.GA.C20_at_most_n_cells_each",
    "Verif.GA.C20_bit_flip_exactly_one",
    "Verif.GA.C20_refuted"
   ],
   "note": "True for one individual (all classes) and for several individuals with non-Gaussian classes; false for Gaussian mutation of several individuals at once."
  },
  {
   "property": "C21",
   "status": "proved",
   "theorems": [
    "Verif.GA.C21_rejected_rolled_back",
    "Verif.GA.C21_single_unchanged",
    "Verif.GA.C21_on_fail_sees_original"
   ],
   "note": ""
  },
  {
   "property": "C22",
   "status": "proved",
   "theorems": [
    "Verif.GA.C22_replace_part",
    "Verif.GA.C22_replace_part_reversible",
    "Verif.GA.C22_replace_part_random",
    "Verif.GA.C22_random_part",
    "Verif.GA.C22_get_part",
    "Verif.GA.C22_length_attribute",
    "Verif.GA.C22_cells"
   ],
   "note": ""
  },
  {
   "property": "C23",
   "status": "proved",
   "theorems": [
    "Verif.Evo.C23_better",
    "Verif.Evo.C23_equal",
    "Verif.Evo.C23_irrefl",
    "Verif.Evo.C23_asymm",
    "Verif.Evo.C23_trans",
    "Verif.Evo.C23_trichotomy",
    "Verif.Evo.C23_ties_trans",
    "Verif.Evo.C23_unevaluated",
    "Verif.Evo.C23_individuals"
   ],
   "note": ""
  },
  {
   "property": "C24",
   "status": "proved",
   "theorems": [
    "Verif.Evo.C24_smaller",
    "Verif.Evo.C24_zero",
    "Verif.Evo.C24_monotone"
   ],
   "note": ""
  },
  {
   "property": "C25",
   "status": "proved",
   "theorems": [
    "Verif.Evo.C25_no_stale_fitness",
    "Verif.Evo.C25_evaluated_flag"
   ],
   "note": ""
  },
  {
   "property": "C26",
   "status": "proved",
   "theorems": [
    "Verif.Evo.C26_fills",
    "Verif.Evo.C26_tournament",
    "Verif.Evo.C26_too_small"
   ],
   "note": ""
  },
  {
   "property": "C27",
   "status": "proved",
   "theorems": [
    "Verif.Evo.C27_elitism"
   ],
   "note": ""
  },
  {
   "property": "C28",
   "status": "proved",
   "theorems": [
    "Verif.Evo.C28_distribution",
    "Verif.Evo.C28_no_division_by_zero",
    "Verif.Evo.C28_favours_fitter",
    "Verif.Evo.C28_negative",
    "Verif.Evo.C28_probability",
    "Verif.Evo.C28_select",
    "Verif.Evo.C28_not_a_number",
    "Verif.Evo.fitnessProportionate_good",
    "Verif.Evo.fitnessProportionate_fills"
   ],
   "note": "exact reals; the sum check of np.random.choice is exact"
  },
  {
   "property": "C29",
   "status": "partial",
   "theorems": [
    "Verif.Evo.C29_refuted",
    "Verif.Evo.C29_normalised_partial",
    "Verif.Evo.C29_exponential_partial"
   ],
   "note": "false of the code: the probabilities are the softmax of the scores unless the scores sum to one"
  },
  {
   "property": "C30",
   "status": "proved",
   "theorems": [
    "Verif.Evo.C30_ids_unique",
    "Verif.Evo.C30_clone",
    "Verif.Evo.C30_clone_total",
    "Verif.Evo.C30_independent"
   ],
   "note": "Genomes are values in the model: deepcopy is assumed to copy the whole genome."
  },
  {
   "property": "C31",
   "status": "proved",
   "theorems": [
    "Verif.Evo.C31_size",
    "Verif.Evo.C31_succeeds",
    "Verif.Evo.C31_not_divisible",
    "Verif.Evo.C31_all"
   ],
   "note": ""
  },
  {
   "property": "C32",
   "status": "partial",
   "theorems": [
    "Verif.Evo.C32_refuted",
    "Verif.Evo.C32_selected_partial",
    "Verif.Evo.C32_no_operator_partial"
   ],
   "note": "False: operators are applied to elites as well. Proved: the selected list starts with clones of the elites; they survive if no operator fires."
  },
  {
   "property": "C33",
   "status": "proved",
   "theorems": [
    "Verif.Evo.C33_evaluated",
    "Verif.Evo.C33_schedule",
    "Verif.Evo.C33_raises"
   ],
   "note": "executor.map with every order of the tasks; tasks are atomic"
  },
  {
   "property": "C34",
   "status": "partial",
   "theorems": [
    "Verif.Evo.C34_refuted",
    "Verif.Evo.C34_submit_raises_partial"
   ],
   "note": "false of the code: submit stores the individual itself as fitness, the first comparison raises TypeError"
  },
  {
   "property": "C35",
   "status": "proved",
   "theorems": [
    "Verif.Evo.C35_always",
    "Verif.Evo.C35_end"
   ],
   "note": "one sub-population, operators/selection/creators meeting their contracts, arbitrary evaluator, also when the run raises"
  },
  {
   "property": "C36",
   "status": "proved",
   "theorems": [
    "Verif.Evo.C36_course",
    "Verif.Evo.C36_one_checker"
   ],
   "note": "exact event sequence, generations and consultations of every run that returns"
  },
  {
   "property": "C37",
   "status": "partial",
   "theorems": [
    "Verif.Evo.C37_refuted",
    "Verif.Evo.C37_stopped_partial",
    "Verif.Evo.C37_exhausted_partial"
   ],
   "note": "false of the code: final_generation_ stays None when max_generation is reached; true when a checker stops the run"
  },
  {
   "property": "C38",
   "status": "proved",
   "theorems": [
    "Verif.Evo.C38_reproducible",
    "Verif.Evo.C38_fresh",
    "Verif.Evo.C38_any_schedule",
    "Verif.Evo.C38_generation_seeds",
    "Verif.Evo.C38_streams",
    "Verif.Evo.C38_resume",
    "Verif.Evo.tournament_uniform",
    "Verif.Evo.elitism_uniform",
    "Verif.Evo.fitnessProportionate_uniform",
    "Verif.Evo.inPlace_uniform",
    "Verif.Evo.createIndividuals_uniform",
    "Verif.Evo.halfCreate_uniform",
    "Verif.Evo.threshold_uniform",
    "Verif.Evo.stagnation_uniform",
    "Verif.Evo.C38_loop_streams"
   ],
   "note": "user-supplied creators, operators, selection methods and checkers must not depend on ids or addresses (shown for those of the library)"
  },
  {
   "property": "C39",
   "status": "partial",
   "theorems": [
    "Verif.Evo.C39_refuted",
    "Verif.Evo.C39_deterministic_partial"
   ],
   "note": "false for evaluators that draw random numbers; true for all other evaluators"
  },
  {
   "property": "C40",
   "status": "proved",
   "theorems": [
    "Verif.Evo.C40_all_consulted"
   ],
   "note": "every checker of the list is asked with its own state at every generation"
  },
  {
   "property": "C41",
   "status": "proved",
   "theorems": [
    "Verif.Evo.C41_stagnation",
    "Verif.Evo.C41_exact",
    "Verif.Evo.C41_run",
    "Verif.Evo.C41_raises"
   ],
   "note": ""
  },
  {
   "property": "C42",
   "status": "proved",
   "theorems": [
    "Verif.Evo.C42_threshold",
    "Verif.Evo.C42_threshold_unevaluated",
    "Verif.Moo.C42_crowding"
   ],
   "note": ""
  },
  {
   "property": "C43",
   "status": "proved",
   "theorems": [
    "Verif.Pub.C43_publish",
    "Verif.Pub.C43_unknown_event",
    "Verif.Pub.C43_ids",
    "Verif.Pub.C43_unregister",
    "Verif.Pub.C43_register",
    "Verif.Pub.C43_isolated"
   ],
   "note": ""
  },
  {
   "property": "C44",
   "status": "proved",
   "theorems": [
    "Verif.Failable.C44_first_success",
    "Verif.Failable.C44_all_fail",
    "Verif.Failable.C44_attempt_raises",
    "Verif.Failable.C44_cases",
    "Verif.Failable.C44_calls",
    "Verif.Failable.C44_attempts",
    "Verif.Failable.C44_operators"
   ],
   "note": ""
  },
  {
   "property": "C45",
   "status": "proved",
   "theorems": [
    "Verif.Evo.C45_fires",
    "Verif.Evo.C45_handed_over",
    "Verif.Evo.C45_skips",
    "Verif.Evo.C45_probability",
    "Verif.GA.C45_vector_mutations",
    "Verif.Moo.C45_moo_fires",
    "Verif.Moo.C45_moo_skips",
    "Verif.Evo.C45_identity"
   ],
   "note": "C45_fires: operators working in place; C45_handed_over: the Gaussian mutations, whose fallback to the uniform mutation is applied (and recorded) as an operator of its own before the Gaussian one is recorded; C45_vector_mutations: what the mutation objects do to the genomes is what the mutations of C19, C20 and C86 do"
  },
  {
   "property": "C46",
   "status": "proved",
   "theorems": [
    "Verif.Evo.C46_best",
    "Verif.Evo.C46_worst",
    "Verif.Evo.C46_same_as_evaluator",
    "Verif.Evo.C46_unevaluated",
    "Verif.Evo.C46_empty",
    "Verif.Evo.C46_average"
   ],
   "note": ""
  },
  {
   "property": "C47",
   "status": "proved",
   "theorems": [
    "Verif.Evo.C47_construction",
    "Verif.Evo.C47_default_pcr",
    "Verif.Evo.C47_elites",
    "Verif.Evo.C47_existing",
    "Verif.Evo.C47_creation",
    "Verif.Evo.C47_size"
   ],
   "note": "float arithmetic of the sum is a parameter; default probabilities: C68"
  },
  {
   "property": "C48",
   "status": "proved",
   "theorems": [
    "Verif.Moo.C48_dominate",
    "Verif.Moo.C48_unevaluated",
    "Verif.Moo.C48_strict_order"
   ],
   "note": ""
  },
  {
   "property": "C49",
   "status": "proved",
   "theorems": [
    "Verif.Moo.C49_survivor",
    "Verif.Moo.C49_layers",
    "Verif.Moo.C49_frame",
    "Verif.Moo.C49_order_independent"
   ],
   "note": "set iteration order is an arbitrary permutation"
  },
  {
   "property": "C50",
   "status": "proved",
   "theorems": [
    "Verif.Moo.C50_terminates",
    "Verif.Moo.C50_size",
    "Verif.Moo.C50_survivors",
    "Verif.Moo.C50_cut"
   ],
   "note": ""
  },
  {
   "property": "C51",
   "status": "proved",
   "theorems": [
    "Verif.Moo.C51_crowding",
    "Verif.Moo.C51_extremes",
    "Verif.Moo.C51_bounds"
   ],
   "note": "exact rational arithmetic"
  },
  {
   "property": "C52",
   "status": "partial",
   "theorems": [
    "Verif.Moo.C52_refuted",
    "Verif.Moo.C52_same_rank_partial",
    "Verif.Moo.C52_reversed_partial",
    "Verif.Moo.C52_trichotomy_partial"
   ],
   "note": "false of the code: the higher front rank is the better one; true on equal rank"
  },
  {
   "property": "C53",
   "status": "proved",
   "theorems": [
    "Verif.Moo.C53_size",
    "Verif.Moo.C53_doubled"
   ],
   "note": "one sub-population; operators, selection method, creator and evaluator meeting their contracts (shown for in-place operators and tournament selection)"
  },
  {
   "property": "C54",
   "status": "partial",
   "theorems": [
    "Verif.Moo.C54_refuted",
    "Verif.Moo.C54_halves_partial",
    "Verif.Moo.C54_dies_partial",
    "Verif.Moo.C54_default_checker_partial"
   ],
   "note": "false of the code: the default breeder leaves n/2^g individuals after g generations and the run then fails; the default termination checker raises TypeError"
  },
  {
   "property": "C55",
   "status": "proved",
   "theorems": [
    "Verif.Moo.C55_pareto_front"
   ],
   "note": ""
  },
  {
   "property": "C56",
   "status": "proved",
   "theorems": [
    "Verif.Moo.C56_two_objectives",
    "Verif.Moo.C56_last_rank",
    "Verif.Moo.C56_unsorted"
   ],
   "note": ""
  },
  {
   "property": "C57",
   "status": "partial",
   "theorems": [
    "Verif.Store.C57_refuted",
    "Verif.Store.C57_refuted_fitness",
    "Verif.Store.C57_constructed",
    "Verif.Store.C57_restored_partial",
    "Verif.Store.C57_iff_partial",
    "Verif.Store.C57_values_partial",
    "Verif.Store.C57_after_initialize_partial",
    "Verif.Store.C57_without_executor_partial",
    "Verif.Evo.C57_unpickled"
   ],
   "note": "false of the code: after initialize the population evaluator holds the executor and pickling raises TypeError; uncached fitness values are lost; before that the fields are preserved and the executor is recreated"
  },
  {
   "property": "C58",
   "status": "proved",
   "theorems": [
    "Verif.Clf.C58_methods",
    "Verif.Clf.C58_range",
    "Verif.Clf.C58_bins",
    "Verif.Clf.C58_monotone",
    "Verif.Clf.C58_any_rounding",
    "Verif.Clf.C58_binary",
    "Verif.Clf.C58_surjective"
   ],
   "note": "exact reals; the label as a function of the rounded sigmoid is covered by C58_any_rounding"
  },
  {
   "property": "C59",
   "status": "partial",
   "theorems": [
    "Verif.Store.C59_refuted",
    "Verif.Store.C59_refuted_round_trip",
    "Verif.Store.C59_get_params_partial",
    "Verif.Store.C59_set_params_partial"
   ],
   "note": "false of the code: set_params sets attributes of the wrapped algorithm and replaces its executor"
  },
  {
   "property": "C60",
   "status": "proved",
   "theorems": [
    "Verif.Clf.C60_predict",
    "Verif.Clf.C60_classify",
    "Verif.Clf.C60_not_fitted",
    "Verif.Clf.C60_refit",
    "Verif.Clf.C60_root"
   ],
   "note": "the evolution and the execution of trees are parameters"
  },
  {
   "property": "C61",
   "status": "proved",
   "theorems": [
    "Verif.Prim.C61_div",
    "Verif.Prim.C61_bounded",
    "Verif.Prim.C61_inv",
    "Verif.Prim.C61_log",
    "Verif.Prim.C61_sqrt",
    "Verif.Prim.C61_conditionals",
    "Verif.Prim.C61_lengths"
   ],
   "note": "for every rounding function; scalars and one-dimensional arrays"
  },
  {
   "property": "C62",
   "status": "partial",
   "theorems": [
    "Verif.GP.C62_refuted",
    "Verif.GP.C62_float_constants_partial"
   ],
   "note": "False: an int constant becomes a float still annotated int; float constants stay floats."
  },
  {
   "property": "C63",
   "status": "partial",
   "theorems": [
    "Verif.GA.C63_refuted",
    "Verif.GA.C63_two_cells_raise_partial",
    "Verif.GA.C63_bit_strings_partial"
   ],
   "note": "False: two-cell vectors and bit strings raise TypeError. Other cases: C18/C19."
  },
  {
   "property": "C64",
   "status": "partial",
   "theorems": [
    "Verif.GA.C64_refuted"
   ],
   "note": "False: every cell is visited. The bounds are still kept (C19)."
  },
  {
   "property": "C65",
   "status": "partial",
   "theorems": [
    "Verif.GA.C65_refuted",
    "Verif.GA.C65_int_default_always_raises_partial",
    "Verif.GA.C65_float_bit_partial"
   ],
   "note": "False for IntVector: default bounds are swapped and every draw raises."
  },
  {
   "property": "C66",
   "status": "partial",
   "theorems": [
    "Verif.GA.C66_refuted",
    "Verif.GA.C66_default_getter_raises_partial"
   ],
   "note": "False: the default value getter always raises."
  },
  {
   "property": "C67",
   "status": "partial",
   "theorems": [
    "Verif.Pub.C67_refuted",
    "Verif.Pub.C67_raises_partial"
   ],
   "note": "false of the code: the default callback is a set, so publishing raises TypeError after calling the earlier subscribers"
  },
  {
   "property": "C68",
   "status": "partial",
   "theorems": [
    "Verif.Evo.C68_refuted_py311",
    "Verif.Evo.C68_refuted_py312",
    "Verif.Evo.C68_exact_partial"
   ],
   "note": "false of the code: six creators (CPython <= 3.11) or 49 creators (>= 3.12) are rejected because of float rounding; true with exact arithmetic"
  },
  {
   "property": "C69",
   "status": "partial",
   "theorems": [
    "Verif.Moo.C69_refuted",
    "Verif.Moo.C69_two_objectives_partial"
   ],
   "note": "false of the code: with three objectives the assertion of get_corners may fail; true for two"
  },
  {
   "property": "C70",
   "status": "partial",
   "theorems": [
    "Verif.Moo.C70_refuted",
    "Verif.Moo.C70_never_updated_partial",
    "Verif.Moo.C70_lottery_partial"
   ],
   "note": "false of the code: best_of_run_ is set at initialisation only, by coin flips that ignore the objectives, and breeding modifies the object"
  },
  {
   "property": "C71",
   "status": "partial",
   "theorems": [
    "Verif.Store.C71_refuted",
    "Verif.Store.C71_restored_partial"
   ],
   "note": "false of the code: __getstate__ drops is_fitted_"
  },
  {
   "property": "C72",
   "status": "partial",
   "theorems": [
    "Verif.Evo.C72_refuted",
    "Verif.Evo.C72_never_again_partial",
    "Verif.Evo.C72_result_kept_partial"
   ],
   "note": "false: finish shuts the executor down, so the second evolve always raises RuntimeError"
  },
  {
   "property": "C73",
   "status": "partial",
   "theorems": [
    "Verif.Prim.C73_refuted",
    "Verif.Prim.C73_numeric_partial",
    "Verif.Prim.C73_argmax_partial"
   ],
   "note": "false because of argmax2floats with a constant; proved for trees over all other numeric functions but the logical functions of floats and ints, for which see C168"
  },
  {
   "property": "C74",
   "status": "partial",
   "theorems": [
    "Verif.Prim.C74_refuted",
    "Verif.Prim.C74_refuted_float",
    "Verif.Prim.C74_truth_partial"
   ],
   "note": "false: bitwise operations; proved for truth values (f_and), integers (f_or), everything (f_not)"
  },
  {
   "property": "C75",
   "status": "proved",
   "theorems": [
    "Verif.GP.C75_programs_legal"
   ],
   "note": "selection: any method meeting the contract proved for those of the library"
  },
  {
   "property": "C76",
   "status": "proved",
   "theorems": [
    "Verif.GA.C76_vectors_legal"
   ],
   "note": "selection: any method meeting the contract proved for those of the library; bounds that are a list of two pairs are excluded (C63)"
  },
  {
   "property": "C77",
   "status": "proved",
   "theorems": [
    "Verif.Prim.C77_meaning",
    "Verif.Prim.C77_tiny"
   ],
   "note": "argmax2floats: for arguments of one shape (C73); arithmetic on infinities and NaN is described by the model only; the arguments are numbers (for truth values see C168)"
  },
  {
   "property": "C78",
   "status": "proved",
   "theorems": [
    "Verif.Prim.C78_rows"
   ],
   "note": "without argmax2floats, which raises when a constant meets a column (C73); trees with the logical functions of floats and ints are treated in C168_exact_partial"
  },
  {
   "property": "C79",
   "status": "proved",
   "theorems": [
    "Verif.Moo.C79_new",
    "Verif.Moo.C79_write_once",
    "Verif.Moo.C79_ready",
    "Verif.Moo.C79_reset",
    "Verif.Moo.C79_copy",
    "Verif.Moo.C79_lengths",
    "Verif.Moo.C79_stale_rank"
   ],
   "note": ""
  },
  {
   "property": "C80",
   "status": "proved",
   "theorems": [
    "Verif.Evo.C80_completes",
    "Verif.GA.C80_vectors",
    "Verif.GP.C80_programs",
    "Verif.Evo.tournament_worksOn",
    "Verif.GA.C80_vectors_checkers",
    "Verif.GP.C80_programs_checkers",
    "Verif.GP.C80_typed"
   ],
   "note": "evolve up to and including the statistics and the shutdown of the executor, but without the final printing of the best individual; resource exhaustion is not modelled; programs: the half-and-half creator, full and grow methods over a function set and a terminal set that have a function and a terminal for every type in use; C80_typed and C144 say which of these conditions the setup checks"
  },
  {
   "property": "C81",
   "status": "partial",
   "theorems": [
    "Verif.GP.C81_refuted",
    "Verif.GP.C81_run_refuted",
    "Verif.GP.C81_constant_raises",
    "Verif.GP.C81_empty_raises",
    "Verif.GP.C81_text_partial",
    "Verif.GP.C81_typed_partial",
    "Verif.GP.C81_faithful_partial",
    "Verif.GP.C81_run_partial",
    "Verif.GA.C81_run_vectors"
   ],
   "note": "false of the code: with a non-string constant in an untyped terminal set __str__ raises TypeError, so every run with such a set raises at its end; proved for terminal sets of variables and for typed trees"
  },
  {
   "property": "C82",
   "status": "proved",
   "theorems": [
    "Verif.Moo.C82_completes",
    "Verif.Moo.C82_vectors",
    "Verif.Moo.C82_programs",
    "Verif.Moo.tournamentM_worksOn"
   ],
   "note": "evolve without the final printing of the best individual; resource exhaustion is not modelled; programs: a function and a terminal for every type in use, and a tree creator of the user's that gives NSGA2Fitness objects, since the library's always give GPFitness (C98)"
  },
  {
   "property": "C83",
   "status": "partial",
   "theorems": [
    "Verif.Moo.C83_refuted",
    "Verif.Moo.C83_no_ties_partial",
    "Verif.Moo.C83_sort_partial",
    "Verif.Moo.C83_threads_partial",
    "Verif.Moo.C83_seeded_partial",
    "Verif.Moo.C83_loop_streams_partial",
    "Verif.Moo.C83_streams_partial",
    "Verif.Moo.C83_resume_partial"
   ],
   "note": "false of the code: the survivors among tied individuals depend on the iteration order of sets of individuals, which follows memory addresses; proved for runs without ties in the first objective, and for thread timing with evaluators that draw nothing"
  },
  {
   "property": "C84",
   "status": "partial",
   "theorems": [
    "Verif.Moo.C84_refuted",
    "Verif.Moo.C84_never_again_partial",
    "Verif.Moo.C84_result_kept_partial"
   ],
   "note": "false: the population of the first run is still there and evaluated, so set_fitness raises AttributeError"
  },
  {
   "property": "C85",
   "status": "proved",
   "theorems": [
    "Verif.GP.C85_full",
    "Verif.GP.C85_grow",
    "Verif.GP.C85_half"
   ],
   "note": "the random generator is a tape of arbitrary draws; random() may return every rational in [0,1)"
  },
  {
   "property": "C86",
   "status": "proved",
   "theorems": [
    "Verif.GA.C86_created",
    "Verif.GA.C86_one_application",
    "Verif.GA.C86_connected"
   ],
   "note": "float cells are rationals; bit vectors with the usual bounds (0, 1); Gaussian classes with sigma different from 0"
  },
  {
   "property": "C87",
   "status": "partial",
   "theorems": [
    "Verif.GP.C87_refuted",
    "Verif.GP.C87_choosable_partial",
    "Verif.GP.C87_mutation_partial",
    "Verif.GP.C87_mutation_anywhere_partial",
    "Verif.GP.C87_crossover_partial",
    "Verif.GP.C87_mutation_root_kept",
    "Verif.GP.C87_crossover_root_kept"
   ],
   "note": "false of the code: the position of a sub-tree is looked up with list.index, which finds the first equal node, so of several equal nodes only the first can be chosen, and the root of a typed tree never; proved: exactly which positions can be chosen and exactly what mutation and crossover can produce"
  },
  {
   "property": "C88",
   "status": "partial",
   "theorems": [
    "Verif.GP.C88_refuted",
    "Verif.GP.C88_typed_partial",
    "Verif.GP.C88_untyped"
   ],
   "note": "false of the code for ERC ranges that clash with another numeric type (cf. C08); proved for all other typed configurations and all untyped ones"
  },
  {
   "property": "C89",
   "status": "proved",
   "theorems": [
    "Verif.GP.C89_roots_confined"
   ],
   "note": "typed configurations with completely annotated functions and an ERC range that does not clash with another numeric type"
  },
  {
   "property": "C90",
   "status": "partial",
   "theorems": [
    "Verif.GP.C90_refuted",
    "Verif.GP.C90_ingredients_partial",
    "Verif.GP.C90_noise_partial"
   ],
   "note": "false of the code with ERC mutation, which moves constants out of the range and puts floats into int arguments; proved without ERC mutation, and with it for everything but the numeric constants"
  },
  {
   "property": "C91",
   "status": "proved",
   "theorems": [
    "Verif.Evo.C91_events",
    "Verif.Evo.C91_end"
   ],
   "note": "ordinary configurations: one sub-population, creators, selection and operators that respect the contracts proved for those of the library; C91_events also covers an event of generation 0, without best_of_gen; worst_of_gen is stated for the end of the run, because events do not carry it"
  },
  {
   "property": "C92",
   "status": "partial",
   "theorems": [
    "Verif.Evo.C92_refuted",
    "Verif.Evo.C92_generation_partial",
    "Verif.Evo.C92_record_partial",
    "Verif.GP.C92_tree_names",
    "Verif.GA.C92_vector_names"
   ],
   "note": "false as documented: the lists are never emptied and grow by one selection and one list of operators per generation; proved is exactly that, with gen and update_parents as stated, for operators that work on genomes and may hand over to others (all of the library's: GP.LibOp.discloses, GA.LibOp.discloses; the Gaussian mutations' fallback adds an entry of its own)"
  },
  {
   "property": "C93",
   "status": "partial",
   "theorems": [
    "Verif.Evo.C93_refuted",
    "Verif.Evo.C93_parents_partial",
    "Verif.Evo.C93_groups_partial"
   ],
   "note": "false of the code: the recorded ids are those of the clones the operator worked on, the individual itself included; proved is that they are exactly the own group's ids, once per applied operator (fallbacks included), and never ids of the previous generation"
  },
  {
   "property": "C94",
   "status": "proved",
   "theorems": [
    "Verif.Evo.C94_ancestry"
   ],
   "note": "ordinary configurations with operators that work on genomes and may hand over to others (all of the library's)"
  },
  {
   "property": "C95",
   "status": "partial",
   "theorems": [
    "Verif.Evo.C95_refuted",
    "Verif.Evo.C95_lines",
    "Verif.Evo.C95_subpopulations",
    "Verif.Evo.C95_ordered_partial"
   ],
   "note": "the order of the numbers is false with bloat control, because the best individual is chosen by augmented fitness and its pure fitness is written; what is written is proved for all ordinary configurations, the order for runs without bloat control"
  },
  {
   "property": "C96",
   "status": "partial",
   "theorems": [
    "Verif.Pub.C96_refuted",
    "Verif.Pub.C96_act_partial",
    "Verif.Pub.C96_arity",
    "Verif.Pub.C96_custom_events",
    "Verif.Pub.C96_selection",
    "Verif.Pub.C96_creator",
    "Verif.Pub.C96_creator_events"
   ],
   "note": "false of the code for operators created with a list of events (TypeError), for selection methods, which always get such a list, and for creators, whose events argument ends up as their arity (ValueError for every payload); proved for operators created without events whose subscribers gave a callback (cf. C67)"
  },
  {
   "property": "C97",
   "status": "partial",
   "theorems": [
    "Verif.Evo.C97_refuted",
    "Verif.Evo.C97_order",
    "Verif.Evo.C97_only",
    "Verif.Evo.C97_never",
    "Verif.Evo.C97_published_partial"
   ],
   "note": "false of the code: before_eval, after_eval, before_breeding, after_breeding, before_operator and after_operator of the algorithm are never published; the order of all events is proved for all runs. That creators, selections, genetic operators and individual evaluators publish nothing is how they are modelled: the code calls apply_operator, select and create_individuals directly instead of act"
  },
  {
   "property": "C98",
   "status": "partial",
   "theorems": [
    "Verif.GP.C98_refuted",
    "Verif.GP.C98_refuted_fitness_type",
    "Verif.GP.C98_full_partial",
    "Verif.GP.C98_grow_partial",
    "Verif.GP.C98_half_partial",
    "Verif.GP.C98_half_own_partial",
    "Verif.GP.C98_always_gp_partial",
    "Verif.GP.C98_full_depth",
    "Verif.GP.C98_grow_depth",
    "Verif.GP.C98_half_depths",
    "Verif.GA.C98_vector_partial"
   ],
   "note": "false of the code: HalfCreator drops its bloat weight (its default sub-creators have weight 0 and no update_parents), and GPTreeCreator ignores its fitness_type; proved for everything else, and for HalfCreator exactly what its trees carry"
  },
  {
   "property": "C99",
   "status": "partial",
   "theorems": [
    "Verif.Pub.C99_refuted",
    "Verif.Pub.C99_replaced",
    "Verif.Pub.C99_restored_partial",
    "Verif.Pub.C99_kept_partial"
   ],
   "note": "false of the code: the counter of ids starts at 0 again, so that new registrations replace subscribers of the dictionary; proved: the dictionary's subscribers are called, and those with large enough ids are kept. That the dictionary is shared with its previous owner is not modelled"
  },
  {
   "property": "C100",
   "status": "partial",
   "theorems": [
    "Verif.Evo.C100_refuted",
    "Verif.Evo.C100_best_refuted",
    "Verif.Evo.C100_continued_partial",
    "Verif.GP.LibOp.ageless",
    "Verif.GA.LibOp.ageless",
    "Verif.Evo.tournament_ageless",
    "Verif.Evo.fitnessProportionate_ageless"
   ],
   "note": "false of the code: generations are counted from 1 again and initialize overwrites best_of_run_; proved: the individuals of all generations and the seeds are those of the uninterrupted run, for configurations without termination checker"
  },
  {
   "property": "C101",
   "status": "proved",
   "theorems": [
    "Verif.GP.C101_nodes",
    "Verif.GP.C101_functions",
    "Verif.GA.C101_genes"
   ],
   "note": "for runs configured with the library's creators, selections and operators"
  },
  {
   "property": "C102",
   "status": "partial",
   "theorems": [
    "Verif.Evo.C102_refuted",
    "Verif.Evo.C102_reports",
    "Verif.Evo.C102_once_partial",
    "Verif.Evo.C102_again_partial",
    "Verif.Evo.C102_generations_partial"
   ],
   "note": "false of the code: initialize registers the statistics again in every run and the subscribers are saved with the object, so that after n runs everything is written n+1 times; proved: exactly that count, once per generation in a first run, and the generation numbers written"
  },
  {
   "property": "C103",
   "status": "partial",
   "theorems": [
    "Verif.Pub.C103_refuted",
    "Verif.Pub.C103_calm_partial",
    "Verif.Pub.C103_disturbed_partial",
    "Verif.Pub.C103_one_shot_partial",
    "Verif.Pub.C103_all_partial",
    "Verif.Pub.C103_passive_partial"
   ],
   "note": "false of the code: a subscriber that unregisters itself, even the last, makes publish raise RuntimeError, and the later ones are not called; proved: callbacks that leave the number of subscribers of this event alone are harmless, and what happens otherwise"
  },
  {
   "property": "C104",
   "status": "partial",
   "theorems": [
    "Verif.Construction.C104_refuted",
    "Verif.Construction.C104_accepted_partial",
    "Verif.Construction.C104_rejected_partial",
    "Verif.Construction.C104_seed_partial",
    "Verif.Construction.C104_evolves_partial"
   ],
   "note": "accepted exactly if described, rejected with ValueError, default seed in range; the last sentence is false of the code: a list of two sub-populations is accepted and evolve raises"
  },
  {
   "property": "C105",
   "status": "partial",
   "theorems": [
    "Verif.Evo.C105_refuted",
    "Verif.Evo.C105_shared_partial",
    "Verif.Evo.C105_apart_partial"
   ],
   "note": "false of the code: seeds are incremented per generation, so that runs with seeds s and s+1 share all seeds but one; proved: exactly when seeds coincide, and that seeds at least max_generation apart share none"
  },
  {
   "property": "C106",
   "status": "partial",
   "theorems": [
    "Verif.Sharing.C106_refuted",
    "Verif.Sharing.C106_breeders",
    "Verif.Sharing.C106_independent_partial",
    "Verif.Sharing.C106_shared_partial"
   ],
   "note": "false of the code: default argument objects are shared (fitness of trees, breeder of SimpleEvolution); proved: independence whenever the argument is given or at most one call omits it"
  },
  {
   "property": "C107",
   "status": "partial",
   "theorems": [
    "Verif.GP.C107_refuted",
    "Verif.GP.C107_best_partial",
    "Verif.GP.C107_bloat_partial"
   ],
   "note": "false of the code with bloat control (GPFitness's default): the best individual is chosen by the adjusted fitness; proved without bloat control, and with it up to the weight for every node"
  },
  {
   "property": "C108",
   "status": "partial",
   "theorems": [
    "Verif.Evo.C108_best_of_run",
    "Verif.Evo.C108_refuted",
    "Verif.Evo.C108_careful_partial"
   ],
   "note": "best_of_run_ proved; the population part is false of the code: the elites pass through the operators like everybody else; proved for operators one of whose results is at least as good as the best they are given, such as IdentityTransformation"
  },
  {
   "property": "C109",
   "status": "partial",
   "theorems": [
    "Verif.Evo.C109_early",
    "Verif.Evo.C109_refuted",
    "Verif.Evo.C109_optimal_partial",
    "Verif.Evo.C109_legal_partial"
   ],
   "note": "early ends proved; stopping is false of the code if a fitness is better than the target by more than the threshold (the checker ignores higher_is_better); proved without bloat control if nothing is better than the target"
  },
  {
   "property": "C110",
   "status": "partial",
   "theorems": [
    "Verif.GP.C110_refuted",
    "Verif.GP.C110_depth_partial",
    "Verif.GP.C110_depth_method_partial",
    "Verif.GP.C110_erc_only",
    "Verif.GP.C110_crossover_partial",
    "Verif.GP.C110_doubling"
   ],
   "note": "false of the code: crossover and subtree mutation deepen trees and nothing limits them; proved: the bound with ERC mutation only, and for all operators a bound that depends on the generation (crossover doubles it, subtree mutation adds its own depth), which one crossover can attain"
  },
  {
   "property": "C111",
   "status": "partial",
   "theorems": [
    "Verif.Evo.C111_refuted",
    "Verif.Evo.C111_told_partial",
    "Verif.Evo.C111_passed_over",
    "Verif.Evo.C111_failed",
    "Verif.Evo.C111_origin"
   ],
   "note": "false of the code: a call that is passed over, or whose attempts all fail, tells the subscribers the individuals of an earlier call or None; proved: when it is true, what is told otherwise, and that nothing but individuals of calls made so far is ever told"
  },
  {
   "property": "C112",
   "status": "partial",
   "theorems": [
    "Verif.GP.C112_refuted",
    "Verif.GP.C112_best_partial",
    "Verif.GP.C112_default_direction",
    "Verif.GP.C112_bloat_partial"
   ],
   "note": "false of the code with the default higher_is_better=False of sub-populations: the accuracy is minimised; and with bloat control; proved with higher_is_better=True without bloat control, and with it up to the weight for every node"
  },
  {
   "property": "C113",
   "status": "partial",
   "theorems": [
    "Verif.GP.C113_refuted",
    "Verif.GP.C113_sigmoid_partial",
    "Verif.GP.C113_encoded_partial",
    "Verif.GP.C113_score_bound",
    "Verif.GP.C113_root_partial"
   ],
   "note": "false of the code: labels are not encoded; proved for labels 0..n-1 (sigmoid) and for root functions whose values are labels; the sigmoid is the exact one, C58_any_rounding covers rounding"
  },
  {
   "property": "C114",
   "status": "partial",
   "theorems": [
    "Verif.Moo.C114_refuted",
    "Verif.Moo.C114_extremes_partial",
    "Verif.Moo.C114_front"
   ],
   "note": "false of the code for fewer than two individuals per objective: a population of two with two objectives loses one of its two extremes although no operator changes anything; proved from there on"
  },
  {
   "property": "C115",
   "status": "proved",
   "theorems": [
    "Verif.Evo.C115_events",
    "Verif.Evo.C115_end"
   ],
   "note": "ordinary configurations with a deterministic evaluator; also events of runs that raise afterwards"
  },
  {
   "property": "C116",
   "status": "proved",
   "theorems": [
    "Verif.Evo.C116_draws",
    "Verif.Evo.C116_favours_fitter",
    "Verif.Evo.C116_equal",
    "Verif.Evo.C116_count",
    "Verif.Evo.C116_best",
    "Verif.Evo.C116_select"
   ],
   "note": "counts over all outcomes of the index draws of random.choices/random.sample; that CPython's generator makes them equally likely is not modelled"
  },
  {
   "property": "C117",
   "status": "proved",
   "theorems": [
    "Verif.Evo.C117_find",
    "Verif.Evo.C117_generations",
    "Verif.Evo.C117_end"
   ],
   "note": "object identity is the reference into the heap of the model"
  },
  {
   "property": "C118",
   "status": "partial",
   "theorems": [
    "Verif.Evo.C118_one_partial",
    "Verif.Evo.C118_zero_partial",
    "Verif.Evo.C118_odds",
    "Verif.Evo.C118_refuted"
   ],
   "note": "false at the boundary: the test is random() <= probability, so an operator of probability 0 is applied if random() returns 0.0; the exact number of draws that apply an operator is floor(n*p)+1 of n, one more than documented"
  },
  {
   "property": "C119",
   "status": "proved",
   "theorems": [
    "Verif.GA.C119_created",
    "Verif.GA.C119_cells",
    "Verif.GA.C119_flip",
    "Verif.GA.C119_one_point",
    "Verif.GA.C119_points"
   ],
   "note": "uniformity of random.randint, random.sample and random.choice themselves (each index with equal chance) is assumed, not modelled"
  },
  {
   "property": "C120",
   "status": "partial",
   "theorems": [
    "Verif.GP.C120_odds_partial",
    "Verif.GP.C120_distinct_partial",
    "Verif.GP.C120_first_copy",
    "Verif.GP.C120_refuted"
   ],
   "note": "false if a node occurs twice: the subtree at the first copy is chosen for the draws of all copies, the subtrees at the others never; proved: the exact odds, and equal odds in trees without repeated nodes"
  },
  {
   "property": "C121",
   "status": "proved",
   "theorems": [
    "Verif.Evo.C121_blames",
    "Verif.GA.C121_vectors",
    "Verif.GP.C121_programs",
    "Verif.GA.C121_vectors_checkers",
    "Verif.GP.C121_programs_checkers"
   ],
   "note": "same parts of evolve as C80; the evaluator is a function of the genome and the random tape"
  },
  {
   "property": "C122",
   "status": "proved",
   "theorems": [
    "Verif.Evo.C122_refused",
    "Verif.Evo.C122_value_error",
    "Verif.Evo.C122_unused"
   ],
   "note": ""
  },
  {
   "property": "C123",
   "status": "partial",
   "theorems": [
    "Verif.Evo.C123_scaled",
    "Verif.Evo.C123_refuted",
    "Verif.GA.C123_order_partial",
    "Verif.GA.C123_mirror",
    "Verif.GP.C123_order_partial",
    "Verif.GP.C123_mirror",
    "Verif.GP.C123_target"
   ],
   "note": "False for increasing functions with a non-zero bloat weight (C123_refuted: doubling all values changes the best of the run); everything else in the statement is proved."
  },
  {
   "property": "C124",
   "status": "proved",
   "theorems": [
    "Verif.Evo.C124_checker",
    "Verif.Evo.C124_generations",
    "Verif.Evo.C124_budget",
    "Verif.Evo.C124_patience"
   ],
   "note": ""
  },
  {
   "property": "C125",
   "status": "proved",
   "theorems": [
    "Verif.Moo.C125_run",
    "Verif.Moo.C125_crowding_checker",
    "Verif.Moo.C125_vectors",
    "Verif.Moo.C125_programs",
    "Verif.Moo.C125_nonlinear"
   ],
   "note": ""
  },
  {
   "property": "C126",
   "status": "proved",
   "theorems": [
    "Verif.Moo.C126_course",
    "Verif.Moo.C126_generations"
   ],
   "note": ""
  },
  {
   "property": "C127",
   "status": "proved",
   "theorems": [
    "Verif.Moo.C127_stopped",
    "Verif.Moo.C127_raises",
    "Verif.Moo.C127_longer"
   ],
   "note": ""
  },
  {
   "property": "C128",
   "status": "proved",
   "theorems": [
    "Verif.Moo.C128_vectors",
    "Verif.Moo.C128_programs"
   ],
   "note": "same parts of evolve as C82; the evaluator is a function of the genome and the random tape"
  },
  {
   "property": "C129",
   "status": "proved",
   "theorems": [
    "Verif.Evo.C129_same",
    "Verif.Evo.C129_calls",
    "Verif.Evo.C129_budget",
    "Verif.Evo.C129_size",
    "Verif.GP.C129_programs",
    "Verif.GA.C129_vectors"
   ],
   "note": "for runs that return; the record of calls is an addition to the model that C129_same proves harmless"
  },
  {
   "property": "C130",
   "status": "proved",
   "theorems": [
    "Verif.Moo.C130_same",
    "Verif.Moo.C130_calls",
    "Verif.Moo.C130_budget",
    "Verif.Moo.C130_default",
    "Verif.Moo.C130_complete",
    "Verif.Moo.C130_vectors",
    "Verif.Moo.C130_programs"
   ],
   "note": "for runs that return; the counts for parts that meet their contracts (C53); the record of calls is an addition to the model that C130_same proves harmless"
  },
  {
   "property": "C131",
   "status": "proved",
   "theorems": [
    "Verif.Evo.C131_represent",
    "Verif.GP.C131_programs",
    "Verif.GP.C131_execute",
    "Verif.GP.C131_scores"
   ],
   "note": "tournaments and elitism; functions are identified by an identity and a signature"
  },
  {
   "property": "C132",
   "status": "proved",
   "theorems": [
    "Verif.GA.C132_vectors",
    "Verif.GA.C132_in_bounds"
   ],
   "note": "tournaments and elitism; real numbers are modelled as rationals, so rounding of floats is not covered; the random draws are the same exact numbers in [0, 1) and standard normal values"
  },
  {
   "property": "C133",
   "status": "partial",
   "theorems": [
    "Verif.Evo.C133_refuted",
    "Verif.Evo.C133_odds_partial",
    "Verif.Evo.C133_offset_partial"
   ],
   "note": "the statement is false of the code (witness: scores 1 and 2 against 2 and 4); proved instead what a change of units does to the odds; exact real numbers"
  },
  {
   "property": "C134",
   "status": "proved",
   "theorems": [
    "Verif.Moo.C134_represent",
    "Verif.Moo.C134_programs",
    "Verif.Moo.C134_vectors"
   ],
   "note": "exact rational arithmetic; the Gaussian noise is converted with the cells"
  },
  {
   "property": "C135",
   "status": "proved",
   "theorems": [
    "Verif.Moo.C135_features",
    "Verif.Moo.C135_nodes",
    "Verif.Moo.C135_functions",
    "Verif.Moo.C135_genes"
   ],
   "note": "runs started on a new algorithm object, no individuals made before"
  },
  {
   "property": "C136",
   "status": "partial",
   "theorems": [
    "Verif.Moo.C136_refuted",
    "Verif.Moo.C136_objectives_partial",
    "Verif.Moo.C136_programs_partial",
    "Verif.Moo.C136_vectors_partial"
   ],
   "note": "the statement is false of the code (witness: the announced best goes from [7, -14] to [8, -24], worse in both objectives); proved instead that every individual has the objectives of its current genome"
  },
  {
   "property": "C137",
   "status": "proved",
   "theorems": [
    "Verif.Evo.C137_labels",
    "Verif.GP.C137_programs",
    "Verif.GA.C137_vectors",
    "Verif.GA.mutationSteps_twins",
    "Verif.GA.gaussSteps_twins",
    "Verif.Evo.threshold_blind",
    "Verif.Evo.stagnation_blind"
   ],
   "note": "relational: two runs from states equal up to labels are in lock step; mutations modelled once as functions of genomes and once statement by statement on the heap with ids used up, related by Twins"
  },
  {
   "property": "C138",
   "status": "proved",
   "theorems": [
    "Verif.Examples.C138_returns",
    "Verif.Examples.C138_one_max"
   ],
   "note": "the sub-population and the algorithm as the script builds them, with its numbers as parameters; statistics printing left out; executor with max_workers=1"
  },
  {
   "property": "C139",
   "status": "partial",
   "theorems": [
    "Verif.Examples.C139_refuted",
    "Verif.Examples.C139_rejects",
    "Verif.Examples.C139_partial"
   ],
   "note": "false of the code: every non-empty list raises"
  },
  {
   "property": "C140",
   "status": "proved",
   "theorems": [
    "Verif.Examples.C140_fitness",
    "Verif.Examples.C140_missing",
    "Verif.Examples.C140_run",
    "Verif.Examples.C140_example",
    "Verif.Examples.C140_default"
   ],
   "note": "minus infinity is represented by a number below the value of every feasible bag; exact rational arithmetic for prices"
  },
  {
   "property": "C141",
   "status": "partial",
   "theorems": [
    "Verif.Examples.C141_target",
    "Verif.Examples.C141_table",
    "Verif.Examples.C141_fitness",
    "Verif.Examples.C141_perfect",
    "Verif.Examples.C141_returns",
    "Verif.Examples.C141_partial",
    "Verif.Examples.C141_sharp_partial",
    "Verif.Examples.C141_refuted"
   ],
   "note": "the last part is false of the code (witness: a run that ends with a tree wrong for eight combinations); everything else proved; pandas columns are functions from rows to integers"
  },
  {
   "property": "C142",
   "status": "partial",
   "theorems": [
    "Verif.Examples.C142_refuted",
    "Verif.Examples.C142_statement_refuted",
    "Verif.Examples.C142_diverges",
    "Verif.Examples.C142_empty",
    "Verif.Examples.C142_creator",
    "Verif.Examples.C142_partial"
   ],
   "note": "false of the code for every root function"
  },
  {
   "property": "C143",
   "status": "partial",
   "theorems": [
    "Verif.Examples.C143_refuted",
    "Verif.Examples.C143_partial",
    "Verif.Examples.C143_positive_partial",
    "Verif.Examples.C143_with_factor"
   ],
   "note": "false of the code at vectors whose first cell is zero; reals instead of floats"
  },
  {
   "property": "C144",
   "status": "partial",
   "theorems": [
    "Verif.GP.C144_partial",
    "Verif.GP.C144_never",
    "Verif.GP.C144_refuted",
    "Verif.GP.C144_statement_refuted"
   ],
   "note": "false of the code: the setup does not check that argument types are returned by functions, nor that the root type has a terminal; proved for sets that have a function and a terminal for every type in use, and proved that without a suitable function no tree of depth two can be created"
  },
  {
   "property": "C145",
   "status": "partial",
   "theorems": [
    "Verif.Store.C145_partial",
    "Verif.Store.C145_refuted",
    "Verif.Store.C145_statement_refuted",
    "Verif.Store.C145_refuted_more"
   ],
   "note": "false of the code for random_seed, executor and statistics; proved for the parameters that are only stored"
  },
  {
   "property": "C146",
   "status": "partial",
   "theorems": [
    "Verif.Store.C146_partial",
    "Verif.Store.C146_refuted",
    "Verif.Store.C146_statement_refuted"
   ],
   "note": "false of the code for fitted estimators: the executor kept by the population evaluator cannot be copied; proved as long as no parameter holds such an object"
  },
  {
   "property": "C147",
   "status": "proved",
   "theorems": [
    "Verif.Examples.C147"
   ],
   "note": "reals instead of floats"
  },
  {
   "property": "C148",
   "status": "partial",
   "theorems": [
    "Verif.Examples.C148_partial",
    "Verif.Examples.C148_refuted",
    "Verif.Examples.C148_statement_refuted"
   ],
   "note": "false of the code: the example maximises; proved that apart from vectors with first cell zero the other cells are all zeros or all ones; reals instead of floats"
  },
  {
   "property": "C149",
   "status": "partial",
   "theorems": [
    "Verif.Moo.C149_refuted",
    "Verif.Moo.C149_statement_refuted",
    "Verif.Moo.C149_evaluates_partial",
    "Verif.Moo.C149_same_partial"
   ],
   "note": "false of the code for every configuration; proved that the objective values have been stored before the exception; tasks run in the same process"
  },
  {
   "property": "C150",
   "status": "partial",
   "theorems": [
    "Verif.Evo.C150_partial",
    "Verif.Moo.C150_moo_partial",
    "Verif.Evo.C150_refuted",
    "Verif.Evo.C150_statement_refuted"
   ],
   "note": "false of the code for evaluators that draw random numbers; proved for the others; evaluators and individuals are taken to be picklable, evaluators to keep no state"
  },
  {
   "property": "C151",
   "status": "proved",
   "theorems": [
    "Verif.Evo.C151_any_generation",
    "Verif.Evo.C151_best",
    "Verif.GA.C151_vectors",
    "Verif.GP.C151_programs",
    "Verif.Examples.C151_oneMax"
   ],
   "note": "random numbers are a stream per seed, so that the draws of one generation can be exchanged as long as its seed is not the one the run started with; the last operator has arity one; random.gauss may return any number unless sigma is 0"
  },
  {
   "property": "C152",
   "status": "proved",
   "theorems": [
    "Verif.GA.C152_whole",
    "Verif.GA.C152_bits"
   ],
   "note": ""
  },
  {
   "property": "C153",
   "status": "partial",
   "theorems": [
    "Verif.Examples.C153_returns",
    "Verif.Examples.C153_cells",
    "Verif.Examples.C153_float_partial",
    "Verif.Examples.C153_refuted"
   ],
   "note": "false of the code: no run finds the vector of ones; proved that runs return, go through all generations and end with the best of what they saw; sums of cells are exact"
  },
  {
   "property": "C154",
   "status": "partial",
   "theorems": [
    "Verif.FloatFit.C154_fit_partial",
    "Verif.FloatFit.C154_overflow_partial",
    "Verif.FloatFit.C154_refuted"
   ],
   "note": "false of the code: outputs may overflow, and the metric raises ValueError; proved without overflow, and that nothing else can go wrong; functions other than argmax2floats (see C73) and the logical functions of floats and ints (see C168); the metric is a function of two arrays of finite numbers"
  },
  {
   "property": "C155",
   "status": "partial",
   "theorems": [
    "Verif.GP.C155_regressor_early",
    "Verif.GP.C155_classifier_early",
    "Verif.GP.C155_unreachable",
    "Verif.GP.C155_regressor_stops_partial",
    "Verif.GP.C155_classifier_stops_partial",
    "Verif.GP.C155_refuted"
   ],
   "note": "false of the code with bloat control; proved without, and proved that fitting ends early only if the target is reached"
  },
  {
   "property": "C156",
   "status": "partial",
   "theorems": [
    "Verif.Moo.C156_covers_partial",
    "Verif.Moo.C156_front_partial",
    "Verif.Moo.C156_refuted"
   ],
   "note": "false of the code: members of a front that is larger than the population are lost; proved if the non-dominated individuals of each generation fit into the population"
  },
  {
   "property": "C157",
   "status": "partial",
   "theorems": [
    "Verif.GP.C157_function",
    "Verif.GP.C157_terminal",
    "Verif.GP.C157_full",
    "Verif.GP.C157_even_partial",
    "Verif.GP.C157_refuted"
   ],
   "note": "false of the code with functions of different arities; proved for functions of one arity; the exact odds are proved for all"
  },
  {
   "property": "C158",
   "status": "proved",
   "theorems": [
    "Verif.GP.C158_grow"
   ],
   "note": "probabilities are shares of the sequences of draws on a grid that contains the pruning probability"
  },
  {
   "property": "C159",
   "status": "partial",
   "theorems": [
    "Verif.Evo.C159_reopens",
    "Verif.GA.C159_vectors_partial",
    "Verif.GP.C159_programs_partial",
    "Verif.GA.C159_refuted"
   ],
   "note": "that best_of_run_ gets no worse is false of the code (refuted by a run without elites); the rest is proved"
  },
  {
   "property": "C160",
   "status": "partial",
   "theorems": [
    "Verif.Construction.C160_accepted_partial",
    "Verif.Construction.C160_rejected_partial",
    "Verif.Construction.C160_as_simple_partial",
    "Verif.Construction.C160_refuted"
   ],
   "note": "that an accepted object has a breeder and an evaluator is false of the code; the rest is proved"
  },
  {
   "property": "C161",
   "status": "partial",
   "theorems": [
    "Verif.Moo.C161_vectors_partial",
    "Verif.Moo.C161_programs_partial",
    "Verif.Moo.C161_refuted",
    "Verif.Moo.C161_checker_refuted"
   ],
   "note": "false of the code: after an exception of the evaluator in a generation the population stays doubled, after one of the checker the run cannot be started again; proved what happens in each of the cases"
  },
  {
   "property": "C162",
   "status": "partial",
   "theorems": [
    "Verif.Score.C162_partial",
    "Verif.Score.C162_numbers",
    "Verif.Score.C162_target",
    "Verif.Score.C162_found",
    "Verif.Score.C162_tournament_partial",
    "Verif.Score.C162_same",
    "Verif.Score.C162_refuted",
    "Verif.Score.C162_masked_refuted"
   ],
   "note": "false of the code with NaN in the first place; proved without NaN, and exactly what happens with NaN; C162_same connects the loop to that of the main model"
  },
  {
   "property": "C163",
   "status": "partial",
   "theorems": [
    "Verif.Score.C163_partial",
    "Verif.Score.C163_numbers",
    "Verif.Score.C163_refuted"
   ],
   "note": "false of the code with NaN; proved without NaN, and what the first front is with NaN"
  },
  {
   "property": "C164",
   "status": "partial",
   "theorems": [
    "Verif.SymReg.C164_setup",
    "Verif.SymReg.C164_score_partial",
    "Verif.SymReg.C164_run_partial",
    "Verif.SymReg.C164_optimum",
    "Verif.SymReg.C164_refuted"
   ],
   "note": "false of the code: rows with NaN do not count; proved for programs without NaN, and for the rows without NaN otherwise; that np.mean of a Series skips NaN is part of the model of pandas"
  },
  {
   "property": "C165",
   "status": "proved",
   "theorems": [
    "Verif.FloatFit.C165_fit",
    "Verif.FloatFit.C165_continuous",
    "Verif.FloatFit.C165_undefined"
   ],
   "note": "functions other than argmax2floats (see C73) and the logical functions of floats and ints (see C168); the sigmoid function and the thresholds are exact; accuracy_score is modelled from scikit-learn's documentation"
  },
  {
   "property": "C166",
   "status": "partial",
   "theorems": [
    "Verif.Moo.C166_whole_partial",
    "Verif.Moo.C166_run_partial",
    "Verif.Moo.C166_elites_partial",
    "Verif.Moo.C166_too_large_partial",
    "Verif.Moo.C166_refuted"
   ],
   "note": "False of the code: the operators are applied to the whole population, selection and elites are without effect"
  },
  {
   "property": "C167",
   "status": "partial",
   "theorems": [
    "Verif.Evo.C167_first_partial",
    "Verif.Evo.C167_arity_partial",
    "Verif.Moo.C167_nsga2_partial",
    "Verif.Evo.C167_refuted"
   ],
   "note": "False of the code: the first method is always used"
  },
  {
   "property": "C168",
   "status": "partial",
   "theorems": [
    "Verif.Prim.C168_exact_partial",
    "Verif.Prim.C168_numbers_partial",
    "Verif.Prim.C168_iff_partial",
    "Verif.Prim.C168_sums_partial",
    "Verif.Prim.C168_refuted"
   ],
   "note": "false of the code because the logical functions return truth values; proved which trees return numbers; numpy arrays and scalars, not pandas series; half precision is covered by the arbitrary rounding"
  },
  {
   "property": "C169",
   "status": "proved",
   "theorems": [
    "Verif.GA.C169_vector_creator",
    "Verif.GA.C169_vector_operators",
    "Verif.GP.C169_tree_creators",
    "Verif.GP.C169_half_creator",
    "Verif.GP.C169_tree_operators",
    "Verif.Moo.C169_moo_vectors",
    "Verif.Moo.C169_moo_trees",
    "Verif.Moo.C169_moo_half",
    "Verif.Moo.C169_moo_operators"
   ],
   "note": "the creation rules and operator rules are those of Model/Vector and Model/GPOperators (C05-C08, C11-C21); operators are applied to pairwise different individuals, as breeders do"
  },
  {
   "property": "C170",
   "status": "partial",
   "theorems": [
    "Verif.Moo.C170_lexicographic_partial",
    "Verif.Moo.C170_partial",
    "Verif.Moo.C170_refuted"
   ],
   "note": "which individuals become elites is proved in general; that none of the others dominates them is false of the code if the directions of the objectives differ ((1, 5) is preferred to (1, 3) although the second objective is minimised), and proved if all have the direction of the sub-population"
  },
  {
   "property": "C171",
   "status": "partial",
   "theorems": [
    "Verif.TypedMux.C171_setup",
    "Verif.TypedMux.C171_executes",
    "Verif.TypedMux.C171_fitness",
    "Verif.TypedMux.C171_perfect",
    "Verif.TypedMux.C171_returns",
    "Verif.TypedMux.C171_partial",
    "Verif.TypedMux.C171_sharp_partial",
    "Verif.TypedMux.C171_refuted"
   ],
   "note": "false of the code: with the threshold 0.01 a run may end early with a program that is wrong for up to 20 of 2048 inputs; proved with that bound, and in full for thresholds below 1/2048"
  },
  {
   "property": "C172",
   "status": "partial",
   "theorems": [
    "Verif.Moo.C172_shows_partial",
    "Verif.Moo.C172_silent_partial",
    "Verif.Moo.C172_final_partial",
    "Verif.Moo.C172_front_partial",
    "Verif.Moo.C172_refuted"
   ],
   "note": "false of the code with the default breeder, which empties the population; proved with NSGA2Breeder; what plt.scatter is given is modelled, the drawing is not"
  },
  {
   "property": "C173",
   "status": "proved",
   "theorems": [
    "Verif.GP.C173_terminal",
    "Verif.GP.C173_constant",
    "Verif.GP.C173_integer",
    "Verif.GP.C173_mutated"
   ],
   "note": "a draw of random.choice or random.randint is a number taken modulo the number of outcomes; for float ranges the value of the constant is left open"
  },
  {
   "property": "C174",
   "status": "proved",
   "theorems": [
    "Verif.Moo.C174_any_generation",
    "Verif.Moo.C174_vectors",
    "Verif.Moo.C174_programs"
   ],
   "note": "the run with other draws in one generation is the same configuration with the tape of that generation's seed replaced; the seed of the generation must differ from the seed of the whole run; the reproduced individual is seen in the event published after the evaluation of generation N"
  },
  {
   "property": "C175",
   "status": "proved",
   "theorems": [
    "Verif.Moo.C175_one_of_them",
    "Verif.Moo.C175_first",
    "Verif.Moo.C175_completes",
    "Verif.Moo.C175_empty",
    "Verif.Moo.C175_order"
   ],
   "note": "for checkers without state, like the threshold and the crowding checker; the stagnation checker keeps state and is covered for SimpleEvolution by C40 and C41; with NSGA-II it raises (C177)"
  },
  {
   "property": "C176",
   "status": "proved",
   "theorems": [
    "Verif.Evo.C176_one_of_them",
    "Verif.Evo.C176_first",
    "Verif.Evo.C176_completes",
    "Verif.Evo.C176_empty"
   ],
   "note": "checkers are functions of their own state, the population, best individual and generation; no checker changes the population"
  },
  {
   "property": "C177",
   "status": "partial",
   "theorems": [
    "Verif.Moo.C177_partial",
    "Verif.Moo.C177_first_partial",
    "Verif.Moo.C177_again",
    "Verif.Moo.C177_raises",
    "Verif.Moo.C177_refuted",
    "Verif.Moo.mstagRun_answers"
   ],
   "note": "false of the code: C177_refuted, and C177_raises for every sound configuration; C177_partial is what remains"
  }
 ]
}