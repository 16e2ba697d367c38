{"id": "C01", "title": "Executing a GP tree evaluates the program it denotes", "statement": "For a tree whose node list is the depth-first listing of a program (every function node followed by exactly as many complete argument programs as its arity), execute returns the value obtained by evaluating the program bottom-up, arguments left to right, with variables bound to the keyword arguments and every other terminal standing for itself; an exception raised by a function propagates, and the traversal consumes exactly the whole node list.", "quantifier": "every program (any shape, size, arity mix), every binding of variables, every function semantics including raising ones", "why_tests_cant": "a test fixes a handful of tree shapes; the by-reference position cursor can go wrong only for particular nestings", "anchors": ["eckity/genetic_encodings/gp/tree/tree_individual.py: Tree.execute, Tree._execute"]}
{"id": "C02", "title": "depth() and size() report the true depth and node count", "statement": "For every well-formed tree depth() is the maximal number of edges from the root to a leaf and size() the number of nodes, and depth() < size(). depth() raises on an empty tree and on a tree containing a zero-argument function.", "quantifier": "every well-formed program tree", "why_tests_cant": "tests cover a few fixed shapes", "anchors": ["eckity/genetic_encodings/gp/tree/tree_individual.py: Tree.depth, Tree._depth, Tree.size"]}
{"id": "C03", "title": "A random subtree is a complete, contiguous subprogram", "statement": "Whenever random_subtree returns a node list for a well-formed tree, that list is the depth-first listing of one complete subprogram of the tree, and a contiguous block of its node list; with a requested type the returned subprogram's root has that type. It returns None exactly when no node qualifies.", "quantifier": "every well-formed tree, every requested type, every random draw, including trees in which many nodes compare equal", "why_tests_cant": "the node is located by first equal element, so the outcome depends on duplicates and on the draw; tests see a few draws", "anchors": ["eckity/genetic_encodings/gp/tree/tree_individual.py: Tree.random_subtree, Tree._get_subtree_by_root, Tree._find_subtree_end", "eckity/genetic_encodings/gp/tree/tree_node.py: __eq__"]}
{"id": "C04", "title": "Replacing a subtree keeps the tree a legal program", "statement": "Replacing a subtree returned by random_subtree by any complete program of the same type yields a well-formed (and, if the tree was well-typed, well-typed) tree; everything outside the replaced block is untouched and the size changes by exactly the difference of the two block sizes.", "quantifier": "every tree, every draw of the old subtree, every replacement program", "why_tests_cant": "needs all positions and all duplicates at once", "anchors": ["eckity/genetic_encodings/gp/tree/tree_individual.py: Tree.replace_subtree, Tree.random_subtree"]}
{"id": "C05", "title": "Subtree crossover always yields legal programs", "statement": "Applying subtree crossover to any list of well-formed trees leaves every individual well-formed, whatever subtrees are drawn and however many individuals take part; if the trees are well-typed they stay well-typed with the same root type. If no matching subtrees exist all trees are left unchanged.", "quantifier": "every list of trees (any arity), every draw sequence, every number of attempts, typed and untyped", "why_tests_cant": "crossover output space is unbounded; a single bad splice only shows on particular shapes and draws", "anchors": ["eckity/genetic_operators/crossovers/subtree_crossover.py: SubtreeCrossover", "eckity/genetic_encodings/gp/tree/tree_individual.py: replace_subtree"]}
{"id": "C06", "title": "Subtree crossover neither creates nor loses genetic material", "statement": "After subtree crossover the multiset of nodes over all participating individuals is the same as before, and individual i received the block that was cut out of individual i-1 (cyclically).", "quantifier": "every list of individuals and every draw sequence", "why_tests_cant": "conservation must hold for all draws; sampling can miss a dropped or duplicated block", "anchors": ["eckity/genetic_operators/crossovers/subtree_crossover.py: _pick_subtrees, _swap_subtrees"]}
{"id": "C07", "title": "Subtree mutation always yields a legal program", "statement": "Subtree mutation of a well-formed tree yields a well-formed tree in which one complete subprogram was replaced by a fresh program whose depth is at most the configured maximum (and at least the configured minimum); when it fails it leaves the tree unchanged.", "quantifier": "every tree, every function/terminal set, every draw sequence", "why_tests_cant": "infinitely many outcomes", "anchors": ["eckity/genetic_operators/mutations/subtree_mutation.py: SubtreeMutation", "eckity/creators/gp_creators/grow.py: GrowCreator.create_tree"]}
{"id": "C08", "title": "Strongly-typed evolution preserves types", "statement": "In typed mode every tree produced by the creators and by subtree mutation is well-typed: each argument's type is the declared parameter type of its function and the root has the configured root type.", "quantifier": "every typed function and terminal set accepted by the constructor, with or without an ephemeral constant range, every draw", "why_tests_cant": "type errors appear only for particular sets and draws", "anchors": ["eckity/genetic_encodings/gp/tree/tree_individual.py: Tree.random_terminal, Tree.random_function, _handle_input_types", "eckity/creators/gp_creators/"]}
{"id": "C09", "title": "ERC mutation changes one numeric constant per individual and nothing else", "statement": "ERC mutation changes the value of exactly one numeric terminal in each individual and leaves tree shape, size, depth, functions and variables untouched; if some individual has no numeric terminal nothing is changed.", "quantifier": "every list of trees, every draw", "why_tests_cant": "in-place edits can leak to other nodes only on particular trees", "anchors": ["eckity/genetic_operators/mutations/erc_mutation.py: ERCMutation.attempt_operator", "eckity/genetic_encodings/gp/tree/tree_individual.py: get_random_numeric_node"]}
{"id": "C10", "title": "The full method creates perfect-depth trees", "statement": "Every tree made by FullCreator is a complete well-formed program in which every leaf is at depth exactly the maximal initial depth (function set of positive arities), built only from the configured functions and terminals/ERC range; otherwise ValueError is raised.", "quantifier": "every function/terminal set, every depth, every draw sequence", "why_tests_cant": "random output; unbounded depths", "anchors": ["eckity/creators/gp_creators/full.py: FullCreator.create_tree"]}
{"id": "C11", "title": "The grow method respects the depth window", "statement": "Every tree made by GrowCreator is a complete well-formed program in which every leaf lies at a depth between the minimal and the maximal initial depth; otherwise ValueError is raised. Creation always terminates.", "quantifier": "every function/terminal set, every depth window, every pruning probability, every draw sequence", "why_tests_cant": "random output; unbounded depths", "anchors": ["eckity/creators/gp_creators/grow.py: GrowCreator.create_tree"]}
{"id": "C12", "title": "Ramped half-and-half creates exactly the requested population", "statement": "HalfCreator returns exactly n individuals, n div (2*(max-min+1)) of each method at every depth of the ramp and the rest by the full method at the maximal depth, all well-formed with depth in the window; it raises ValueError when n is smaller than twice the number of depths.", "quantifier": "every population size, every depth window, every draw sequence", "why_tests_cant": "truncating division makes counts wrong only for particular sizes", "anchors": ["eckity/creators/gp_creators/half.py: HalfCreator.create_individuals"]}
{"id": "C13", "title": "Incremental tree construction enforces the type constraints", "statement": "add_tree accepts a node exactly when the tree still has an open argument slot whose declared type is the node's type (or the tree is empty and the type is the root type); otherwise it raises ValueError and leaves the tree unchanged.", "quantifier": "every partially built tree and every node, typed and untyped", "why_tests_cant": "tests only add direct children of the root", "anchors": ["eckity/genetic_encodings/gp/tree/tree_individual.py: Tree.add_tree, Tree._should_add"]}
{"id": "C14", "title": "execute accepts exactly the documented keyword arguments", "statement": "execute accepts a call that binds exactly the variables of the terminal set, rejects unknown and missing variables and empty trees with ValueError, and constants in the terminal set need no binding.", "quantifier": "every terminal set and every set of keyword arguments", "why_tests_cant": "a test picks terminal sets without constants", "anchors": ["eckity/genetic_encodings/gp/tree/tree_individual.py: Tree.execute", "eckity/algorithms/algorithm.py: Algorithm.execute (docstring)"]}
{"id": "C15", "title": "Terminal sets derived from a data matrix match execution on matrices of that width", "statement": "For every matrix X, a tree whose terminal set is create_terminal_set(X) can be executed on any matrix with the same number of columns, variable x_i denotes column i, and on a matrix with another number of columns execute raises ValueError.", "quantifier": "every matrix shape", "why_tests_cant": "needs every width", "anchors": ["eckity/genetic_encodings/gp/tree/utils.py: create_terminal_set, generate_args", "eckity/genetic_encodings/gp/tree/tree_individual.py: Tree.execute"]}
{"id": "C16", "title": "K-point crossover conserves genes at every locus", "statement": "Crossing two vectors of equal length yields two vectors of that length such that at every index the two children hold the same two genes as the parents (possibly swapped); hence bounds are preserved.", "quantifier": "all vectors, all lengths, all k, all crossover points", "why_tests_cant": "unbounded inputs; slices with computed and negative indices", "anchors": ["eckity/genetic_operators/crossovers/vector_k_point_crossover.py: VectorKPointsCrossover"]}
{"id": "C17", "title": "K-point crossover exchanges exactly the alternate segments", "statement": "With cut points p1<...<pk the children exchange the segments [0,p1), [p2,p3), ... and keep the others.", "quantifier": "all vectors, all k, all cut points", "why_tests_cant": "the existing tests use length 4 vectors, for which the index comparison happens to be right", "anchors": ["eckity/genetic_operators/crossovers/vector_k_point_crossover.py: _swap_vector_parts"]}
{"id": "C18", "title": "Created vectors have the configured length and respect the bounds", "statement": "Every vector created by the GA vector creators has exactly the configured length and every cell lies within its bounds; n individuals are created.", "quantifier": "all lengths, all legal bounds (one pair or one pair per cell), all draws", "why_tests_cant": "random output", "anchors": ["eckity/creators/ga_creators/simple_vector_creator.py", "eckity/genetic_encodings/ga/*.py: get_random_number_in_bounds"]}
{"id": "C19", "title": "Vector mutations never leave the bounds", "statement": "Applying any of the float/int/bit-string mutations to an in-bounds vector yields a vector of the same length that is in bounds, whatever values are drawn and however many attempts fail.", "quantifier": "all in-bounds vectors (per-cell bounds of exactly two cells excepted, see C63), any number of individuals at once, all draws (including Gaussian noise of any size), all attempt limits and probabilities", "why_tests_cant": "requires arbitrary noise and the exhausted-attempts path", "anchors": ["eckity/genetic_operators/mutations/vector_n_point_mutation.py", "eckity/genetic_operators/mutations/vector_random_mutation.py", "eckity/genetic_encodings/ga/vector_individual.py: check_if_in_bounds"]}
{"id": "C20", "title": "N-point mutation touches at most n cells", "statement": "An n-point mutation changes at most n cells of each individual, wherever and however often attempts fail; single-bit flip changes exactly one.", "quantifier": "all vectors, n, draws, arities", "why_tests_cant": "needs the partial-failure path with several individuals", "anchors": ["eckity/genetic_operators/mutations/vector_n_point_mutation.py: attempt_operator"]}
{"id": "C21", "title": "A failed mutation attempt is rolled back", "statement": "If an attempt's result is rejected the rejected individual has exactly the vector it had before that attempt.", "quantifier": "all vectors, draws and custom success checkers", "why_tests_cant": "failure path depends on draws", "anchors": ["eckity/genetic_operators/mutations/vector_n_point_mutation.py: attempt_operator"]}
{"id": "C22", "title": "Vector part replacement is reversible and length preserving", "statement": "Replacing a part of a vector at a position where it fits returns the removed part, keeps the length and all other cells; putting the removed part back restores the vector.", "quantifier": "all vectors, parts and positions", "why_tests_cant": "unbounded inputs, boundary positions", "anchors": ["eckity/genetic_encodings/ga/vector_individual.py: replace_vector_part, replace_vector_part_random, get_vector_part"]}
{"id": "C23", "title": "Fitness comparison is a strict weak order", "statement": "Between evaluated individuals with the same optimisation direction, better_than is irreflexive, asymmetric and transitive, exactly one of 'a better', 'b better', 'equal' holds, and it agrees with numeric comparison of augmented fitness in the configured direction; comparing unevaluated fitness raises ValueError; every individual is better than None.", "quantifier": "all fitness values, sizes, bloat weights and directions", "why_tests_cant": "order axioms quantify over triples of values", "anchors": ["eckity/fitness/simple_fitness.py", "eckity/fitness/gp_fitness.py", "eckity/individual.py: better_than"]}
{"id": "C24", "title": "Bloat control only ever favours the smaller of equally fit trees", "statement": "With positive bloat weight, of two trees with equal pure fitness the smaller is better, in both optimisation directions; with weight zero the comparison ignores size.", "quantifier": "all scores, sizes and weights", "why_tests_cant": "quantifies over reals", "anchors": ["eckity/fitness/gp_fitness.py: get_augmented_fitness"]}
{"id": "C25", "title": "A stale fitness value can never be read", "statement": "In every history of set, reset, clone and operator application, get_pure_fitness returns the value most recently set since the last reset/clone/operator application and raises ValueError if there is none (clones keep the value only with cache enabled and non-relative fitness).", "quantifier": "all histories of fitness operations", "why_tests_cant": "history property", "anchors": ["eckity/fitness/simple_fitness.py: set_fitness, set_not_evaluated, get_pure_fitness, __getstate__", "eckity/individual.py: clone", "eckity/genetic_operators/genetic_operator.py: apply_operator"]}
{"id": "C26", "title": "Tournament selection fills the population with tournament winners", "statement": "select extends the destination to the size of the source; every added individual is a fresh clone of a source individual that took part in a tournament of the configured size and that no participant of that tournament beats; the source is not modified. Without replacement a too small source raises ValueError.", "quantifier": "all populations, tournament sizes, destinations, draws", "why_tests_cant": "random output", "anchors": ["eckity/genetic_operators/selections/tournament_selection.py"]}
{"id": "C27", "title": "Elitism selection takes the best", "statement": "ElitismSelection appends clones of the num_elites best individuals, best first, ties in population order; no individual left out is better than one taken.", "quantifier": "all populations and all num_elites, both directions", "why_tests_cant": "unbounded populations with ties", "anchors": ["eckity/genetic_operators/selections/elitism_selection.py"]}
{"id": "C28", "title": "Fitness-proportionate selection uses a valid distribution that favours fitter individuals", "statement": "For non-negative fitness the selection probabilities are non-negative, sum to one, never divide by zero, and a fitter individual never has a smaller probability; negative fitness raises ValueError.", "quantifier": "all non-negative fitness vectors, both directions", "why_tests_cant": "quantifies over real vectors", "anchors": ["eckity/genetic_operators/selections/fp_selection.py"]}
{"id": "C29", "title": "Fitness-proportionate selection is proportional to fitness", "statement": "The probability of selecting an individual is proportional to its fitness score.", "quantifier": "all non-negative fitness vectors with positive sum", "why_tests_cant": "a test cannot observe probabilities", "anchors": ["eckity/genetic_operators/selections/fp_selection.py: select (docstring)"]}
{"id": "C30", "title": "Individual ids are unique and clones are independent", "statement": "In every history of creations and clones all individuals have pairwise different ids, a clone records the id of its original in cloned_from, has the same genome, and later changes to either do not affect the other.", "quantifier": "all histories of creation, cloning and mutation", "why_tests_cant": "history and aliasing property", "anchors": ["eckity/individual.py: update_id, clone"]}
{"id": "C31", "title": "Breeding preserves population size", "statement": "When the population size is divisible by every operator's arity, SimpleBreeder replaces each sub-population by one of the same size whatever the elitism rate, selection draws and operators; otherwise it raises ValueError before changing anything.", "quantifier": "all populations, operator sequences, elite counts, draws", "why_tests_cant": "chunked slice assignment is wrong only for particular arity/size combinations", "anchors": ["eckity/breeders/simple_breeder.py"]}
{"id": "C32", "title": "Elites are carried over unchanged", "statement": "The n_elite best individuals of a generation are copied as they are into the next generation.", "quantifier": "all populations, operator sequences, draws", "why_tests_cant": "needs operators that hit the elite slots", "anchors": ["eckity/breeders/simple_breeder.py: apply_breed", "eckity/subpopulation.py (docstring)"]}
{"id": "C33", "title": "Population evaluation is independent of worker scheduling", "statement": "After evaluation every individual holds the score the evaluator computes for it, for every order in which workers finish, and the returned individual is the first one that no other beats.", "quantifier": "all populations, all completion orders of the executor, deterministic evaluators", "why_tests_cant": "schedules cannot be enumerated by tests", "anchors": ["eckity/evaluators/simple_population_evaluator.py"]}
{"id": "C34", "title": "Both executor methods give the same evaluation", "statement": "executor_method='submit' and executor_method='map' assign the same fitness values with a SimpleIndividualEvaluator.", "quantifier": "all populations and evaluators", "why_tests_cant": "tests only use one of the modes", "anchors": ["eckity/evaluators/simple_population_evaluator.py: _evaluate", "eckity/evaluators/simple_individual_evaluator.py: evaluate"]}
{"id": "C35", "title": "best_of_run_ is the best individual ever evaluated", "statement": "At every moment after initialisation and at the end of evolve, best_of_run_ is at least as good as every individual evaluated in any generation of the run, it is one of them, and it still has the genome and fitness it was evaluated with.", "quantifier": "all runs: all seeds, operators, selection methods, termination behaviours and lengths", "why_tests_cant": "a property of whole histories and of aliasing between generations", "anchors": ["eckity/algorithms/simple_evolution.py: generation_iteration", "eckity/algorithms/algorithm.py: initialize, evolve_main_loop"]}
{"id": "C36", "title": "The run executes the right number of generations and publishes the right events", "statement": "evolve runs at most max_generation breeding rounds, stops right after the first generation for which the termination checker says so, publishes init once, after_generation once per executed generation (once if it stops at generation 0), and evolution_finished exactly once at the end.", "quantifier": "all termination behaviours and all max_generation values", "why_tests_cant": "quantifies over termination patterns", "anchors": ["eckity/algorithms/algorithm.py: evolve, initialize, evolve_main_loop"]}
{"id": "C37", "title": "final_generation_ reports the generation in which the run ended", "statement": "After evolve, final_generation_ is the number of the last executed generation.", "quantifier": "all termination patterns", "why_tests_cant": "the non-terminating pattern is the missed one", "anchors": ["eckity/algorithms/algorithm.py: evolve, evolve_main_loop", "eckity/algorithms/simple_evolution.py: __init__"]}
{"id": "C38", "title": "Runs are reproducible from their seed", "statement": "Two runs of the same configuration with the same random_seed give the same populations, fitness values and best individual, regardless of what was drawn from the generators or created before, and generation g is run with seed (generation_seed + g) mod 2^32; the evolution after a generation depends only on the population and seed at that point.", "quantifier": "all prior RNG states and id counters, all seeds, all configurations with deterministic evaluators", "why_tests_cant": "quantifies over hidden global state", "anchors": ["eckity/algorithms/algorithm.py: set_random_seed, set_generation_seed, next_seed, evolve_main_loop", "eckity/random/rng.py"]}
{"id": "C39", "title": "Reproducibility does not depend on thread timing", "statement": "With the thread executor two runs with the same seed give the same result whatever the order in which worker threads run.", "quantifier": "all thread schedules, including evaluators that draw random numbers", "why_tests_cant": "schedules cannot be enumerated", "anchors": ["eckity/evaluators/simple_population_evaluator.py", "tests/test_reproducibility.py"]}
{"id": "C40", "title": "Every termination checker in a list is consulted every generation", "statement": "With a list of termination checkers the run stops iff at least one of them says so, and every checker sees every generation (stateful checkers do not miss updates).", "quantifier": "all lists of checkers and all histories", "why_tests_cant": "history property", "anchors": ["eckity/algorithms/algorithm.py: should_terminate"]}
{"id": "C41", "title": "Stagnation checker fires exactly after the configured number of stagnant generations", "statement": "The checker returns True at a generation iff the best fitness has stayed (up to isclose) at the value at which it last changed for at least max(1, configured number) consecutive generations.", "quantifier": "all histories of best fitness values, all configured lengths", "why_tests_cant": "history property", "anchors": ["eckity/termination_checkers/best_fitness_stagnation_termination_checker.py"]}
{"id": "C42", "title": "Threshold and crowding checkers decide exactly their condition", "statement": "The threshold checker returns True iff |best - optimal| <= threshold; the crowding checker iff every sub-population has a finite crowding distance and the largest finite one of the population is nonzero and below the threshold.", "quantifier": "all fitness values, thresholds, populations", "why_tests_cant": "boundary values", "anchors": ["eckity/termination_checkers/threshold_from_target_termination_checker.py", "eckity/multi_objective_evolution/crowding_termination_checker.py"]}
{"id": "C43", "title": "Event subscription works like a registry", "statement": "After any sequence of register/unregister calls, publishing an event calls exactly the callbacks currently registered for it, once each, in registration order; ids returned by register are unique, unregistering removes only that subscription and unregistering an unknown id raises KeyError.", "quantifier": "all operation sequences and all events", "why_tests_cant": "history property", "anchors": ["eckity/before_after_publisher.py"]}
{"id": "C44", "title": "Failable operators retry at most `attempts` times", "statement": "apply returns the result of the first successful attempt, makes at most `attempts` attempts, and calls on_fail exactly once iff all attempts fail; attempts < 1 is rejected.", "quantifier": "all attempt outcome sequences and limits", "why_tests_cant": "quantifies over failure patterns", "anchors": ["eckity/genetic_operators/failable_operator.py"]}
{"id": "C45", "title": "Applying a genetic operator invalidates fitness and records the operator", "statement": "After apply_operator fires, every participating individual has unevaluated fitness, the operator's name appended to applied_operators, and if parent tracking is on the ids of all participants appended to parents; if it does not fire nothing changes. An operator of probability 1 always fires.", "quantifier": "all individuals, probabilities, draws", "why_tests_cant": "random behaviour", "anchors": ["eckity/genetic_operators/genetic_operator.py: apply_operator"]}
{"id": "C46", "title": "Best, worst and average queries agree with the fitness order", "statement": "get_best_individual is an individual no other beats and is the very individual returned by population evaluation; get_worst_individual beats no other; both raise on unevaluated populations.", "quantifier": "all populations and directions, with ties", "why_tests_cant": "ties and order", "anchors": ["eckity/subpopulation.py: get_best_individual, get_worst_individual", "eckity/evaluators/simple_population_evaluator.py"]}
{"id": "C47", "title": "Subpopulation construction validates its arguments", "statement": "Construction succeeds exactly for a non-empty creator list, creation probabilities of matching length summing to one and a given operator sequence; the number of elites is the rounded share and never exceeds the population for rates in [0,1]; created populations have population_size individuals and existing individuals are kept.", "quantifier": "all argument combinations, rates and sizes", "why_tests_cant": "rounding and boundary cases", "anchors": ["eckity/subpopulation.py: __init__, create_subpopulation_individuals"]}
{"id": "C48", "title": "Pareto domination is a strict partial order", "statement": "dominate is irreflexive, asymmetric and transitive and equals: at least as good in every objective and better in one, per-objective directions respected.", "quantifier": "all fitness vectors and direction vectors", "why_tests_cant": "order axioms", "anchors": ["eckity/multi_objective_evolution/nsga2_fitness.py: dominate"]}
{"id": "C49", "title": "NSGA-II front ranks are the Pareto layers", "statement": "After sorting, the individuals of rank r are exactly the non-dominated ones among those left after removing ranks below r, regardless of set iteration order.", "quantifier": "all populations, sizes, iteration orders of Python sets", "why_tests_cant": "hash order and population unbounded", "anchors": ["eckity/multi_objective_evolution/nsga2_front_sorting.py"]}
{"id": "C50", "title": "NSGA-II survivor selection keeps the best fronts and the right number", "statement": "Selection returns exactly the requested number of individuals (half the population by default), without repetition, all from the source; if x survives and y dominates x then y survives; within the cut front the survivors have the largest crowding distances. Sorting always terminates.", "quantifier": "all populations and requested sizes not exceeding the population", "why_tests_cant": "unbounded populations", "anchors": ["eckity/multi_objective_evolution/nsga2_front_sorting.py: _select"]}
{"id": "C51", "title": "Crowding distance is infinite on extremes and non-negative elsewhere", "statement": "In each front, for each objective some individual attaining the minimum and some attaining the maximum have infinite crowding; all others have the sum over objectives of normalised neighbour gaps, between 0 and the number of objectives; no division by zero occurs.", "quantifier": "all fronts and objective counts", "why_tests_cant": "ties and degenerate fronts", "anchors": ["eckity/multi_objective_evolution/nsga2_front_sorting.py: _calc_fronts_crowding"]}
{"id": "C52", "title": "The crowded comparison prefers lower front rank", "statement": "For NSGA-II fitness, better_than is true for the individual of lower front rank, and on equal rank for the larger crowding distance.", "quantifier": "all ranks and crowding values", "why_tests_cant": "decision table over unbounded values", "anchors": ["eckity/multi_objective_evolution/nsga2_fitness.py: better_than"]}
{"id": "C53", "title": "NSGA-II keeps the population size constant", "statement": "With NSGA2Breeder each generation doubles the population and selection halves it again, so every generation has the initial size.", "quantifier": "all populations, draws, generations", "why_tests_cant": "whole-run property", "anchors": ["eckity/multi_objective_evolution/nsga2_breeder.py", "eckity/multi_objective_evolution/nsga2_evolution.py"]}
{"id": "C54", "title": "NSGA-II works with its default arguments", "statement": "NSGA2Evolution with its default breeder keeps a non-empty population of constant size.", "quantifier": "all initial population sizes and generation counts", "why_tests_cant": "shrinkage shows only after log2(n) generations", "anchors": ["eckity/multi_objective_evolution/nsga2_evolution.py: __init__, generation_iteration"]}
{"id": "C55", "title": "best_of_gen of NSGA-II is the Pareto front", "statement": "After every NSGA-II generation best_of_gen lists, per sub-population, exactly the survivors that no member of the evaluated population dominates.", "quantifier": "all runs", "why_tests_cant": "whole-run property", "anchors": ["eckity/multi_objective_evolution/nsga2_evolution.py: _get_pareto_fronts"]}
{"id": "C56", "title": "Multi-objective corner statistics never fail on two objectives", "statement": "For two objectives the printed corners of the first front are one or two distinct fitness vectors (the internal assertion holds).", "quantifier": "all evaluated two-objective populations", "why_tests_cant": "ties", "anchors": ["eckity/multi_objective_evolution/moe_best_worst_statistics.py: get_corners"]}
{"id": "C57", "title": "Pickling an algorithm preserves everything but the executor", "statement": "Restoring from the saved state gives an algorithm with the same fields and an executor of the same kind and worker count.", "quantifier": "all field contents", "why_tests_cant": "all states", "anchors": ["eckity/algorithms/algorithm.py: __getstate__, __setstate__"]}
{"id": "C58", "title": "Sigmoid classification yields labels 0..n_classes-1 by equal-width bins", "statement": "The predicted label is between 0 and n_classes-1, is monotone in the tree output, and equals floor(p*n_classes) capped at n_classes-1 for squashed output p.", "quantifier": "all outputs and class counts", "why_tests_cant": "boundaries over reals", "anchors": ["eckity/sklearn_compatible/classification_evaluator.py: _clf_sigmoid"]}
{"id": "C59", "title": "get_params/set_params follow the sklearn contract", "statement": "set_params(**get_params()) leaves the estimator unchanged, and set_params(algorithm=a) makes a the wrapped algorithm.", "quantifier": "all estimators and algorithms", "why_tests_cant": "state property", "anchors": ["eckity/sklearn_compatible/sklearn_wrapper.py: get_params, set_params"]}
{"id": "C60", "title": "Predicting uses the best evolved individual on the given data", "statement": "After fit, predict(X) is the output of best_of_run_ on X (classifier: its class labels), independent of the training data context and of earlier predict calls; before fit it raises.", "quantifier": "all fit/predict histories", "why_tests_cant": "history property", "anchors": ["eckity/sklearn_compatible/sklearn_wrapper.py", "eckity/sklearn_compatible/sk_classifier.py"]}
{"id": "C61", "title": "Protected primitives are total", "statement": "Protected division, inverse and the conditional primitives return the documented value for every input, and never divide by a denominator of magnitude at most 0.001.", "quantifier": "all inputs", "why_tests_cant": "all numbers", "anchors": ["eckity/base/untyped_functions.py", "eckity/base/typed_functions.py"]}
{"id": "C62", "title": "Constants keep their declared type", "statement": "A numeric constant annotated with a type keeps a value of that type when ERC mutation changes it.", "quantifier": "all trees, all noise values", "why_tests_cant": "every tree and draw", "anchors": ["eckity/genetic_operators/mutations/erc_mutation.py: ERCMutation.attempt_operator"]}
{"id": "C63", "title": "Per-cell bounds work for every vector class and length", "statement": "With legal per-cell bounds, creating vectors of any class and mutating an in-bounds vector never raises.", "quantifier": "all vector classes, lengths and legal per-cell bounds", "why_tests_cant": "two-cell vectors take the single-pair branch of the bounds check; a tested length says nothing about another", "anchors": ["eckity/genetic_encodings/ga/vector_individual.py: check_if_in_bounds", "eckity/genetic_encodings/ga/bit_string_vector.py: get_random_number_in_bounds"]}
{"id": "C64", "title": "The integer one-point mutation changes at most one cell", "statement": "IntVectorOnePointMutation applied to one vector changes at most one cell.", "quantifier": "all integer vectors, per-cell probabilities and draws", "why_tests_cant": "needs every draw sequence", "anchors": ["eckity/genetic_operators/mutations/vector_random_mutation.py: IntVectorOnePointMutation"]}
{"id": "C65", "title": "Vectors with default bounds can be initialised", "statement": "A vector of any class constructed with that class's default bounds can generate a random cell value.", "quantifier": "all vector classes and draws", "why_tests_cant": "a draw may succeed by luck; the claim is about every draw", "anchors": ["eckity/genetic_encodings/ga/int_vector.py", "eckity/genetic_encodings/ga/float_vector.py", "eckity/genetic_encodings/ga/bit_string_vector.py"]}
{"id": "C66", "title": "The generic n-point mutation works with its default arguments", "statement": "VectorNPointMutation built with default arguments can be applied to an in-bounds vector.", "quantifier": "all point counts, in-bounds vectors and draws", "why_tests_cant": "the failure is on every path, including the retry path", "anchors": ["eckity/genetic_operators/mutations/vector_n_point_mutation.py: VectorNPointMutation"]}
{"id": "C67", "title": "Subscribing without a callback has no effect on publishing", "statement": "register(event) with its default callback argument yields a do-nothing subscription: publishing the event still calls all other subscribers and does not raise.", "quantifier": "all sequences of register/unregister calls", "why_tests_cant": "the default is hardly ever used and the failure appears only at the next publish", "anchors": ["eckity/before_after_publisher.py: register"]}
{"id": "C68", "title": "Default creation probabilities are always accepted", "statement": "Constructing a Subpopulation with a non-empty list of creators and no explicit creation probabilities succeeds.", "quantifier": "all numbers of creators, float arithmetic of every supported Python version", "why_tests_cant": "the float sum of n copies of 1/n is 1.0 for small tested n only", "anchors": ["eckity/subpopulation.py: __init__ (pcr default and sum check)"]}
{"id": "C69", "title": "Multi-objective statistics work for every number of objectives", "statement": "After front sorting, MOEBestWorstStatistics prints its line for every non-empty population, whatever the number of objectives.", "quantifier": "all evaluated populations, objective counts, requested sizes", "why_tests_cant": "two-objective examples never show the failure; it needs a front with three different corners", "anchors": ["eckity/multi_objective_evolution/moe_best_worst_statistics.py: get_corners"]}
{"id": "C70", "title": "NSGA-II reports a non-dominated best individual", "statement": "best_of_run_, which finish reports at the end of an NSGA-II run, is not dominated by any individual evaluated in the run.", "quantifier": "all runs", "why_tests_cant": "whole-run property", "anchors": ["eckity/multi_objective_evolution/nsga2_evolution.py: generation_iteration, finish", "eckity/algorithms/algorithm.py: initialize"]}
{"id": "C71", "title": "A fitted estimator survives pickling", "statement": "An estimator that was fitted can predict after it was pickled and restored.", "quantifier": "all estimators", "why_tests_cant": "state property of the serialisation hooks", "anchors": ["eckity/sklearn_compatible/sklearn_wrapper.py: __getstate__, __setstate__, predict"]}
{"id": "C72", "title": "An algorithm can be evolved again", "statement": "After evolve() has returned, calling evolve() (or fit() of an estimator) again on the same algorithm object runs the evolution again instead of raising.", "quantifier": "all algorithms and runs", "why_tests_cant": "needs a second run on the same object, for every way the first can go", "anchors": ["eckity/algorithms/algorithm.py: finish, initialize", "eckity/algorithms/simple_evolution.py: finish", "eckity/sklearn_compatible/sklearn_wrapper.py: fit"]}
{"id": "C73", "title": "Trees over the base functions run on every data set", "statement": "A GP tree over the numeric base functions returns, without raising, a scalar or one value per sample, whatever the numbers (including infinities and NaN) and wherever constants appear.", "quantifier": "all trees, all data sets, all roundings", "why_tests_cant": "quantifies over all trees and data", "anchors": ["eckity/base/untyped_functions.py", "eckity/base/typed_functions.py", "eckity/genetic_encodings/gp/tree/tree_individual.py: execute"]}
{"id": "C74", "title": "Logical base functions compute logic", "statement": "f_and, f_or and f_not return a true value exactly when 'x and y', 'x or y', 'not x' is true, for every pair of numbers or bools.", "quantifier": "all pairs of bools, integers and floats", "why_tests_cant": "tests use 0/1 arrays only", "anchors": ["eckity/base/untyped_functions.py: f_and, f_or, f_not"]}
{"id": "C75", "title": "Genetic programming runs contain well-formed programs only", "statement": "In a run put together from the library's tree creators and tree operators, with any arguments, any evaluator and any selection, every individual that can be seen at any event - in the population, as best of the run or of the generation - is a well-formed program over the function set with the right number of arguments everywhere, also if the run ends with an exception.", "quantifier": "all runs, all configurations of creators and operators, all seeds", "why_tests_cant": "whole-run invariant over unbounded generations and random choices", "anchors": ["eckity/algorithms/algorithm.py: evolve", "eckity/breeders/simple_breeder.py", "eckity/genetic_operators/crossovers/subtree_crossover.py", "eckity/genetic_operators/mutations/subtree_mutation.py", "eckity/genetic_operators/mutations/erc_mutation.py", "eckity/creators/gp_creators"]}
{"id": "C76", "title": "Genetic algorithm runs contain in-bounds vectors only", "statement": "In a run put together from a vector creator of the library, its crossover and the mutations of the vector class, with proper bounds, every individual that can be seen at any event has the class, bounds and length it was created with and all its cells in bounds, also if the run ends with an exception.", "quantifier": "all runs, vector classes, bounds, mutation parameters, seeds", "why_tests_cant": "whole-run invariant over unbounded generations and random choices", "anchors": ["eckity/algorithms/algorithm.py: evolve", "eckity/creators/ga_creators/simple_vector_creator.py", "eckity/genetic_operators/crossovers/vector_k_point_crossover.py", "eckity/genetic_operators/mutations"]}
{"id": "C77", "title": "Base functions compute what their names say", "statement": "Called with scalars and equally long arrays, every numeric base function returns, item by item, the value its name and documentation promise (sum, difference, product, protected quotient, root, logarithm, maximum, minimum, trigonometric functions, conditionals, logical functions of floats and ints), NaN of max and min propagating.", "quantifier": "all numbers including infinities and NaN, all array lengths, all roundings", "why_tests_cant": "unbounded numeric inputs and mixed scalar/array arguments", "anchors": ["eckity/base/untyped_functions.py", "eckity/base/typed_functions.py"]}
{"id": "C78", "title": "Executing a tree on columns is executing it on every row", "statement": "Executing a GP tree over the numeric base functions on columns gives, for each sample, exactly what executing it on the numbers of that sample alone gives; the value for a sample never depends on the other samples.", "quantifier": "all trees, data sets, roundings", "why_tests_cant": "quantifies over trees and data", "anchors": ["eckity/genetic_encodings/gp/tree/tree_individual.py: execute", "eckity/base/untyped_functions.py", "eckity/base/typed_functions.py"]}
{"id": "C79", "title": "Multi-objective fitness values are written once", "statement": "NSGA2Fitness.set_fitness stores exactly the objectives given and refuses to overwrite them until set_not_evaluated, which forgets objectives, rank and crowding; copies keep the objectives iff caching is on; comparing objects with different numbers of objectives or without objectives raises ValueError.", "quantifier": "all fitness objects and objective vectors", "why_tests_cant": "all states of the object", "anchors": ["eckity/multi_objective_evolution/nsga2_fitness.py: set_fitness, set_not_evaluated, check_comparable_fitnesses, __getstate__"]}
{"id": "C80", "title": "A well-configured run completes", "statement": "If the evaluator does not raise on legal individuals, and the termination checkers do not raise when asked about an evaluated population and a best individual with a score - the library's checkers never do -, the population size is positive and divisible by all arities, and the library's creators, selection and operators are used with admissible arguments (vectors: proper bounds, crossover of at least two; trees: a function and a terminal for every type in use, typed or not, half-and-half asked for enough individuals), then evolve runs through all its generations without raising, whatever is drawn, and ends with a best individual that has a score and with a full population of distinct, evaluated, legal individuals.", "quantifier": "all seeds, configurations and numbers of generations", "why_tests_cant": "no test can rule out an exception under some sequence of draws", "anchors": ["eckity/algorithms/algorithm.py: evolve, evolve_main_loop", "eckity/breeders/simple_breeder.py", "eckity/evaluators", "eckity/genetic_operators", "eckity/creators"]}
{"id": "C81", "title": "Every legal tree can be printed, and its text shows the program", "statement": "str(tree), and so show(), repr and the end of SimpleEvolution.evolve, which shows the best individual, succeed for every legal tree over sets the constructor accepts; the text is a function definition whose body, white space aside, is the program in functional notation, so that different programs are printed differently.", "quantifier": "all trees, terminal sets, names, runs", "why_tests_cant": "tests print a few trees over string terminals; the failure needs a constant in the terminal set", "anchors": ["eckity/genetic_encodings/gp/tree/tree_individual.py: __str__, _str_rec, show", "eckity/algorithms/simple_evolution.py: finish"]}
{"id": "C82", "title": "A well-configured multi-objective run completes", "statement": "NSGA2Evolution.evolve with NSGA2Breeder, with a GAVectorCreator (or a tree creator that works like the library's but gives its trees NSGA2Fitness objects), the library's crossovers, mutations and tournament selection used with admissible arguments, an evaluator that returns the right number of objectives for legal individuals and a checker that does not raise when asked about an evaluated population, runs through all its generations without raising, whatever is drawn, and ends with a population of the initial size of distinct legal individuals all of which have their objectives, and with a best individual that has objectives.", "quantifier": "all seeds, configurations, numbers of generations and objectives", "why_tests_cant": "no test can rule out an exception under some sequence of draws", "anchors": ["eckity/multi_objective_evolution/nsga2_evolution.py: evolve, generation_iteration", "eckity/multi_objective_evolution/nsga2_breeder.py", "eckity/multi_objective_evolution/nsga2_front_sorting.py", "eckity/evaluators/simple_population_evaluator.py"]}
{"id": "C83", "title": "Multi-objective runs are reproducible from their seed", "statement": "Two runs of NSGA2Evolution with the same configuration, starting state and random_seed end with the same genomes in the population, whatever the state of the random generators before, the timing of the threads and the memory layout.", "quantifier": "all configurations, seeds, thread schedules and set iteration orders", "why_tests_cant": "a test compares a few pairs of runs in one process; the difference needs ties and another memory layout", "anchors": ["eckity/multi_objective_evolution/nsga2_front_sorting.py: _select, _remove_pareto_front", "eckity/algorithms/algorithm.py: set_random_seed, evolve_main_loop"]}
{"id": "C84", "title": "A multi-objective algorithm can be evolved again", "statement": "After NSGA2Evolution.evolve() has returned, calling evolve() again on the same object runs the evolution again instead of raising.", "quantifier": "all algorithms and runs", "why_tests_cant": "needs a second run on the same object, for every way the first can go", "anchors": ["eckity/algorithms/algorithm.py: initialize, create_population", "eckity/multi_objective_evolution/nsga2_evolution.py: finish", "eckity/multi_objective_evolution/nsga2_fitness.py: set_fitness"]}
{"id": "C85", "title": "Tree creators create exactly the programs in their range", "statement": "GrowCreator with 0 < p_prune < 1 and FullCreator can create a node list if and only if it lists a program of the requested type over the function and terminal sets (ephemeral constants included) whose terminals all lie between the minimal and maximal depth (full: at the maximal depth); ramped half-and-half can create every combination of such individuals in its depth blocks and no other population.", "quantifier": "all configurations, depths and programs", "why_tests_cant": "a test can sample the creator; it can neither see that no program is left out nor that none is outside", "anchors": ["eckity/creators/gp_creators/grow.py", "eckity/creators/gp_creators/full.py", "eckity/creators/gp_creators/half.py", "eckity/genetic_encodings/gp/tree/tree_individual.py: random_function, random_terminal"]}
{"id": "C86", "title": "Vector creators and mutations cover the search space", "statement": "The vector creators can create every vector of the configured class, length and bounds and no other; every mutation class of the library can lead, applied often enough, from every vector in bounds to every other one, in one application if they differ in at most as many cells as the class has mutation points.", "quantifier": "all vector classes, lengths, bounds, mutation parameters", "why_tests_cant": "existence of draws for every pair of vectors", "anchors": ["eckity/creators/ga_creators/simple_vector_creator.py", "eckity/genetic_operators/mutations/vector_n_point_mutation.py", "eckity/genetic_operators/mutations/vector_random_mutation.py", "eckity/genetic_encodings/ga"]}
{"id": "C87", "title": "Subtree mutation and crossover can alter every part of a tree", "statement": "For every position of a tree there are draws with which subtree mutation replaces the sub-tree at that position by any program its grow creator can make, and with which subtree crossover takes part at that position.", "quantifier": "all trees, positions, configurations and draws", "why_tests_cant": "existence of draws for every position; the failure needs equal nodes in one tree", "anchors": ["eckity/genetic_encodings/gp/tree/tree_individual.py: random_subtree, _get_subtree_by_root, replace_subtree", "eckity/genetic_encodings/gp/tree/tree_node.py: __eq__", "eckity/genetic_operators/mutations/subtree_mutation.py", "eckity/genetic_operators/crossovers/subtree_crossover.py"]}
{"id": "C88", "title": "Typed runs contain well-typed programs only", "statement": "In a run put together from the library's tree creators and tree operators over a typed configuration that the constructor accepts, every individual that can be seen at any event is a well-typed program of the root type; in an untyped one no typed node ever appears; also if the run ends with an exception.", "quantifier": "all runs, configurations, operators with any arguments, seeds", "why_tests_cant": "whole-run invariant over unbounded generations and random choices", "anchors": ["eckity/algorithms/algorithm.py: evolve", "eckity/genetic_encodings/gp/tree/tree_individual.py: random_terminal, random_subtree, replace_subtree", "eckity/creators/gp_creators", "eckity/genetic_operators/crossovers/subtree_crossover.py", "eckity/genetic_operators/mutations/subtree_mutation.py"]}
{"id": "C89", "title": "Typed evolution only selects among the roots of the initial population", "statement": "In a run over a typed configuration every individual that can be seen at any event has at its root the function of the root of some individual of the initial population (or is a terminal if one of those was): no operator of the library changes the function at a root.", "quantifier": "all runs, typed configurations with harmless ERC ranges, operators with any arguments, seeds", "why_tests_cant": "whole-run invariant; a run that happens to keep a root shows nothing", "anchors": ["eckity/genetic_encodings/gp/tree/tree_individual.py: random_subtree", "eckity/genetic_operators/crossovers/subtree_crossover.py", "eckity/genetic_operators/mutations/subtree_mutation.py", "eckity/genetic_operators/mutations/erc_mutation.py"]}
{"id": "C90", "title": "Programs are made of what the configuration offers", "statement": "In a run put together from the library's tree creators and tree operators, every program that can be seen at any event consists of functions of the function set, entries of the terminal set and constants that lie in the ERC range and are of the type of their node.", "quantifier": "all runs, configurations, operators with any arguments, seeds", "why_tests_cant": "whole-run invariant over unbounded generations and random choices", "anchors": ["eckity/genetic_operators/mutations/erc_mutation.py: attempt_operator", "eckity/genetic_encodings/gp/tree/tree_individual.py: random_terminal", "eckity/algorithms/algorithm.py: evolve"]}
{"id": "C91", "title": "best_of_gen and worst_of_gen are the best and the worst of the generation", "statement": "In every run of SimpleEvolution, at each after_generation event of generation 1 or later, best_of_gen is the first individual of the current population that no other beats; at the end worst_of_gen is the first one that beats no other; before the first generation both keep the values passed to the constructor.", "quantifier": "all runs, also those that raise later, all configurations and seeds", "why_tests_cant": "whole-run invariant; a test sees one run and rarely ties", "anchors": ["eckity/algorithms/simple_evolution.py: generation_iteration", "eckity/subpopulation.py: get_best_individual, get_worst_individual", "eckity/evaluators/simple_population_evaluator.py"]}
{"id": "C92", "title": "selected_by and applied_operators tell about the last generation", "statement": "At every after_generation event, gen of every individual of the population is the generation number, update_parents the creator's, selected_by lists the selection methods that selected it in the last generation and applied_operators the operators that were applied to it in the last generation, in their order.", "quantifier": "all runs, also those that raise later, all configurations and seeds", "why_tests_cant": "whole-run property over unbounded generations; wrong only from the second generation on", "anchors": ["eckity/individual.py: clone", "eckity/genetic_operators/genetic_operator.py: apply_operator", "eckity/genetic_operators/selections/selection_method.py: select", "eckity/breeders/simple_breeder.py"]}
{"id": "C93", "title": "parents are individuals of the previous generation", "statement": "If update_parents is set, parents holds after each generation the ids of the individuals of the previous generation from which the individual was bred.", "quantifier": "all runs, configurations, arities, seeds", "why_tests_cant": "whole-run property; ids must be compared across generations", "anchors": ["eckity/individual.py: parents, clone", "eckity/genetic_operators/genetic_operator.py: apply_operator"]}
{"id": "C94", "title": "cloned_from leads back to the initial population", "statement": "At every after_generation event, cloned_from of every individual is the id of an individual of the previous population, so that the chain of clones leads from every individual back to one of the initial population, in exactly as many steps as there were generations.", "quantifier": "all runs, also those that raise later, all configurations and seeds", "why_tests_cant": "whole-run property by induction over generations", "anchors": ["eckity/individual.py: clone", "eckity/breeders/simple_breeder.py", "eckity/genetic_operators/selections"]}
{"id": "C95", "title": "The statistics write the best, worst and average fitness of each generation", "statement": "At every after_generation event the statistics classes write, without raising, the generation number and for the sub-population the pure fitness of its best and of its worst individual and the average of all (and the average size); the best value is at least as good as the average, the average at least as good as the worst.", "quantifier": "all runs, also those that raise later, all configurations and seeds", "why_tests_cant": "whole-run property; the order of the numbers fails only with bloat control", "anchors": ["eckity/statistics/best_average_worst_statistics.py: write_statistics", "eckity/statistics/best_avg_worst_size_tree_statistics.py: write_statistics", "eckity/statistics/minimal_print_statistics.py: write_statistics", "eckity/subpopulation.py: get_best_individual, get_worst_individual, get_average_fitness"]}
{"id": "C96", "title": "act applies the operator between its two events", "statement": "operator.act(payload) checks the arity, calls the subscribers of before_operator in the order of their registration, applies the operator once, calls the subscribers of after_operator and returns what the operator returned - also if the operator was created with a list of custom events, and for creators.", "quantifier": "all operators, arities, payloads and histories of register/unregister", "why_tests_cant": "all histories of subscriptions", "anchors": ["eckity/event_based_operator.py: __init__, act, _assert_arity", "eckity/before_after_publisher.py: __init__, act_and_publish_before_after", "eckity/creators/creator.py: __init__, apply_operator", "eckity/genetic_operators/genetic_operator.py: __init__"]}
{"id": "C97", "title": "Every advertised event of an algorithm is published", "statement": "The events of a run come in one fixed order, whatever the configuration, and a run that raises has published the beginning of it; whoever registers for one of the events of a SimpleEvolution is told about it in every run of at least one generation.", "quantifier": "all runs, also those that raise, all configurations and seeds", "why_tests_cant": "whole-run property; a callback that is never called is not noticed", "anchors": ["eckity/algorithms/simple_evolution.py: __init__", "eckity/algorithms/algorithm.py: __init__, evolve, evolve_main_loop, initialize", "eckity/breeders/breeder.py: breed", "eckity/breeders/simple_breeder.py: apply_breed, _apply_operators"]}
{"id": "C98", "title": "What a creator is configured with reaches its individuals", "statement": "Every individual that a creator of the library makes is a newborn (generation 0, nothing selected, applied or cloned) with an unevaluated fitness object of the configured class, bloat weight and direction, the configured update_parents, and the configured function and terminal sets, root type and ERC range (trees) or vector class and bounds (vectors); there are exactly as many as asked for.", "quantifier": "all constructor arguments, numbers of individuals, draws", "why_tests_cant": "a wrong default in a sub-creator changes no tree; it shows only in the fitness values of later runs", "anchors": ["eckity/creators/gp_creators/tree_creator.py: __init__, create_individuals", "eckity/creators/gp_creators/full.py: __init__", "eckity/creators/gp_creators/grow.py: __init__", "eckity/creators/gp_creators/half.py: __init__, create_individuals", "eckity/creators/ga_creators/simple_vector_creator.py: create_individuals"]}
{"id": "C99", "title": "A publisher made from an existing events dictionary keeps its subscribers", "statement": "A publisher constructed with an existing dictionary of events (the documented use for deserialization and cloning) calls the subscribers in it, and registering further subscribers removes none of them.", "quantifier": "all dictionaries of subscribers, all histories of register and unregister", "why_tests_cant": "needs a dictionary that still holds the first subscriber, and a later registration", "anchors": ["eckity/before_after_publisher.py: __init__, register"]}
{"id": "C100", "title": "A paused experiment can be resumed", "statement": "A second SimpleEvolution object that is given the population, generation_seed, generation_num and best_of_run_ of a finished one breeds, generation by generation, the same individuals (ids, genomes, fitness, lineage) as one uninterrupted experiment of the total length; it goes on counting generations, and its best_of_run_ is the best individual of the whole experiment.", "quantifier": "all configurations with evaluators that draw no random numbers, all seeds, lengths of the two parts, states of the generators in between", "why_tests_cant": "relates three runs over unbounded generations; a test compares a few", "anchors": ["eckity/algorithms/algorithm.py: __init__, initialize, evolve_main_loop, set_generation_seed, next_seed", "eckity/algorithms/simple_evolution.py: __init__, generation_iteration"]}
{"id": "C101", "title": "Recombination creates nothing new", "statement": "In a run whose genetic operators only recombine (sub-tree crossover for trees, k-point crossover with fewer points than cells for vectors), every node of every tree, and every value at every position of every vector, that is ever seen at an event of the run was already in the initial population (at that position); with ERC mutation in addition, every function symbol was.", "quantifier": "all runs, also those that raise later, configurations made of library parts, termination checkers, seeds", "why_tests_cant": "whole-run property: needs induction over generations and operators", "anchors": ["eckity/genetic_operators/crossovers/subtree_crossover.py", "eckity/genetic_operators/crossovers/vector_k_point_crossover.py", "eckity/genetic_operators/mutations/erc_mutation.py", "eckity/algorithms/simple_evolution.py", "eckity/breeders/simple_breeder.py"]}
{"id": "C102", "title": "Statistics are written once per generation", "statement": "Every statistics object given to a SimpleEvolution is called exactly once for every generation of a run, in the order of the list, with generation numbers 1, 2, ..., n - also if the algorithm object was evolved before, saved and loaded again.", "quantifier": "all runs, lists of statistics, subscribers, numbers of earlier runs", "why_tests_cant": "registrations accumulate silently; a test of one run does not see it", "anchors": ["eckity/algorithms/simple_evolution.py: initialize", "eckity/algorithms/algorithm.py: evolve, evolve_main_loop, __getstate__, __setstate__", "eckity/before_after_publisher.py: register, publish"]}
{"id": "C103", "title": "Subscribers may subscribe and unsubscribe while they are notified", "statement": "A subscriber may register or unregister (itself or others) in its callback: all subscribers that were registered when the event was published are called, and publish returns.", "quantifier": "all subscriber lists and all callbacks", "why_tests_cant": "depends on how Python iterates over a dictionary that changes", "anchors": ["eckity/before_after_publisher.py: publish, register, unregister"]}
{"id": "C104", "title": "Bad arguments are rejected when an algorithm is constructed", "statement": "SimpleEvolution(...) raises a ValueError unless population is a Population, a Subpopulation or a non-empty list of Subpopulations, statistics None, a Statistics or a list of these, breeder and evaluator None or of the required classes and executor \"thread\" or \"process\"; otherwise it builds the object described; the default seed is one numpy accepts. What was accepted can be evolved.", "quantifier": "all combinations of arguments, all clock values", "why_tests_cant": "combinatorial in the kinds of arguments; relates construction to later runs", "anchors": ["eckity/algorithms/algorithm.py: __init__, _validate_population_type, _validate_statistics_type", "eckity/algorithms/simple_evolution.py: __init__"]}
{"id": "C105", "title": "Repetitions with different seeds use different random numbers", "statement": "Two repetitions of an experiment with different random seeds never seed the random number generators for a generation with the same value.", "quantifier": "all configurations, pairs of seeds, generations", "why_tests_cant": "relates two runs; the overlap needs particular pairs of seeds and generations", "anchors": ["eckity/algorithms/algorithm.py: next_seed, set_generation_seed, evolve_main_loop, __init__"]}
{"id": "C106", "title": "Objects constructed separately share no state", "statement": "Setting the fitness of a tree, or subscribing to the breeder of an algorithm, has no effect on another tree or algorithm object constructed by another call, whether the arguments fitness and breeder were given or omitted.", "quantifier": "all sequences of constructor calls and later operations", "why_tests_cant": "aliasing shows only when two particular objects are used together", "anchors": ["eckity/genetic_encodings/gp/tree/tree_individual.py: __init__", "eckity/algorithms/simple_evolution.py: __init__", "eckity/individual.py: __init__"]}
{"id": "C107", "title": "A fitted regressor predicts as well as the best program evaluated", "statement": "After SKRegressor.fit(X, y) the predictions for X have, against y, the error that is the fitness of best_of_run_, and no program evaluated at any time during the evolution has a better error.", "quantifier": "all configurations of the evolution, data sets, metrics, meanings of functions and terminals, bloat weights, seeds", "why_tests_cant": "whole-run property that relates fit, predict and everything evaluated in between", "anchors": ["eckity/sklearn_compatible/sk_regressor.py", "eckity/sklearn_compatible/regression_evaluator.py", "eckity/sklearn_compatible/sklearn_wrapper.py: fit, predict", "eckity/fitness/gp_fitness.py"]}
{"id": "C108", "title": "Progress is never lost", "statement": "From event to event of a run best_of_run_ never becomes worse; with elitism (an elitism rate that gives at least one elite) every generation contains an individual that is at least as good as every individual evaluated in an earlier generation.", "quantifier": "all runs, configurations with a deterministic evaluator, operators, seeds", "why_tests_cant": "whole-run property; an elite is lost only for particular draws", "anchors": ["eckity/breeders/simple_breeder.py: apply_breed", "eckity/genetic_operators/selections/elitism_selection.py", "eckity/genetic_operators/mutations/identity_transformation.py", "eckity/algorithms/simple_evolution.py"]}
{"id": "C109", "title": "A run with a target stops when the target is reached", "statement": "A run of SimpleEvolution with a ThresholdFromTargetTerminationChecker ends with the first generation by whose end an individual with a fitness as good as the target, up to the threshold, has been evaluated; a run that ends before max_generation has such an individual as best_of_run_.", "quantifier": "all runs, targets, thresholds, deterministic evaluators, operators, seeds", "why_tests_cant": "whole-run property; the failure needs a fitness that jumps over the target", "anchors": ["eckity/termination_checkers/threshold_from_target_termination_checker.py", "eckity/algorithms/algorithm.py: should_terminate, evolve_main_loop"]}
{"id": "C110", "title": "The maximal initial depth bounds the trees of a run", "statement": "No tree seen in a run of SimpleEvolution with the library's tree creators and tree operators is deeper than the maximal depth given to the creator (init_depth); more precisely, how deep the trees of generation n can be depends only on init_depth, the operators and n.", "quantifier": "all function and terminal sets, creators, operators with any parameters, evaluators, selections, runs, generations", "why_tests_cant": "whole-run property over an unbounded number of generations", "anchors": ["eckity/creators/gp_creators/full.py", "eckity/creators/gp_creators/grow.py", "eckity/creators/gp_creators/half.py", "eckity/genetic_operators/crossovers/subtree_crossover.py", "eckity/genetic_operators/mutations/subtree_mutation.py", "eckity/genetic_operators/mutations/erc_mutation.py", "eckity/breeders/simple_breeder.py"]}
{"id": "C111", "title": "Subscribers of an operator's after_operator event are told the individuals the operator was called with", "statement": "Whenever `operator.act(individuals)` returns, the `applied_individuals` that the subscribers of `after_operator` are given are the individuals of this call. What is true: they are if the operator fires and one of its attempts succeeds; if the probability passes the individuals over, or if every attempt of a tree operator fails, the subscribers are given what the attribute held before - the individuals of an earlier call, or None.", "quantifier": "all operators with any attempts, all probabilities, all sequences of calls, all random draws", "why_tests_cant": "a test calls an operator of probability 1 once; a stale attribute needs a sequence of calls in which a later one does not fire or fails", "anchors": ["eckity/event_based_operator.py:12-15,69-75", "eckity/genetic_operators/genetic_operator.py:29-59", "eckity/genetic_operators/failable_operator.py:43-69", "eckity/genetic_operators/crossovers/subtree_crossover.py:48-58", "eckity/genetic_operators/mutations/subtree_mutation.py:43-51", "eckity/genetic_operators/mutations/erc_mutation.py:35-47", "eckity/genetic_operators/mutations/vector_n_point_mutation.py:101-125"]}
{"id": "C112", "title": "A fitted classifier is as accurate on its training data as the best program evaluated", "statement": "After `SKClassifier(algorithm).fit(X, y)` with a `ClassificationEvaluator` whose metric is the accuracy, `score(X, y)` is the fitness of `best_of_run_`, and no program evaluated at any time during the evolution classifies more of the training data correctly.", "quantifier": "all algorithms with one sub-population, all trees, all data, all classification methods, all random draws, with or without bloat control, both directions", "why_tests_cant": "a test fits one data set and checks that some accuracy is reached; whether a better program was evaluated and lost cannot be seen from it", "anchors": ["eckity/sklearn_compatible/classification_evaluator.py:60-108", "eckity/sklearn_compatible/sk_classifier.py:11-37", "eckity/sklearn_compatible/sklearn_wrapper.py:25-48", "eckity/subpopulation.py:50-80"]}
{"id": "C113", "title": "A fitted classifier predicts labels that occur in its training data", "statement": "After fitting a classifier with `n_classes = n` to data with n different labels, every label it predicts, for whatever data, is one of these. What is true: the sigmoid method predicts whole numbers from 0 to n-1 and nothing else, whatever the labels are, so its score is at most the part of the data that carries such a label; the argmax and softmax methods predict values of the function at the root.", "quantifier": "all data, all labels, all trees, all methods, all numbers of classes", "why_tests_cant": "the examples and tests encode their labels as 0 and 1; scikit-learn classifiers accept any labels", "anchors": ["eckity/sklearn_compatible/classification_evaluator.py:80-108", "eckity/sklearn_compatible/sk_classifier.py:11-37", "eckity/sklearn_compatible/sklearn_wrapper.py:25-48"]}
{"id": "C114", "title": "NSGA-II does not lose the best value it has found for an objective", "statement": "In a run of `NSGA2Evolution` with `NSGA2Breeder` and an evaluator whose objectives depend on the genome only, the best value of each objective in the population never gets worse from one generation to a later one. Proved for populations of at least two individuals per objective; below that the code can lose it. In a generation in which the non-dominated individuals of parents and offspring fit into the population, moreover, every individual of the generation before is matched or dominated by one that survives.", "quantifier": "all runs, all numbers of generations and objectives, all operators and selection methods that leave other individuals' genomes alone, all genomes, all random draws, all iteration orders of sets", "why_tests_cant": "a test runs a few generations of one problem; the loss depends on ties between copies and on the order in which equally crowded individuals are listed", "anchors": ["eckity/multi_objective_evolution/nsga2_breeder.py:11-55", "eckity/multi_objective_evolution/nsga2_front_sorting.py:17-112", "eckity/multi_objective_evolution/nsga2_evolution.py:82-120"]}
{"id": "C115", "title": "What an event of the algorithm shows is evaluated, and evaluated correctly", "statement": "Whenever `SimpleEvolution` publishes an event (`init`, `after_generation`, `evolution_finished`), and when `evolve` returns, every individual of the population is marked as evaluated and its fitness is the value the evaluator gives to the genome the individual has at this moment: breeding never leaves an individual with the fitness of a former genome or of another individual.", "quantifier": "all configurations with one sub-population and a deterministic evaluator, all operators and selection methods that keep their contract, all numbers of workers and orders of completion, all random draws, runs that raise later included", "why_tests_cant": "a stale fitness shows only for particular sequences of selection, crossover and mutation over several generations", "anchors": ["eckity/algorithms/algorithm.py: evolve, initialize, evolve_main_loop", "eckity/algorithms/simple_evolution.py: generation_iteration", "eckity/evaluators/simple_population_evaluator.py", "eckity/fitness/fitness.py", "eckity/genetic_operators/genetic_operator.py"]}
{"id": "C116", "title": "Tournament selection favours fitter individuals, by known odds", "statement": "The tournaments that `TournamentSelection` can draw are equally likely. A fitter individual wins at least as many of them as a less fit one - more, if at least two take part and there are enough individuals for it to win -, equally fit individuals win equally many, and if e individuals are as fit as a given one and w are less fit, then each of the e wins ((e+w)^k - w^k)/e of the n^k tournaments of size k (falling factorials without replacement). The individuals added by `select` are clones of the winners of tournaments drawn independently.", "quantifier": "all populations with any fitness values and ties, both directions, bloat control, all tournament sizes, with and without replacement, all draws", "why_tests_cant": "a statement about the distribution over all draws; sampling can only estimate it", "anchors": ["eckity/genetic_operators/selections/tournament_selection.py:42-87", "eckity/individual.py: better_than", "eckity/fitness/fitness.py: better_than"]}
{"id": "C117", "title": "No individual belongs to two generations", "statement": "In a run of `SimpleEvolution` no individual object that was in the population before a breeding step - elites included - is in the population at its end or at any later time, so `population.find_individual_subpopulation(individual)` raises a ValueError for it, as its message promises; for a member of the population it returns the first sub-population that contains it.", "quantifier": "all configurations with one sub-population, all operators and selection methods that keep their contract, all events of the run, all random draws, runs that raise later included", "why_tests_cant": "relates all pairs of events of a run; an aliased elite shows only when somebody keeps a reference", "anchors": ["eckity/population.py:19-26", "eckity/subpopulation.py: contains_individual", "eckity/breeders/simple_breeder.py: apply_breed", "eckity/genetic_operators/selections/elitism_selection.py", "eckity/genetic_operators/selections/tournament_selection.py: _pick_tournament_winner", "eckity/individual.py: clone"]}
{"id": "C118", "title": "The probability of an operator is the share of draws that apply it", "statement": "`apply_operator` applies the operator for a share `probability` of the values of `random.random()`: with probability 0 it is never applied (the individuals come back untouched, fitness included), with probability 1 always; passing over an operator changes nothing but the state of the generator.", "quantifier": "all operators, all individuals and worlds, all probabilities, all values of `random.random()` at any resolution", "why_tests_cant": "the boundary case has chance 2^-53 per draw; the exact share is a count over all draws, not a sample", "anchors": ["eckity/genetic_operators/genetic_operator.py:29-59"]}
{"id": "C119", "title": "Random vectors, mutated cells and cut points are drawn without bias", "statement": "An integer or bit vector created with the default gene creator is each vector within the bounds with equal chance; an n-point mutation changes each set of n cells with equal chance, the one-bit flip mutation flips each bit with equal chance, and k-point crossover cuts at each set of k places between cells with equal chance - given that the generator's draws are uniform, each outcome belongs to the same number of equally likely draws.", "quantifier": "all integer bounds (common or per cell), all lengths, all vectors, all n and k, all possible draws", "why_tests_cant": "a statement about the number of draws behind every outcome; a statistical test can only reject gross bias at a chosen size", "anchors": ["eckity/creators/ga_creators/simple_vector_creator.py:46-53", "eckity/genetic_encodings/ga/int_vector.py:46-62", "eckity/genetic_encodings/ga/bit_string_vector.py:41-63", "eckity/genetic_operators/mutations/vector_n_point_mutation.py:78-122", "eckity/genetic_operators/crossovers/vector_k_point_crossover.py:36-88"]}
{"id": "C120", "title": "Subtree operators choose each qualifying subtree with equal chance", "statement": "`random_subtree` - on which subtree crossover and subtree mutation rely - returns the subtree at each qualifying node of the tree with equal chance: the number of equally likely draws for which a block of nodes is returned is the number of places where this block is the subtree of a qualifying node.", "quantifier": "all legal programs, all requested types, all possible draws of `random.choice`", "why_tests_cant": "a count over all draws and all places of every tree; a bias toward first copies needs trees with repeated nodes and a statistic to show", "anchors": ["eckity/genetic_encodings/gp/tree/tree_individual.py: random_subtree, _get_subtree_by_root, _find_subtree_end"]}
{"id": "C121", "title": "Whatever a run raises was raised by the user's evaluator or termination checkers", "statement": "`evolve` of a run put together from the library's creators, operators and a working selection method (sizes and arities fitting together) either completes - the population has its size, is legal and evaluated, and a best individual of the run is known - or raises an exception that the user's evaluator raises on a legal genome or a termination checker raises when asked about an evaluated population and a best individual with a score. With the library's own checkers, only the evaluator can raise. The library itself never adds an exception of its own, and never swallows one and carries on with a broken population.", "quantifier": "all such configurations of vectors and of programs (typed or not, with a function and a terminal for every type in use), all evaluators and checkers (deterministic or random, with or without state), all random tapes, all numbers of generations", "why_tests_cant": "quantifies over arbitrary user code called at arbitrary moments of a run; tests inject single exceptions at single places", "anchors": ["eckity/algorithms/algorithm.py: evolve, initialize, evolve_main_loop, should_terminate", "eckity/algorithms/simple_evolution.py: generation_iteration", "eckity/evaluators/simple_population_evaluator.py", "eckity/breeders/simple_breeder.py"]}
{"id": "C122", "title": "A population without exactly one sub-population is refused before anything is evaluated", "statement": "`SimpleEvolution` with its default population evaluator raises on `evolve` whenever the population has no or several sub-populations (a `ValueError` if the creators work). By then no evaluator, operator, selection method or termination checker has been called - whatever they do, the outcome is the same -, no statistics event has been published and the attributes of the algorithm (best of run, generation number, executor) are unchanged.", "quantifier": "all configurations with any number of sub-populations other than one, all states, all evaluators, operators and checkers", "why_tests_cant": "that nothing is called is a statement about all evaluators, operators and checkers; a test sees one exception for one configuration", "anchors": ["eckity/evaluators/simple_population_evaluator.py: _evaluate", "eckity/algorithms/algorithm.py: initialize, evolve", "eckity/population.py: create_population_individuals"]}
{"id": "C123", "title": "What a run does depends only on the order of the fitness values, and minimising is maximising the negation", "statement": "Replace the fitness values an evaluator returns by others in the same order (`phi(f)` for a strictly increasing `phi`): `SimpleEvolution` with tournament selection and operators of the library does exactly the same - same random draws, same genomes, ids and parents at every event, same best of run, same exception if one is raised -, and every stored fitness value is the image of the other. The same holds if values are negated and `higher_is_better` is flipped in creators, breeder and selection; then also with a `ThresholdFromTargetTerminationChecker` whose target is negated. With a bloat weight in `GPFitness` the second holds and the first holds for adding constants, but scaling fitness values can change the best of the run.", "quantifier": "all strictly monotone functions on fitness values, all configurations of library creators, operators and tournaments, all evaluators (which may use randomness and raise), all random sources", "why_tests_cant": "a relation between two whole runs for every strictly monotone function; a test compares two runs for one function and one seed", "anchors": ["eckity/fitness/fitness.py: better_than", "eckity/fitness/simple_fitness.py: better_than", "eckity/fitness/gp_fitness.py: get_augmented_fitness, better_than", "eckity/genetic_operators/selections/tournament_selection.py: select", "eckity/genetic_operators/selections/elitism_selection.py: select", "eckity/termination_checkers/threshold_from_target_termination_checker.py: should_terminate"]}
{"id": "C124", "title": "Stopping criteria only cut a run short", "statement": "`max_generation` and the termination checkers have no influence on what a run does before it ends. A run of `SimpleEvolution` with termination checkers, or with a smaller `max_generation`, is a beginning of the run without them or with a larger one (same seeds): it publishes the same events showing the same population, individual by individual, with the same best of run, generation number and seed, up to the generation in which it stops, and its final state is what the longer run shows there. If it raises, the longer run raises the same at the same point, unless asking the checkers raised. Consequently allowing more generations or dropping a checker never makes the best of run worse.", "quantifier": "all configurations, all checkers with any state, all numbers of generations, all random sources and initial states", "why_tests_cant": "a relation between two runs for every pair of generation limits and every checker; a test compares two runs for one configuration", "anchors": ["eckity/algorithms/algorithm.py: evolve, evolve_main_loop, should_terminate", "eckity/algorithms/simple_evolution.py: generation_iteration, finish", "eckity/termination_checkers/termination_checker.py: should_terminate"]}
{"id": "C125", "title": "Runs of NSGA-II do not depend on the units of the objectives", "statement": "If every objective j is returned as a_j * x + b_j with a_j > 0 instead of x (millimetres for metres, Fahrenheit for Celsius), a run of `NSGA2Evolution` with the same seed is the same run: it ends or raises in the same way, and at every event the population has the same individuals in the same order with the same genomes, ranks and crowding distances, the objectives being the converted ones. This holds for both breeders, tournament and elitism, and for checkers that look at generations or at crowding (`CrowdingTerminationChecker`). It does not hold for increasing functions that are not linear, since crowding distances change.", "quantifier": "all configurations put together from vector or tree creators and operators, all factors and offsets, all evaluators, all random sources", "why_tests_cant": "a relation between two runs for every choice of units and every evaluator; a test could compare two runs for one choice", "anchors": ["eckity/multi_objective_evolution/nsga2_front_sorting.py: _select, _calc_fronts_crowding", "eckity/multi_objective_evolution/nsga2_fitness.py: dominate, better_than", "eckity/multi_objective_evolution/nsga2_evolution.py: generation_iteration", "eckity/multi_objective_evolution/crowding_termination_checker.py: should_terminate"]}
{"id": "C126", "title": "A multi-objective run executes the right number of generations and publishes the right events", "statement": "Every run of `NSGA2Evolution` that returns publishes, in this order: the evaluator's before and after events and `init`; for each generation the breeder's and the evaluator's before and after events and `after_generation`; and `evolution_finished` (with one `after_generation` before it if the run is stopped right after the initialisation). The termination checker is asked once after the initialisation and once per generation, about exactly the population and best individual that the event of that generation shows, with its number; the run goes on as long as it says no and generations are left, and stops the first time it says yes, with `final_generation_` set to that generation. Without such an answer exactly `max_generation` generations are executed.", "quantifier": "all configurations, checkers, numbers of generations, random sources and initial states", "why_tests_cant": "the order of events and of checks for every number of generations and every pattern of answers; a test counts the events of one run", "anchors": ["eckity/algorithms/algorithm.py: evolve, initialize, evolve_main_loop, should_terminate", "eckity/multi_objective_evolution/nsga2_evolution.py: generation_iteration, finish"]}
{"id": "C127", "title": "Stopping criteria only cut a multi-objective run short", "statement": "A run of `NSGA2Evolution` that its termination checker stops in generation g has done exactly what the run without a checker and with `max_generation` = g does: same events, individuals, genomes, fitness objects, ranks, crowding and seeds; only `final_generation_` differs (and, if it is stopped right after the initialisation, one additional `after_generation` event). A run without a checker is the beginning of all runs with larger `max_generation`. What a run with a checker raises was raised by the checker, or is raised by the run without it at the same point, or is raised at the very end because the best individual has no fitness.", "quantifier": "all configurations, checkers, numbers of generations, random sources and initial states", "why_tests_cant": "a relation between runs for every pair of generation limits and every checker; a test compares two runs for one configuration", "anchors": ["eckity/algorithms/algorithm.py: evolve, evolve_main_loop, should_terminate", "eckity/multi_objective_evolution/nsga2_evolution.py: generation_iteration, finish"]}
{"id": "C128", "title": "Whatever a multi-objective run raises was raised by the user's evaluator or termination checker", "statement": "`evolve` of an `NSGA2Evolution` put together from the library's creators and operators with its own breeder and front sorting (sizes and arities fitting together) either completes - the population has its size and is legal, and every individual has all its objectives - or raises an exception that the user's evaluator raises on a legal genome or the termination checker raises. The library itself adds no exception of its own.", "quantifier": "all such configurations of vectors and of programs (typed or not, with a function and a terminal for every type in use), all evaluators and checkers (deterministic or random, with or without state), all random tapes, all numbers of generations", "why_tests_cant": "quantifies over arbitrary user code called at arbitrary moments of a run; tests inject single exceptions at single places", "anchors": ["eckity/algorithms/algorithm.py: evolve, initialize, evolve_main_loop, should_terminate", "eckity/multi_objective_evolution/nsga2_evolution.py: generation_iteration", "eckity/multi_objective_evolution/nsga2_front_sorting.py", "eckity/multi_objective_evolution/nsga2_breeder.py"]}
{"id": "C129", "title": "The evaluator is called exactly once for each individual of each generation", "statement": "In a run of `SimpleEvolution`, between two evaluations nothing calls `evaluate_individual`, and each evaluation calls it exactly once for each individual of the population, with the genome the individual shows at the end of the evaluation - for both executor methods and whatever the order in which the workers run. A run with populations of N individuals that returns after generation g has called the evaluator exactly N * (g + 1) times - N * (max_generation + 1) times without termination checkers - and never twice for the same individual object: elites are copies and are evaluated again. The population has the same size at every event.", "quantifier": "all configurations, creators, operators, selection methods, evaluators and checkers, all numbers of generations, all random tapes, all schedules of the executor", "why_tests_cant": "the number of calls for every configuration, schedule and number of generations; a test counts the calls of one run", "anchors": ["eckity/evaluators/simple_population_evaluator.py: _evaluate", "eckity/evaluators/simple_individual_evaluator.py: evaluate", "eckity/algorithms/algorithm.py: evolve, initialize, evolve_main_loop", "eckity/algorithms/simple_evolution.py: generation_iteration"]}
{"id": "C130", "title": "A multi-objective run evaluates N * (2g + 1) times", "statement": "In a run of `NSGA2Evolution` each evaluation of the population calls `evaluate_individual` exactly once for each of its individuals, which are all different, and the objectives an individual has at the end of the evaluation are those its call returned; nothing else calls the evaluator, whatever the order in which the workers run. With `NSGA2Breeder` and N individuals a run that returns after generation g has made exactly N * (2 * g + 1) calls: parents are evaluated again together with the offspring. With the default `SimpleBreeder` it has made N + N + N/2 + N/4 + ... calls, since each generation halves the population.", "quantifier": "all configurations, creators, operators, selection methods, evaluators and checkers, all numbers of generations, all random tapes, all schedules of the executor", "why_tests_cant": "the number of calls for every configuration, schedule and number of generations; a test counts the calls of one run", "anchors": ["eckity/evaluators/simple_population_evaluator.py: _evaluate", "eckity/multi_objective_evolution/nsga2_breeder.py: apply_breed, _create_next_gen", "eckity/multi_objective_evolution/nsga2_evolution.py: generation_iteration", "eckity/algorithms/algorithm.py: evolve, initialize, evolve_main_loop"]}
{"id": "C131", "title": "The names of variables and functions do not matter", "statement": "Take a run of `SimpleEvolution` over tree programs and rename the variables of the terminal set and replace the functions of the function set by others of the same signatures (different ones by different ones), with an evaluator that gives renamed programs the scores of the original ones. With the same seed the run is the same: it returns or raises in the same way, and at every event the programs are the same except for the names - same shapes, same constants, same fitness, same ids. Executing a renamed program with the same values for the renamed variables returns or raises the same, so every evaluator that only executes the programs meets the condition. In general every change of the representation of genomes that the creators, operators and the evaluator respect is respected by the whole run.", "quantifier": "all tree configurations (full, grow, half creators, crossover, subtree mutation, ERC mutation), typed or not, all renamings, evaluators, checkers, all numbers of generations, all random tapes", "why_tests_cant": "a relation between two whole runs for every renaming; a test would compare two runs for one pair of names", "anchors": ["eckity/genetic_encodings/gp/tree/tree_individual.py", "eckity/genetic_encodings/gp/tree/utils.py", "eckity/creators/gp_creators/grow.py: create_tree", "eckity/creators/gp_creators/full.py: create_tree", "eckity/creators/gp_creators/half.py: create_individuals", "eckity/algorithms/algorithm.py: evolve"]}
{"id": "C132", "title": "Runs over vectors do not depend on the units of the cells", "statement": "Measure the cells of float vectors in other units, a * x + b with a > 0: convert the bounds given to the creator and the mean and deviation given to Gaussian mutations (mu and sigma times a), and let the evaluator give converted vectors the scores of the original ones. With the same seed a run of `SimpleEvolution` is the same run in the other units: it returns or raises in the same way, at every event every vector is the converted one, with the same fitness and id; in particular the same Gaussian mutations fail and fall back to uniform ones. Runs over integer and bit vectors can be shifted by whole numbers.", "quantifier": "all configurations of the library's vector creator, k-point crossover and vector mutations, all a > 0 and b (integers and a = 1 for int and bit vectors), all evaluators and checkers, all numbers of generations, all random tapes", "why_tests_cant": "a relation between two whole runs for all units and bounds; a test compares two runs for one conversion", "anchors": ["eckity/genetic_encodings/ga/vector_individual.py", "eckity/genetic_encodings/ga/float_vector.py", "eckity/genetic_encodings/ga/int_vector.py", "eckity/genetic_encodings/ga/bit_string_vector.py", "eckity/genetic_operators/mutations/vector_random_mutation.py", "eckity/genetic_operators/mutations/vector_n_point_mutation.py", "eckity/genetic_operators/crossovers/vector_k_point_crossover.py", "eckity/creators/ga_creators/simple_vector_creator.py"]}
{"id": "C133", "title": "Fitness-proportionate selection does not depend on the unit of the fitness", "statement": "Measuring fitness in another unit (multiplying all scores by the same a > 0) does not change the probabilities with which `FitnessProportionateSelection` selects individuals - as with every roulette wheel. False of the code, which applies softmax: the odds between two individuals are raised to the a-th power. Adding a number to all scores, on the other hand, which changes the odds of a roulette wheel, changes nothing.", "quantifier": "all populations with non-negative scores, all factors and offsets", "why_tests_cant": "a statement about probabilities under every change of units; a test would have to estimate frequencies for chosen units", "anchors": ["eckity/genetic_operators/selections/fp_selection.py: select"]}
{"id": "C134", "title": "Names and units of the genome do not matter to a multi-objective run", "statement": "Renaming the variables and functions of tree programs, or converting the cells of vectors together with their bounds and Gaussian noise into other units, does not change a run of `NSGA2Evolution` with the same seed if the evaluator gives converted individuals the objectives of the original ones: it returns or raises in the same way, every individual ever made is the conversion of the one of the other run, and objectives, front ranks, crowding distances, fronts, the best of the run and all events are the same.", "quantifier": "all runs, all renamings that keep signatures, all affine conversions of cells, both breeders", "why_tests_cant": "a relation between two whole runs for every renaming and every seed; tests can compare a few pairs", "anchors": ["eckity/multi_objective_evolution/nsga2_evolution.py: NSGA2Evolution.generation_iteration", "eckity/multi_objective_evolution/nsga2_breeder.py: NSGA2Breeder.apply_breed"]}
{"id": "C135", "title": "In multi-objective runs, too, recombination alone creates nothing new", "statement": "In a run of `NSGA2Evolution` with `NSGA2Breeder` whose only operators are crossovers, everything in the final population comes from the initial one: every node of every tree is a node of a tree of the initial population, and the value in each cell of each vector is the value some vector of the initial population had in that cell. With ERC mutation besides, it still holds of the functions in the trees.", "quantifier": "all completed runs with any creator of the library, any tournament, any crossover arguments, all seeds", "why_tests_cant": "concerns every generation of every run; a unit test sees one crossover", "anchors": ["eckity/multi_objective_evolution/nsga2_breeder.py: NSGA2Breeder._create_next_gen", "eckity/genetic_operators/crossovers/subtree_crossover.py: SubtreeCrossover.attempt_operator", "eckity/genetic_operators/crossovers/vector_k_point_crossover.py: VectorKPointsCrossover.apply"]}
{"id": "C136", "title": "The best individual that NSGA-II announces stays what it was", "statement": "The individual announced as `best_of_run_` with the `init` event is the one `NSGA2Evolution` ends with, and it still has the objectives it was announced with. False of the code: the breeder lets the operators work on the individuals of the population themselves and keeps clones of what they were, so that the announced individual is altered and can become worse in every objective. What holds is that, with an evaluator whose objectives depend on the genome only, the objectives of every individual at the end - of the population, and of `best_of_run_` - are those of the genome it has at that time.", "quantifier": "all runs with either breeder", "why_tests_cant": "depends on aliasing between the population, its clones and the attribute of the algorithm over whole runs", "anchors": ["eckity/multi_objective_evolution/nsga2_breeder.py: NSGA2Breeder._create_next_gen", "eckity/multi_objective_evolution/nsga2_evolution.py: NSGA2Evolution.generation_iteration", "eckity/algorithms/algorithm.py: Algorithm.initialize"]}
{"id": "C137", "title": "Ids of individuals are labels only", "statement": "The ids of individuals, the ids recorded in `cloned_from` and in the lists of parents, and the number of ids given out so far never influence a run: two runs of `SimpleEvolution` from the same state except for these labels raise the same exception or both return, tell observers the same, and end with the same populations, fitness values, best individuals, states of termination checkers and random numbers to come. In particular it makes no difference how many individuals were constructed before in the process, nor that every attempt of a vector mutation uses up ids for the copies it reverts to: mutations that assign cells one by one on the individuals and put the old cells back after a failed check do the same as functions from vectors to vectors. Holds for the creators, operators, selection methods and termination checkers of the library, for GP and GA.", "quantifier": "all runs of the library's creators, operators, selections and checkers, all parameters, all seeds, all earlier numbers of ids", "why_tests_cant": "a relation between two executions of any length whose individuals all carry different ids; tests compare a few attributes of one execution", "anchors": ["eckity/individual.py: Individual.clone", "eckity/individual.py: Individual.update_id", "eckity/genetic_operators/mutations/vector_n_point_mutation.py: VectorNPointMutation.attempt_operator", "eckity/genetic_operators/mutations/vector_random_mutation.py: FloatVectorGaussNPointMutation.on_fail", "eckity/algorithms/algorithm.py: Algorithm.evolve"]}
{"id": "C138", "title": "The OneMax example finds what it says it finds", "statement": "A run of examples/vectorga/one_max returns, ends with a best individual whose fitness is the number of its ones, none of the vectors evaluated in the run has more ones, a run that ends before its last generation ends with the vector of nothing but ones, and a run in which this vector is evaluated ends with the generation in which it is.", "quantifier": "all lengths of at least two, all even population sizes, tournament sizes up to the population size, elitism, probabilities, numbers of generations and seeds", "why_tests_cant": "the example is stochastic; a test runs it for one seed and sees whether the result is good enough", "anchors": ["examples/vectorga/one_max/one_max_problem.py: main", "examples/vectorga/one_max/one_max_evaluator.py: OneMaxEvaluator.evaluate_individual", "eckity/termination_checkers/threshold_from_target_termination_checker.py"]}
{"id": "C139", "title": "The knapsack evaluator accepts lists of items", "statement": "`KnapsackEvaluator(items)` accepts every list of tuples of an integer weight and a numeric price, numbering them, and rejects other lists with `ValueError`. False of the code: the last operand of its check is `type(item[1] not in [int, float])`, a class and so true, so that every list that is not empty is rejected.", "quantifier": "all lists of items", "why_tests_cant": "the negative statement is about every list; the example itself only uses the default items", "anchors": ["examples/vectorga/knapsack/knapsack_evaluator.py: KnapsackEvaluator.__init__"]}
{"id": "C140", "title": "The knapsack example packs feasible bags", "statement": "The knapsack evaluator gives a bag minus infinity exactly if it is heavier than allowed and the sum of the prices of the packed items otherwise; it raises `KeyError`, and nothing else, if an item is packed that does not exist. A run with this evaluator in which any bag is evaluated that is not too heavy ends with a best bag that is not too heavy, and that is worth at least as much as any other such bag evaluated. The run of examples/vectorga/knapsack always returns and does this.", "quantifier": "all items with non-negative prices, all weights allowed, lengths of at least three, even population sizes, probabilities, seeds, numbers of generations", "why_tests_cant": "the example is stochastic; a test sees one seed and one set of random items", "anchors": ["examples/vectorga/knapsack/knapsack_evaluator.py: KnapsackEvaluator.evaluate_individual", "examples/vectorga/knapsack/knapsack_main.py: main"]}
{"id": "C141", "title": "The multiplexer example ends early only with a multiplexer", "statement": "The target function of the multiplexer example returns the input its select lines point to, the truth table has one row for every combination of inputs, the fitness of a tree is the proportion of combinations for which executing the tree gives the right bit (so it is 1 exactly for multiplexers), and a run of examples/treegp/basic_mode/multiplexer.py that ends before its last generation ends with a multiplexer. The last part is false of the code: with the threshold 0.01 a run ends with any tree that is wrong for at most 20 of the 2048 combinations. That many it is at most, and the last part holds for thresholds below 1/2048. The run always returns.", "quantifier": "all trees over the functions and terminals of the example, all sizes, probabilities, bloat weights, seeds, given or created populations", "why_tests_cant": "concerns all trees and all runs; a test sees the one run of the fixed seed", "anchors": ["examples/treegp/basic_mode/multiplexer.py: _target_func, MuxEvaluator, main", "eckity/genetic_encodings/gp/tree/tree_individual.py: Tree.execute", "eckity/termination_checkers/threshold_from_target_termination_checker.py"]}
{"id": "C142", "title": "RootFunctionCreator makes trees with the given root function", "statement": "`RootFunctionCreator(root_function).create_individuals` returns trees whose root is the root function. False of the code for every root function: `create_tree` never appends a node, and calls itself for every argument of the root function without end, so that it raises `RecursionError` if the function has parameters, whatever the recursion limit, and otherwise leaves the tree empty, which cannot be executed.", "quantifier": "all root functions, configurations, recursion limits, seeds", "why_tests_cant": "non-termination for every recursion limit cannot be tested", "anchors": ["examples/treegp/sklearn_mode/root_function_creator.py: RootFunctionCreator.create_tree", "eckity/creators/gp_creators/tree_creator.py: GPTreeCreator._add_children"]}
{"id": "C143", "title": "The ZDT examples have the Pareto front of the ZDT problems", "statement": "With the objectives of examples/multi_objective/zdt (ZDT1 and ZDT2), a vector of the cube is Pareto-optimal exactly if all its cells after the first are zero. False of the code: the factor g is missing in the second objective, so that all vectors whose first cell is zero are Pareto-optimal too. It holds for all other vectors, and for all vectors once the factor is put in.", "quantifier": "all vectors of all lengths of at least two with cells between 0 and 1", "why_tests_cant": "quantifies over a continuum of vectors and competitors", "anchors": ["examples/multi_objective/zdt/nsga2zdt1.py: Zdt1Evaluator.evaluate_individual", "examples/multi_objective/zdt/nsga2zdt2.py: Zdt2Evaluator.evaluate_individual"]}
{"id": "C144", "title": "A configuration that the setup accepts can create its initial programs", "statement": "If the checks made when an individual is set up accept the function set, the terminal set and the root type, then the tree creators can create trees of the configured depths from them, whatever is drawn.", "quantifier": "all function and terminal sets, typed or not, root types, depths, seeds", "why_tests_cant": "the checks are unit-tested on a few sets each; whether what they accept suffices is a statement about all sets, depths and draws", "anchors": ["eckity/genetic_encodings/gp/tree/tree_individual.py: __init__, random_function, random_terminal", "eckity/genetic_encodings/gp/tree/utils.py: _handle_input_types", "eckity/creators/gp_creators/tree_creator.py: _assert_node_created", "eckity/creators/gp_creators/full.py", "eckity/creators/gp_creators/grow.py"]}
{"id": "C145", "title": "Setting a parameter of an estimator is like constructing the algorithm with it", "statement": "If `set_params(name=value)` is called on a scikit-learn estimator wrapping a `SimpleEvolution` and the name is one of the constructor's parameters, then the wrapped algorithm has afterwards the attributes it would have had if it had been constructed with that value from the beginning. False of the code: the seed of the current generation is not set with `random_seed`, the kind of the executor is not changed with `executor`, a single statistics object is not put into a list, and names that are no parameters are accepted; it holds for the parameters whose value the constructor stores as it is given.", "quantifier": "all constructor calls, parameters and values", "why_tests_cant": "a relation between two ways of reaching a configuration, for every parameter and value; grid search relies on it for all of them", "anchors": ["eckity/sklearn_compatible/sklearn_wrapper.py: set_params, get_params", "eckity/algorithms/algorithm.py: __init__", "eckity/algorithms/simple_evolution.py: __init__"]}
{"id": "C146", "title": "Estimators can be cloned", "statement": "`sklearn.base.clone(estimator)`, which cross-validation and grid search call, returns an estimator that is not fitted and has an algorithm of its own with the same attributes, leaving everything else as it was, whatever the estimator has been through. False of the code: once the estimator has been fitted its algorithm cannot be copied, because the population evaluator keeps the executor, which cannot be pickled, so that `clone` raises `TypeError`. It holds as long as no attribute holds such an object, and then setting parameters of the clone changes nothing else.", "quantifier": "all estimators and parameters", "why_tests_cant": "concerns all attribute values and the object graph after a run; the tests clone nothing", "anchors": ["eckity/sklearn_compatible/sklearn_wrapper.py: get_params, __getstate__", "eckity/algorithms/algorithm.py: __getstate__, __setstate__, initialize"]}
{"id": "C147", "title": "The basic multi-objective example has the Pareto front it is meant to have", "statement": "With the objectives of examples/multi_objective/moe_base_example (Fonseca and Fleming), a vector of length k within the bounds is Pareto-optimal exactly if all its cells are equal to one number between -1/sqrt(k) and 1/sqrt(k).", "quantifier": "all lengths of at least one, all bounds of at least 1/sqrt(k), all vectors within the bounds", "why_tests_cant": "quantifies over a continuum of vectors and competitors", "anchors": ["examples/multi_objective/moe_base_example/nsga2_basic_example.py: NSGA2BasicExampleEvaluator.evaluate_individual, main"]}
{"id": "C148", "title": "The ZDT3 example looks for the Pareto front of ZDT3", "statement": "With the objectives and the direction of examples/multi_objective/zdt/nsga2zdt3.py, every vector of the cube that no other vector is better than belongs to the Pareto front of ZDT3, so that all its cells after the first are zero. False of the code: it maximises, so that the vector of ones is among them for every length. Only this is true: unless the first cell is zero, the other cells are all zero or all one.", "quantifier": "all lengths of at least two, all vectors with cells between 0 and 1", "why_tests_cant": "quantifies over a continuum of vectors and competitors", "anchors": ["examples/multi_objective/zdt/nsga2zdt3.py: Zdt3Evaluator.evaluate_individual, main"]}
{"id": "C149", "title": "NSGA-II works with both executor methods", "statement": "A run of `NSGA2Evolution` that completes with `SimplePopulationEvaluator(executor_method=\"map\")` completes with `\"submit\"` as well. False of the code, for every configuration: with `\"submit\"` the individuals get their objective values in the tasks, and are then asked to store themselves as fitness, which an evaluated `NSGA2Fitness` refuses with `AttributeError`, so that no population is ever evaluated. By then every individual has the objective values it would have got with `\"map\"`.", "quantifier": "all configurations, populations, evaluators, orders of the workers", "why_tests_cant": "the negative statement is about every configuration; the tests of NSGA-II only use the default method", "anchors": ["eckity/evaluators/simple_population_evaluator.py: _evaluate", "eckity/evaluators/simple_individual_evaluator.py: evaluate", "eckity/multi_objective_evolution/nsga2_fitness.py: set_fitness"]}
{"id": "C150", "title": "Runs do not depend on whether threads or processes evaluate", "statement": "A run with `executor=\"process\"` is the same as the run with `executor=\"thread\"` with the same seed: the same individuals, events, result or exception. False of the code for evaluators that draw random numbers: in a process they use the generator of the worker, which nothing seeds, so that the result depends on it. It holds for all other evaluators, single- and multi-objective.", "quantifier": "all configurations with executor_method map, all states of the workers' random generators", "why_tests_cant": "compares two whole runs for every configuration and every state of the workers", "anchors": ["eckity/algorithms/algorithm.py: __init__, evolve", "eckity/evaluators/simple_population_evaluator.py: _evaluate"]}
{"id": "C151", "title": "A run never gets stuck", "statement": "However unlucky a run has been, the next generation can still find anything: if a completed run of `SimpleEvolution` reached generation N, then there are random numbers for that one generation with which the run is the same until then, completes, and has any given genome in the population evaluated in generation N - any point of the search space for vectors, if the last operator is a mutation that may change all cells, and any program the mutation could grow for untyped trees, if it is the subtree mutation - and the best individual the run ends with is at least as good as that genome.", "quantifier": "all configurations of the library's creators, crossovers and mutations with tournament selection, all populations that may have arisen, generations, elitism, seeds, target genomes", "why_tests_cant": "a statement about all histories of a run and about the existence of suitable draws in every generation; tests see one history", "anchors": ["eckity/algorithms/simple_evolution.py: generation_iteration", "eckity/breeders/simple_breeder.py: apply_breed", "eckity/genetic_operators/mutations/vector_random_mutation.py", "eckity/genetic_operators/mutations/subtree_mutation.py", "eckity/algorithms/algorithm.py: evolve, set_random_generator"]}
{"id": "C152", "title": "Integer and bit vectors hold whole numbers", "statement": "In a run of the library's vector creators, crossover and mutations with integer bounds, every cell of every integer vector and bit string an observer ever sees is a whole number, and every cell of a bit string whose bounds are one apart is one of its two bounds, however the run ends.", "quantifier": "all runs, lengths, bounds, operator arguments, seeds, evaluators, checkers", "why_tests_cant": "an invariant of whole runs through every creator and operator; the unit tests apply one operator to one vector", "anchors": ["eckity/genetic_encodings/ga/int_vector.py: get_random_number_in_bounds", "eckity/genetic_encodings/ga/bit_string_vector.py: bit_flip", "eckity/creators/ga_creators/simple_vector_creator.py: create_vector", "eckity/genetic_operators/mutations/vector_random_mutation.py", "eckity/genetic_operators/crossovers/vector_k_point_crossover.py"]}
{"id": "C153", "title": "The float OneMax example can find its optimum", "statement": "A run of the OneMax example with float vectors (bounds 0 and 1, target: the sum of a vector of ones) can find a vector of ones and end early because of it. False of the code: new cells are drawn with `uniform(0, 1)`, which never returns 1, so that every cell an observer sees is less than 1 and every run goes through all generations, whatever its sizes, probabilities and seed. What is true: the run always returns, and its best individual has the greatest sum of all evaluated vectors.", "quantifier": "all lengths, population and tournament sizes, probabilities, numbers of generations, seeds", "why_tests_cant": "the negative statement is about all seeds; a run that has not found the optimum proves nothing", "anchors": ["examples/vectorga/one_max/one_max_problem_float.py", "eckity/genetic_encodings/ga/float_vector.py: get_random_number_in_bounds", "eckity/termination_checkers/threshold_from_target_termination_checker.py"]}
{"id": "C154", "title": "Fitting a regressor succeeds and gives predictions", "statement": "A regressor made of the library's tree creators, operators, selection and numeric functions can be fitted to every data set with the right number of features that scikit-learn accepts, whatever is drawn, and then predicts one number for each row of every matrix with that number of features. False of the code: the outputs of programs may overflow, and then the metric's check raises `ValueError` out of `fit`. It holds for data and functions without overflow, and overflow is the only way in which fitting can fail.", "quantifier": "all accepted data sets, configurations, seeds, program sizes, roundings of float arithmetic", "why_tests_cant": "overflow depends on data and programs that arise during a run; tests fit one small data set with one seed", "anchors": ["eckity/sklearn_compatible/sklearn_wrapper.py: fit, predict", "eckity/sklearn_compatible/regression_evaluator.py: evaluate_individual", "eckity/genetic_encodings/gp/tree/functions.py", "eckity/genetic_encodings/gp/tree/tree_individual.py: execute"]}
{"id": "C155", "title": "Fitting with a target stops when the training data are fitted well enough", "statement": "If a regressor or classifier is fitted with a `ThresholdFromTargetTerminationChecker` for the best possible value of the metric, then fitting stops at the end of the generation in which a program within the threshold of it was evaluated, and it ends before the last generation only if the predictions of the fitted estimator for the training data are within the threshold. The first part is false of the code: with bloat control, which is the default, a smaller program with a worse value may be the best individual, the only one the checker looks at. Without bloat control it holds, and the second part holds always; so a classifier with the sigmoid method never stops early if too many labels are not below `n_classes`, as in the grid-search examples, which have three classes and leave `n_classes` at two.", "quantifier": "all data, configurations, thresholds, seeds", "why_tests_cant": "a statement about every generation of every run of `fit`; the tests fit one small data set", "anchors": ["eckity/termination_checkers/threshold_from_target_termination_checker.py: should_terminate", "eckity/sklearn_compatible/sklearn_wrapper.py: fit", "eckity/sklearn_compatible/classification_evaluator.py: __init__, _clf_sigmoid", "eckity/fitness/gp_fitness.py: get_augmented_fitness", "examples/treegp/sklearn_mode/classification_gridsearch.py"]}
{"id": "C156", "title": "The front NSGA-II returns is not dominated by anything it has evaluated", "statement": "At the end of each generation of `NSGA2Evolution` no member of `best_of_gen` is dominated by an individual that has been evaluated in this or an earlier generation. False of the code, even of populations with two individuals for each objective: when the non-dominated individuals are more than the population holds, some are lost, and a later front may have members that the lost ones dominate. It holds if the non-dominated individuals fit into the population in each generation; then for everything that has been evaluated there is a survivor with the same objectives or one that dominates it.", "quantifier": "all configurations, operators, numbers of objectives, generations, seeds, iteration orders of sets", "why_tests_cant": "compares the end of every run with its whole history", "anchors": ["eckity/multi_objective_evolution/nsga2_evolution.py: generation_iteration, _get_pareto_fronts", "eckity/multi_objective_evolution/nsga2_front_sorting.py", "eckity/multi_objective_evolution/nsga2_breeder.py: apply_breed"]}
{"id": "C157", "title": "All programs of the full method are equally likely", "statement": "`random_function` and `random_terminal` (without ephemeral constants) return each function and each terminal of the requested type with the same probability, and `FullCreator` therefore creates every program in its range with the same probability. The second part is false of the code: a program is created with the product of the shares of its nodes, so that with functions of different arities programs with more nodes are less likely - with one unary and one binary function `neg(x)` is twice as likely as `add(x, x)`. It holds if all functions take equally many arguments; the product formula holds always.", "quantifier": "all function and terminal sets, typed or not, depths, programs", "why_tests_cant": "a statement about the distribution of what is drawn, for every program; tests create a few trees and look at their depths", "anchors": ["eckity/genetic_encodings/gp/tree/tree_individual.py: random_function, random_terminal", "eckity/creators/gp_creators/full.py: create_tree"]}
{"id": "C158", "title": "The odds of a program of the grow method", "statement": "`GrowCreator` with pruning probability q creates a program in its range with probability q^a (1-q)^b divided by the product, over the nodes, of the number of functions or terminals of the type of the node, where a is the number of terminals above the maximal depth and b the number of functions at the minimal depth or below.", "quantifier": "all function and terminal sets without ephemeral constants, typed or not, depths, pruning probabilities, programs", "why_tests_cant": "a statement about the distribution of what is drawn, for every program; tests create a few trees and look at their depths", "anchors": ["eckity/creators/gp_creators/grow.py: create_tree", "eckity/genetic_encodings/gp/tree/tree_individual.py: random_function, random_terminal"]}
{"id": "C159", "title": "An interrupted run can be started again", "statement": "If `evolve` of a `SimpleEvolution` raises because the evaluator or a termination checker raised, the executor is still open and the population of the interrupted generation is there - as many legal individuals as before. `evolve` can be called again: with an evaluator and checkers that raise nothing it completes, and `best_of_run_` is then at least as good as it was at the interruption. The last part is false of the code: `initialize` replaces `best_of_run_` by the best individual of the population it finds, and without elites that may be worse.", "quantifier": "all library-built configurations of vectors and of programs, evaluators, termination checkers, points of interruption, seeds", "why_tests_cant": "quantifies over every way a run can be interrupted; no test calls `evolve` twice on one algorithm", "anchors": ["eckity/algorithms/algorithm.py: evolve, initialize, evolve_main_loop, finish, create_population", "eckity/subpopulation.py: create_subpopulation_individuals", "eckity/algorithms/simple_evolution.py: finish, generation_iteration"]}
{"id": "C160", "title": "What the constructor of `NSGA2Evolution` accepts", "statement": "Constructing an `NSGA2Evolution` succeeds exactly if the population, the statistics and the executor are of the kinds that are documented, everything else being rejected with a `ValueError`; what `SimpleEvolution` accepts, `NSGA2Evolution` accepts, with the same sub-populations, statistics and seeds; and an object that has been accepted has a breeder and a population evaluator. The last part is false of the code: unlike `SimpleEvolution`, it looks at neither, so that `breeder=None` is kept.", "quantifier": "all arguments", "why_tests_cant": "a statement about every combination of arguments", "anchors": ["eckity/multi_objective_evolution/nsga2_evolution.py: __init__", "eckity/algorithms/algorithm.py: __init__, _validate_population_type, _validate_statistics_type", "eckity/algorithms/simple_evolution.py: __init__"]}
{"id": "C161", "title": "An interrupted NSGA-II run can be started again", "statement": "If `evolve` of an `NSGA2Evolution` with `NSGA2Breeder` raises because the evaluator or the termination checker raised, then it can be called again: with an evaluator and a checker that raise nothing it completes with a population of the same size. False of the code. If the evaluator raised in the initialisation it is true. If it raised in a generation, the population has twice its size, is taken over as it is, and every later generation of the run has that many individuals. If the checker raised, the individuals have their objectives already, and `evolve` raises `AttributeError`. In each case the individuals are legal and distinct, and apart from the last case the run that is started again completes.", "quantifier": "all library-built configurations of vectors and of programs, evaluators, termination checkers, points of interruption, seeds", "why_tests_cant": "quantifies over every way a run can be interrupted; no test calls `evolve` twice on one algorithm", "anchors": ["eckity/multi_objective_evolution/nsga2_evolution.py: generation_iteration", "eckity/multi_objective_evolution/nsga2_breeder.py: apply_breed, _create_next_gen", "eckity/multi_objective_evolution/nsga2_fitness.py: set_fitness", "eckity/algorithms/algorithm.py: evolve, initialize", "eckity/evaluators/simple_population_evaluator.py: _evaluate"]}
{"id": "C162", "title": "The best of a run is best even if some scores are NaN", "statement": "Evaluators may return any float. Whatever the scores, `best_of_run_` is at least as good as every individual of the run whose score is not NaN, a tournament is won by the best participant whose score is not NaN, and a target ends the run once an individual meets it. False of the code: NaN is neither better nor worse than anything, so that an individual scored NaN that happens to stand first is never displaced. What is true: infinities do no harm; the score of `best_of_run_` is NaN if and only if that of the first individual of the initial population is, and then that individual stays the best of the run to the end, a target is never met, and all generations are made; otherwise `best_of_run_` is at least as good as everything in the generations whose first individual is not scored NaN, while of the others nothing is considered.", "quantifier": "all scores (finite, infinite, NaN), sizes, bloat weights, directions, populations in each generation however bred, numbers of generations, checkers", "why_tests_cant": "Tests use evaluators that return ordinary numbers; a NaN needs an overflow in some program, and whether it does harm depends on the position of that program in the population.", "anchors": ["eckity/fitness/simple_fitness.py:93-123", "eckity/fitness/gp_fitness.py:51-78", "eckity/evaluators/simple_population_evaluator.py:65-73", "eckity/genetic_operators/selections/tournament_selection.py:80-87", "eckity/algorithms/simple_evolution.py:186-193", "eckity/termination_checkers/threshold_from_target_termination_checker.py:47"]}
{"id": "C163", "title": "The first front of NSGA-II is best even if some objective values are NaN", "statement": "Objectives may be any floats. Whatever they are, no individual of the first front is worse, in all the objectives in which it has a value, than an individual that has values in all objectives. False of the code: an individual with NaN among its objectives is dominated by none and is therefore always in the first front, however bad its other objectives are. What is true: infinities do no harm, sorting raises nothing, the first front consists of the individuals that no other dominates, and whether an individual belongs to it depends only on the individuals without NaN.", "quantifier": "all populations without repetitions, numbers of objectives, directions, objective values (finite, infinite, NaN)", "why_tests_cant": "Tests use objectives that are ordinary numbers.", "anchors": ["eckity/multi_objective_evolution/nsga2_fitness.py:93-143", "eckity/multi_objective_evolution/nsga2_front_sorting.py:39-42", "eckity/multi_objective_evolution/nsga2_front_sorting.py:84-102"]}
{"id": "C164", "title": "The symbolic regression example ends early only with a good program", "statement": "A run of examples/treegp/basic_mode/symbolic_regression.py or typed_symbolic_regression.py that ends before its last generation ends with a program whose mean absolute difference from x + 2y + 3z on the data is at most the threshold. False of the code: `np.mean` of a pandas series leaves out NaNs, so that rows in which a program overflows to NaN do not count, and a program that is right in one of 200 rows and NaN in all others has the best possible score. What is true: the typed function and terminal sets are accepted; evaluating a program of either example never raises; the score is the mean over the rows whose error is not NaN, and NaN if there are none; after an early end the output in every row is NaN or within the threshold times the number of rows of the target; a program that is never NaN meets the statement; and without rounding the tree in the documentation scores 0.", "quantifier": "all programs over the functions and terminals of either example, data frames, rounding and overflow behaviour of the arithmetic, constants, bloat weights, populations however bred, numbers of generations, thresholds", "why_tests_cant": "Whether a program overflows depends on the data and on the program; tests run a few programs on tame numbers.", "anchors": ["examples/treegp/basic_mode/symbolic_regression.py:38-81", "examples/treegp/basic_mode/symbolic_regression.py:105-159", "examples/treegp/basic_mode/typed_symbolic_regression.py:38-132", "eckity/base/typed_functions.py:11-65", "eckity/base/untyped_functions.py:9-98", "eckity/termination_checkers/threshold_from_target_termination_checker.py:47"]}
{"id": "C165", "title": "Fitting a classifier succeeds even if programs overflow", "statement": "A classifier made of the library's tree creators, operators, selection and numeric functions with the method `sigmoid` and the accuracy as metric can be fitted to every data set with the right number of features that scikit-learn accepts and whose targets are whole numbers, whatever is drawn and even if programs overflow or are undefined for samples (a regressor cannot, C154). It then predicts one label below `n_classes` for each row of every matrix with that number of features, refuses other matrices with `ValueError`, and its `score` on the training data is the fitness of `best_of_run_`, to which no evaluated program is preferred. With a target that is not a whole number `fit` raises `ValueError`. A program whose output for a sample is NaN or infinite is not rejected: it labels the sample with the last class, for minus infinity with the first.", "quantifier": "all accepted data sets, configurations, numbers of classes, seeds, program sizes, roundings of float arithmetic, matrices predicted for (with NaN and infinities)", "why_tests_cant": "overflow depends on data and programs that arise during a run; tests fit one small data set with one seed", "anchors": ["eckity/sklearn_compatible/sklearn_wrapper.py: fit", "eckity/sklearn_compatible/sk_classifier.py: predict", "eckity/sklearn_compatible/classification_evaluator.py: evaluate_individual, _clf_sigmoid", "eckity/genetic_encodings/gp/tree/tree_individual.py: execute"]}
{"id": "C166", "title": "NSGA-II breeds from selected individuals", "statement": "With `NSGA2Breeder`, offspring are bred from the individuals that the selection method selects. False of the code: the breeder applies the operators to the whole population, in order, and asks the selection method only afterwards, to fill a list that is already twice as long as the population, so that no tournament is ever held; elites are copied and left behind. What is true: the next generation is the copies of all individuals followed by the results of the operators on all of them, and exchanging a tournament for another one, of any size and with or without replacement, changes nothing in the whole run. Only a tournament that is larger than the population, without replacement, makes breeding raise.", "quantifier": "all library-like operators, selection methods that fill up to the size of the source, population sizes, tournament sizes, elites, seeds, numbers of generations", "why_tests_cant": "That a configured method has no effect is a statement about all runs; tests see populations that improve through the front sorting alone.", "anchors": ["eckity/multi_objective_evolution/nsga2_breeder.py:11-55", "eckity/genetic_operators/selections/tournament_selection.py:42-78"]}
{"id": "C167", "title": "Selection methods are used according to their probabilities", "statement": "Of the selection methods of a sub-population, given as pairs of a method and a probability, each is used according to its probability; in particular one whose probability is 0 makes no difference. False of the code: both breeders use the first method, whatever the probabilities. What is true: the probabilities and all methods but the first may be exchanged for others without any change to a run, of `SimpleEvolution` or `NSGA2Evolution`, as long as their arities divide the population size; if one does not, `SimpleBreeder` raises before it has touched anything.", "quantifier": "all configurations, selection methods, probabilities, seeds, numbers of generations", "why_tests_cant": "A statement about whole runs with several selection methods; tests configure a single one.", "anchors": ["eckity/subpopulation.py:37-39, 111-126", "eckity/breeders/simple_breeder.py:36-73", "eckity/multi_objective_evolution/nsga2_breeder.py:36-38"]}
{"id": "C168", "title": "Numeric programs return numbers", "statement": "Executing a GP tree over the functions of typed_functions.py for floats (and those of untyped_functions.py for numbers) on columns of numbers returns, without raising, numbers, as the annotations promise. False of the code: `and2floats`, `or2floats`, `and2ints` and `or2ints` return arrays of truth values, which numpy can neither subtract from each other nor negate, so that for example sub2floats(and2floats(x, y), and2floats(y, z)) raises `TypeError`. What is true: whether a tree raises and whether it returns truth values or numbers depends on the tree alone, not on the data; it raises exactly if somewhere truth values are subtracted from each other or negated; otherwise there is one value for each row (or one for all), the value that the numbers of the row alone give; trees without those functions return numbers; sums and products of truth values are disjunctions and conjunctions.", "quantifier": "all trees, data sets (with infinities and NaN), roundings; without argmax2floats", "why_tests_cant": "Which of infinitely many trees raise is a statement about all of them; tests execute a few trees whose types happen to fit.", "anchors": ["eckity/base/typed_functions.py:11-142", "eckity/base/untyped_functions.py:9-118"]}
{"id": "C169", "title": "Creators and operators leave all other individuals alone", "statement": "`create_individuals(n, higher_is_better)` of a vector or tree creator in a run makes n new individuals whose genomes are a function of the random numbers alone (those the creation rules of the creator give), draws no others, changes no individual that exists already, and raises exactly when these rules do - for bounds that do not fit with `ValueError` before anything is drawn. A crossover or mutation object, applied to individuals of a run, changes the genomes of these individuals only, to those that the rules of the operator give for them and the random numbers, whatever the other individuals of the run and their fitness. The same holds in NSGA-II.", "quantifier": "all creators, operators, their arguments, numbers of individuals, populations, seeds", "why_tests_cant": "a statement about every reachable heap of individuals and every stream of random numbers; a test sees one population", "anchors": ["eckity/creators/ga_creators/simple_vector_creator.py: GAVectorCreator.create_individuals", "eckity/creators/gp_creators/tree_creator.py: GPTreeCreator.create_individuals", "eckity/creators/gp_creators/half.py: HalfCreator.create_individuals", "eckity/genetic_operators/crossovers/vector_k_point_crossover.py: VectorKPointsCrossover", "eckity/genetic_operators/crossovers/subtree_crossover.py: SubtreeCrossover", "eckity/genetic_operators/mutations/subtree_mutation.py: SubtreeMutation", "eckity/genetic_operators/mutations/erc_mutation.py: ERCMutation"]}
{"id": "C170", "title": "No individual left out by elitism dominates an elite", "statement": "Given individuals with several evaluated objectives, `ElitismSelection(num_elites=n)` appends to the destination clones of the n individuals that are best in the first objective in which they differ from the others (in the direction of the sub-population), ties in the order of the population, draws no random number and changes no individual. No individual that is left out dominates an elite, and no individual of the population dominates the first elite.", "quantifier": "all populations with objective vectors of one length, directions, numbers of elites", "why_tests_cant": "dominance is a partial order and the sort is lexicographic: whether the prefix of the sort is free of dominated individuals depends on all pairs of vectors and on their directions", "anchors": ["eckity/genetic_operators/selections/elitism_selection.py: ElitismSelection.select", "eckity/multi_objective_evolution/nsga2_fitness.py: NSGA2Fitness.dominate", "eckity/breeders/simple_breeder.py: SimpleBreeder.apply_breed"]}
{"id": "C171", "title": "The typed multiplexer example ends early only with a multiplexer", "statement": "For the configuration of `typed_multiplexer.py` (truth values, annotated functions, no constants) the setup of the creator accepts the function set, the terminals and the root type; every run returns; the fitness of every program of a run is the share of the 2048 combinations of inputs for which it returns the input that the select lines point to, and is 1 exactly for multiplexers; afterwards the best program can be executed with every combination of truth values and returns a truth value; and if the run ends before generation 40, the best program is a multiplexer.", "quantifier": "all runs of the example: seeds, depths, population and tournament sizes, probabilities, given initial programs", "why_tests_cant": "needs all random streams and all programs that variation can produce; the script prints the outcome of one seed for three inputs", "anchors": ["examples/treegp/basic_mode/typed_multiplexer.py: MuxEvaluator.evaluate_individual, main", "eckity/base/typed_functions.py: and2bools, or2bools, not2bools, if_then_else3bools", "eckity/termination_checkers/threshold_from_target_termination_checker.py: should_terminate"]}
{"id": "C172", "title": "The plot of NSGA-II shows the final population and its front", "statement": "With two objectives, `NSGA2Plot.print_plots`, registered for any event of an `NSGA2Evolution` (the examples use `evolution_finished`), does not raise and draws one point for each individual of the population, all of which are evaluated; at the end of the run the points are the objectives of the final genomes, at the end of a generation the picture contains all of `best_of_gen`, and no point dominates a member of it; with another number of objectives nothing is drawn. False of the code with the default breeder, which halves the population in each generation until there is nothing to plot and `print_plots` raises `IndexError`. True with `NSGA2Breeder`.", "quantifier": "all two-objective runs that complete: genomes, creators, operators, selection methods, evaluators, random draws, numbers of generations, all events of the algorithm", "why_tests_cant": "A test plots one population; that every individual is evaluated whenever the subscriber runs is an invariant of the whole run.", "anchors": ["eckity/multi_objective_evolution/nsga2_plot.py:10-20", "eckity/multi_objective_evolution/nsga2_evolution.py:82-178", "examples/multi_objective/moe_base_example/nsga2_basic_example.py:109-110"]}
{"id": "C173", "title": "Constants are created and mutated without bias", "statement": "With an ERC range, `random_terminal` returns each terminal of the requested type and a constant equally often: with k terminals of a type that takes constants, each of them and the constant for one in k + 1 of the choices, whatever constant has been drawn. An integer constant is each integer of the range equally often, for one in (k + 1)(hi - lo + 1) of the pairs of draws. `get_random_numeric_node`, and with it the ERC mutation, picks each numeric leaf of a tree equally often.", "quantifier": "all configurations (typed or not), ERC ranges, constants drawn, trees with any number of constants", "why_tests_cant": "Odds are a statement about all random numbers; a test draws a few times and sees that the result is some terminal.", "anchors": ["eckity/genetic_encodings/gp/tree/tree_individual.py: random_terminal, get_random_numeric_node", "eckity/genetic_operators/mutations/erc_mutation.py: ERCMutation.attempt_operator"]}
{"id": "C174", "title": "An NSGA-II run never gets stuck", "statement": "However unlucky a run of `NSGA2Evolution` has been, the next generation can still find anything: if a completed run reached generation N, then there are random numbers for that one generation with which the run is the same until then, completes, and has any given genome among the individuals evaluated in generation N - any point of the search space for vectors, if the last operator is a mutation that may change all cells, and any program the mutation could grow for untyped trees, if it is the subtree mutation.", "quantifier": "all configurations of the library's creators, crossovers and mutations with tournament selection, all populations that may have arisen, generations, numbers and directions of objectives, seeds, target genomes", "why_tests_cant": "a statement about all histories of a run and about the existence of suitable draws in every generation; tests see one history", "anchors": ["eckity/multi_objective_evolution/nsga2_evolution.py: generation_iteration", "eckity/multi_objective_evolution/nsga2_breeder.py: apply_breed", "eckity/genetic_operators/mutations/vector_random_mutation.py", "eckity/genetic_operators/mutations/subtree_mutation.py", "eckity/algorithms/algorithm.py: evolve, set_random_generator"]}
{"id": "C175", "title": "A list of stopping criteria ends an NSGA-II run when the first is met", "statement": "A run of `NSGA2Evolution` with a list of termination checkers that keep no state is the run with one of the checkers alone: it publishes the same events, ends in the same state and raises the same exception, if any. No run with one of the checkers alone ends in an earlier generation, and if it completes with each of the checkers alone, it completes with the list. The order of the list and repetitions in it do not matter to a run that completes, and an empty list is like `None`.", "quantifier": "all configurations, all lists of stateless checkers (which may raise), all states", "why_tests_cant": "quantifies over arbitrary checkers and compares whole runs with each other; a test sees one list and one run", "anchors": ["eckity/algorithms/algorithm.py: should_terminate, evolve, evolve_main_loop", "eckity/multi_objective_evolution/nsga2_evolution.py: generation_iteration", "eckity/multi_objective_evolution/crowding_termination_checker.py"]}
{"id": "C176", "title": "A list of stopping criteria ends a run when the first is met", "statement": "A run of `SimpleEvolution` with a list of termination checkers, with or without state, is the run with one of the checkers alone: it publishes the same events, ends in the same state, leaves that checker in the same state, and raises the same exception, if any. No run with one of the checkers alone ends in an earlier generation, and if it completes with each of the checkers alone, it completes with the list. An empty list is like `None`.", "quantifier": "all configurations, all lists of checkers (which may keep state and may raise), all states", "why_tests_cant": "quantifies over arbitrary checkers and compares whole runs with each other; a test sees one list and one run", "anchors": ["eckity/algorithms/algorithm.py: should_terminate, evolve, evolve_main_loop", "eckity/algorithms/simple_evolution.py: generation_iteration", "eckity/termination_checkers/best_fitness_stagnation_termination_checker.py"]}
{"id": "C177", "title": "The stagnation checker can be used with NSGA-II", "statement": "A run of `NSGA2Evolution` that completes without a termination checker completes with `BestFitnessStagnationTerminationChecker` as well. False of the code, for every configuration with at least one generation after the initial one: the second time the checker is asked it calls `math.isclose` with lists of objectives, so that `evolve` raises `TypeError` in generation 1, and a checker that has been asked once raises ever after. What is true: the first time it says no, so that a run with the initial generation only completes, like the run without it.", "quantifier": "all configurations of NSGA-II that complete without the checker, all seeds, populations, objectives and directions", "why_tests_cant": "each of the two classes is tested without the other; that no configuration works is a claim about all of them", "anchors": ["eckity/termination_checkers/best_fitness_stagnation_termination_checker.py: BestFitnessStagnationTerminationChecker.should_terminate", "eckity/multi_objective_evolution/nsga2_evolution.py: NSGA2Evolution", "eckity/subpopulation.py: Subpopulation.get_best_individual"]}
