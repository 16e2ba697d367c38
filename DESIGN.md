# Design of the EC-KitY verification

Code under study: `/repo` (EC-KitY, Python), read as text; nothing in it is built, run or changed.

## 1. Shape of the work

* `lean/Verif/Py/*`     – the few Python primitives the code relies on (exceptions as values, slices with negative
  indices, stable `sorted`, the random source, numbers, rounding of floats), and the program logics used in the proofs
  (`wlp`, `wp`, `tri`, simulation).
* `lean/Verif/Model/*`  – models of the repository's functions, function by function; every definition cites file and
  lines, and says where it simplifies.
* `lean/Verif/Spec/*`   – small, separate specifications (rose-tree programs, Pareto layers, segments, courses of a run,
  renamings of a world ...), which do not use the model's helper functions.
* `lean/Verif/Lemmas/*` – auxiliary lemmas (not claims).
* `lean/Verif/Props/*`  – the property theorems, their non-vacuity `example`s and, where the code does not satisfy the
  property, the refutation with a concrete witness.

All models are shallow: a Python function becomes a Lean function returning `Except Err α` (a raised exception is a
value), or a state-passing function `PyM σ α = σ → Except Err α × σ` when it mutates objects or draws random numbers.
State survives an exception, as in Python.

### Randomness
`random`/`numpy.random` are a tape of natural numbers (`Tape`), from which every call takes the next entries and decodes
them into an outcome of the call's range (`randrange n = draw % n`, `random() = rational in [0,1)`,
`gauss = mu + arbitrary rational * sigma`, `sample` = repeated removal ...).  Every possible outcome of every call is produced by some
tape, so "for all tapes" is "for all outcomes of all draws".  The actual distribution / Mersenne Twister is not modelled.
Seeding replaces the tape by `stream seed` for an arbitrary function `stream`.

### Objects
Individuals live in a heap (list of records); populations are lists of references; `clone` allocates.  This makes
aliasing ("`best_of_run_` is a reference into an old population") a real question.

### Concurrency
The executor runs one task per individual; a schedule is a permutation of the tasks.  Tasks are atomic, an exception
aborts at once.

### How partial and false properties are written
If the property is false of the code, `Cxx_statement` is the full property as a Lean proposition (where it fits in one),
`Cxx_refuted` proves its negation with a concrete witness, and theorems with the suffix `_partial` state what is true
instead.  The manifest status of such a property is `partial`.

## 2. Plan per property

| id | modelled | proof |
|----|----------|-------|
| C01, C02 | `Tree._execute`, `depth`, `size` with cursor, over prefix lists; function semantics arbitrary | induction on rose trees, fuel sufficiency |
| C03, C04 | `random_subtree`, `_get_subtree_by_root`, `_find_subtree_end`, `replace_subtree` | prefix-code (parsing) lemma, context decomposition |
| C05, C06 | `SubtreeCrossover` on lists of trees | loop invariant over the cyclic swap, `List.Perm` for conservation |
| C07, C08 | `SubtreeMutation`, `GrowCreator`, `random_terminal`, `random_function` | induction on remaining depth; typed case false with ERC |
| C09, C62 | `ERCMutation` | pointwise list invariants |
| C10–C12 | creators | induction on remaining depth; counting |
| C13 | `add_tree`, `_should_add` | refutation for typed trees; exact in untyped mode |
| C14, C15 | `execute` argument checks, `create_terminal_set`, `generate_args` | set reasoning; refutation for constants |
| C16, C17 | `VectorKPointsCrossover` | invariant over the swap loop; refutation for k ≥ 2, exact for k = 1 |
| C18–C22, C63–C66 | GA vectors, creators, mutations | invariants over all tapes |
| C23–C25 | fitness classes | order reasoning; history induction |
| C26–C29 | selections | loop invariants, stable-sort lemmas, distribution algebra over ℝ; proportionality false |
| C30 | heap of individuals | history invariant |
| C31–C35, C39, C72 | breeder, evaluator, algorithm loop on the heap | loop invariants (`wlp`/`tri`), permutation invariance |
| C36, C37, C40, C41 | evolve loop, termination | induction on generations, exact course of a run |
| C38 | the same loop | simulation between worlds that differ in ids, addresses and old individuals |
| C42–C47, C67, C68 | checkers, publisher, failable, operators, subpopulation | induction on histories, decision logic, binary64 rounding for C68 |
| C48–C56, C69, C70 | NSGA-II: fitness, sorting, crowding, breeder, run, statistics | order reasoning, counter invariants, loop invariants |
| C57, C59, C71 | `__getstate__`/`__setstate__`, `get_params`/`set_params` | dictionary algebra |
| C58, C60 | classification evaluator, sklearn wrapper | real analysis (sigmoid), case analysis |
| C61, C73, C74 | typed and untyped base functions with numpy broadcasting | for every rounding function |
| C75, C76 | creators and operators of the library as components of the evolve loop | run invariant, per-operator invariants |
| C77, C78 | the numeric base functions and `execute` | item semantics; relational induction on programs |
| C79 | `NSGA2Fitness` | case analysis |
| C80 | the evolve loop with the library's components | total-correctness rules (`wp`) with a run invariant; totality of each component |
| C81 | `Tree.__str__`, `_str_rec`, `SimpleEvolution.finish` | induction on programs; unique reading of the notation; counterexample and a general failure theorem for runs |
| C82 | the NSGA-II loop with the library's components | total-correctness rules with a run invariant; totality of front sorting (C50) and of each component |
| C83 | the NSGA-II loop with the set iteration order as a parameter | counterexample; canonical result of front sorting without ties, lifted to runs through the event log |
| C84 | two calls of `NSGA2Evolution.evolve` | counterexample, and the exception for all runs of sound configurations |
| C85 | grow, full, half-and-half with `random_function`, `random_terminal` and the ERC draws | a calculus of reachable results (`Py/Reach`), induction over the tree, and the converse by the postcondition rules |
| C86 | vector creation and the mutation classes | reachable results; induction over the number of differing cells |
| C87 | `random_subtree`, subtree mutation, subtree crossover | counterexample; reachable results one way and the postcondition rules the other give the exact set of outcomes |
| C88 | `evolve` with the tree creators and operators of the library | counterexample run; the run invariant of C75 with well-typedness, preserved by each operator |
| C89 | as C88 | features: the operators add no root function, so the run invariant holds for every set of roots; the log only grows, which identifies the first event |
| C90 | as C88 | counterexample run; the run invariant with a predicate on terminals, for creators through the draws of `random_terminal` |
| C91 | `evolve` with `recordBest`, `recordWorst`, the population evaluator and `get_worst_individual` | invariant through the run: `tri` over breeding, evaluation and the main loop, first-best from the evaluator, first-worst from C46 |
| C92 | `evolve`, `clone`, `apply_operator`, `select` with the informational attributes (`Papers`) | refuted by a run of two generations; `tri` over breeding (what each part does to the papers), chronicle of the run, induction over the points of the log |
| C93 | as C92 | refuted by the same run; from the chronicle: groups of neighbours after breeding |
| C94 | as C92 | induction over the points of the log with `Traces` |
| C95 | `write_statistics` of the three classes on the data of the event (`writeStatistics`), `evolve` | from C91's invariant (settled population at every event) and C46; refuted by a run with bloat weight 1 |
| C96 | constructors of operators and creators, `_assert_arity`, `act`, `publish` (`Oper`) | from C43 by induction over the history of calls; refuted by an operator with a list of events |
| C97 | `evolve` with its events | compositional: `Emits` for computations with one sequence, `EmitsOne` for the main loop; refuted by the example run |
| C98 | constructors of the tree creators and `create_individuals` (`CreatorObj`, `HalfObj`), `GAVectorCreator` | contract `Stocks` for `create_individuals`, composed along half-and-half; refuted by a `HalfCreator` with bloat weight 1/2 |
| C99 | `BeforeAfterPublisher.__init__` with `events` (`restore`), `register`, `unregister` | induction over the history; refuted by one registration |
| C100 | `evolve` of two algorithm objects one after the other (`Run.resumedWith`) and of one | self-simulation of everything in the main loop under erasing generation numbers (`Ageless`), idempotence of evaluation, cutting the main loop; refuted by a run whose genomes get worse |
| C101 | whole runs with library creators, selections and operators | a key set is closed under the operators (`Lib.confined` facts), carried through the run by `Desc` (every genome seen satisfies a predicate of the initial event) |
| C102 | `initialize`'s registration, `evolve` and delivery of `after_generation` to the registry (`evolveReporting`), save/load (`Run.reloaded`) | count of a callback in the registry is an invariant (`Sound`); events of a run from C97/C36; refuted by two runs |
| C103 | `publish` with callbacks that act on the publisher (`publishLive`, `iterate`), Python's dict iteration (size check) | induction over the subscribers still to be visited; refuted by a one-shot subscriber |
| C104 | `SimpleEvolution.__init__`, `Algorithm.__init__` and its validations, by kinds of arguments | case analysis with induction over lists; refuted by two sub-populations |
| C105 | `evolve` with seeds | C38's seed of each generation, a bound on generation numbers by invariant, modular arithmetic; refuted by seeds 42 and 43 |
| C106 | references kept by constructors, default objects (`construct`, `touchAll`) | induction over constructor calls: references agree only if both omitted; refuted by two trees |
| C107 | `RegressionEvaluator`, `SKRegressor.fit`/`predict` over `evolve`, any meaning of the nodes and any metric | invariant that every fitness recorded in the log is the error of its program, with C35's best of all; refuted by a run with `bloat_weight = 1/10` |
| C108 | `evolve`, elites and operators of `SimpleBreeder`, `IdentityTransformation` | best_of_run_: C35; population: the elites contain the best, operators that retain a level, invariant on the log and the population; refuted by an operator that halves |
| C109 | `evolve` with `threshold` as its checker | C36's course of the consultations, C35's best and the values recorded in the log; refuted by a fitness that jumps over the target |
| C110 | `evolve` with the tree creators and tree operators | depth of a filled context, what each operator makes of trees of depth `B`, carried through the chunks of an operator, the list of operators and the generations (`Lemmas/Stages`); refuted by a run with crossover; the doubling from C87's characterisation of crossover |
| C111 | `act` with the attribute `applied_individuals` | exact value after the attempts (induction on their number), an invariant over sequences of calls; refuted by three calls of an identity transformation |
| C112 | `fit`, `score` of a classifier around `evolve` | `best_objective` (C35 with the fitness as a function of the genome) for the accuracy; refuted by the default direction |
| C113 | `predict` of a classifier | C58's range of the labels; the root of an executed tree; counting for the score; refuted by the labels 1 and 2 |
| C114 | `evolve` of NSGA-II with genomes and objectives | copies of the parents are in the pool (contract: operators change the genomes of their arguments only), each objective's best value of the first front has infinite crowding, at most two individuals per objective have it (counting the ends of the listings), C50's cut; invariant over the log, induction on the distance of two events; refuted by a population of two |
| C115 | `evolve` with its event log | invariant over the run: all events so far and the current population show individuals whose fitness is that of their genome; breeding is covered by the evaluation that follows it |
| C116 | `TournamentSelection.select`, `random.choices`, `random.sample` | draws and tournaments correspond one to one; exchanging two individuals in a tournament maps the wins of the less fit into those of the fitter (injectively); the tournaments won by a class are those among it and the less fit minus those among the less fit |
| C117 | `evolve` with its event log, `find_individual_subpopulation` | invariant: everything shown so far is older than the heap, breeding returns references that are not (contract of selections and operators); logs split at the end of a breeding step |
| C118 | `applyOperator` and its first random number | case split on the draw; the draws that apply the operator are counted with the floor function; `C118_refuted` with a draw of 0.0 |
| C119 | `createVector`, `defaultCellSelector`, `npApply bitFlipOne`, `kPointApply` on a generator with given next draws | draws and outcomes are put into a one-to-one correspondence (for k cut points: k! draws for each set, by counting permutations) |
| C120 | `randomSubtree` on a generator with a given next draw | the draw determines a qualifying node, the lookup finds its first copy (`cut_at` of C87); draws are counted as positions of the node in the list; `C120_refuted` with add(neg(x), neg(y)) |
| C121 | the evolve loop, with evaluators and checkers that may raise | simulation: the run is the same as with an evaluator that answers 0 and checkers that answer "no" where the given ones raise, until one of these exceptions is raised (`Until`, Lemmas/Tamed); C80 applies to the latter run |
| C122 | the evolve loop with any list of sub-populations | `initialize` reaches the population evaluator, which raises: exact outcome of `evolve` in terms of creation |
| C123 | the evolve loop run twice, with two evaluators whose values are related by a strictly monotone function | simulation on states whose fitness objects have a suitable bloat weight (`SimOn`, `Scale`, Lemmas/Rescale); selection, elitism and statistics compare fitness only through `better_than` and sorting; refuted with a bloat weight by a computed run |
| C124 | the evolve loop with two limits of generations and two sets of checkers | nothing but `should_terminate` looks at checkers (`Unchecked`), induction over the main loops side by side (`CutShort`); with C35 for the best of run |
| C125 | the NSGA-II loop run twice, with evaluators that differ in the units of the objectives | simulation (`Sim`) through front sorting, breeding, evaluation and the loop: domination and sorting are kept by increasing maps, gaps divided by ranges by linear ones; nonlinear counterexample computed |
| C126 | the NSGA-II loop | wlp through the loop: tags published by each step (`MGoes`), induction over generations with the list of checkpoints (`MLoops`) |
| C127 | the NSGA-II loop with and without a checker | both loops unfold to the same step (`mstep`); induction over generations (`LoopEnds`), composition of loops (`mloop_continues`) |
| C128 | the NSGA-II loop with evaluators and checkers that may raise | as C121: the run is compared with the run whose evaluator and checkers are tamed (`Until`), which completes by C82 |
| C129 | the loop on a state with a record of the calls of the evaluator (`Model/Counted.lean`) | simulation (`Sim`) with the run without the record; wlp: the record is accounted for by the events (`Accounts`); with C36 and an invariant about the sizes of populations (`Steady`) the calls are counted |
| C130 | the NSGA-II loop on a state with a record of the calls of the evaluator (`Model/MooCounted.lean`) | simulation (`Sim`) with the run without the record; wlp: the record is accounted for by the events (`MAccounts`); the invariant of C53 extended by the number of calls; C82 for the runs that complete |
| C131 | the loop, creators, operators and execution over two representations of genomes | simulation under an invariant (`SimOn`) of every function by the one over the other representation; renamings are injective and keep signatures |
| C132 | the loop, the vector creator, crossover and mutations | C131 for the conversion of cells and bounds; every draw within bounds commutes with the conversion |
| C133 | the distribution computed by fitness-proportionate selection, over exact reals | refuted: softmax is not invariant under scaling; the odds under scaling and the invariance under shifts are proved from C29 |
| C134 | the NSGA-II loop, creators and operators over two representations of genomes | simulation under an invariant (`SimOn`) of every function of the multi-objective loop, reusing the simulations of C131 and C132 for creators and operators |
| C135 | the NSGA-II loop with NSGA2Breeder and the library's crossovers | the run equals one whose creator returns the given population; to that run C82 is applied with "all features occur in the initial population" as part of the invariant |
| C136 | the NSGA-II loop over a heap of individuals | refuted by a run; invariant "whatever has objectives has those of its genome" through cloning, resetting, operators, selection, evaluation and sorting |
| C137 | the whole run over the heap of individuals; n-point mutations a second time, statement by statement on the individuals (`MutationSteps`) | a relational logic (`Py/Rel`): started in states equal up to labels, both sides raise the same or end in such states; proved for every part of a run, and between the two models of the mutations |
| C138 | the OneMax script: its sub-population and algorithm as data, its numbers as parameters | instance of C80 (it returns), C76 (cells stay 0 or 1), C35 and C109 |
| C139 | the constructor's check on Python values abstracted to int, float, other, tuple | case analysis; refuted by one item |
| C140 | the evaluator's loop over the cells; the knapsack script | induction over the cells; C35's best over the log, C80 for completion |
| C141 | the evaluator on columns (functions of the row) and on scalars; the multiplexer script | mutual induction over programs relates the columns to the rows; C14, C75, C80, C35, C109; refuted by a run from given trees |
| C142 | `create_tree` and `_add_children` with a bound on nested calls | induction on the bound; refuted for all root functions |
| C143 | the two evaluators over the reals | both objectives are compared through a strictly growing function; refuted by `[0, 1]` |
| C144 | `_handle_input_types`, the full and grow methods | structural induction over the depth, for all tapes; refuted by an accepted configuration from which no tree of depth two can be made |
| C145 | the constructor `SimpleEvolution(**kw)` as a function from keyword arguments to attributes, and `set_params` | case analysis over the parameters and attribute maps that agree; refuted by setting `random_seed`, `executor`, `statistics` |
| C146 | `sklearn.base.clone`: `get_params`, a copy of every parameter, the constructor | the copy of objects that hold no executor is a new object with the same content; refuted by an estimator that has been fitted |
| C147 | the evaluator over the reals | distances to the two corner points split into the distance from the mean and the position of the mean; a vector that is not constant is worse than its mean |
| C148 | the evaluator over the reals, maximised | a vector with a cell strictly inside can be improved by growing or shrinking it; refuted by the vector of ones for every length |
| C149 | `_evaluate` with `"submit"`, `evaluate`, `set_fitness` with an individual | invariant over the tasks done, in any order: whoever has been done has a fitness; refuted for every configuration |
| C150 | the evaluation in other processes, with the random generators of the workers, in a copy of the run | the evaluation step is the same function for evaluators that do not draw, hence the run is; refuted by two runs that differ |
| C151 | `SimpleEvolution` runs with a stream of draws per seed, tournament selection, all library operators | everything before the last application of the last operator reads a prefix of the stream, so that it can be continued as needed; what the mutations can make is C86 and C87; the rest of the run completes by C80 |
| C152 | the vector creators, crossover and mutations in runs | invariant of runs: legal and whole |
| C153 | the example as a configuration of `SimpleEvolution` with the library's float vector creator and mutation | invariant of runs: all cells are less than 1, from the range of `uniform(0, 1)`; the threshold checker then never answers yes |
| C154 | `fit` and `predict` with the numeric functions on arrays of floats with any rounding and overflow, the evaluator, scikit-learn's check of the data | the output of every legal program exists (C73) and is finite without overflow, so that C80 and C121 apply; refuted by a configuration whose programs all overflow on the sample |
| C155 | `fit`, `predict` and `score` of regressors and classifiers around a `SimpleEvolution` run with a target | C109 for the run, and C107, C112 and C113 for what the best individual predicts; refuted by a run with bloat control |
| C156 | as C114: whole runs of `NSGA2Evolution` with `NSGA2Breeder` | the events of the log (C126) are followed from each evaluation to each later end of a generation with C114's step and the transitivity of domination; refuted by a concrete run of three generations |
| C157 | `random_function`, `random_terminal` and the full method, reading draws | the sequences of draws that make a program are exactly those that pick each of its nodes (induction on the depth, both ways), and they are counted; refuted with a unary and a binary function |
| C158 | the grow method, reading draws; `random()` on a grid | as C157, with the draws that decide between a function and a terminal counted separately |
| C159 | `evolve` with exceptions of the evaluator and of the checkers, called a second time | each step of a run ends well or leaves a state in which `evolve` can be called (evaluation keeps genomes and directions, checkers keep their states legal); refuted with a run of vectors without elites |
| C160 | `NSGA2Evolution.__init__`, arguments classified by the `isinstance` tests made | case analysis, by reduction to C104; refuted with `breeder=None` |
| C161 | NSGA-II's `evolve` with exceptions of the evaluator and of the checker, called a second time | each step ends well or leaves an unevaluated population of n or 2n individuals or an evaluated one of n; runs of sound configurations started from an unevaluated population; C84 for the evaluated one; refuted with both kinds of exceptions |
| C162 | the comparison of scores, the loops for the best individual and for tournaments, and the run loop over arbitrary populations, for floats with infinities and NaN (`Score`) | induction over individuals and generations with what is known of the best of the run; refuted with NaN in front of the initial population and of a later one; refinement to the loop of the main model |
| C163 | dominance and the domination counters for objectives with infinities and NaN (`Score`) | induction over the pairs that are counted; refuted with a population of two |
| C164 | the evaluator of the symbolic regression examples, untyped and typed, over the numeric functions with rounding and overflow (`SymbolicRegression`), the run loop of `Score` | C73 for execution, sums of non-negative numbers, C162 for the run; refuted with repeated squaring, which overflows at 99 but not at 0 |
| C165 | `SKClassifier.fit`, `predict`, `score` with the numeric functions on arrays of floats with any rounding and overflow (`FloatClassify`), scikit-learn's accuracy and its rejection of continuous targets | the output of every legal program exists (C73), its labels are in range (C58), so that evaluation never raises and C80 applies; best_objective for the score; C121 for continuous targets |
| C166 | `nsga2Breed`, `tournamentM`, `mevolve` (`NSGA2Evolution`) | selection of `len(source)-len(dest)` individuals is none once the destination has 2N; congruence of the run under the size invariant of C53; refuted with two individuals and a tournament of both |
| C167 | pairs of methods and probabilities on top of `Evolution` and `NSGA2Evolution` | congruence of `evolve` in the breeding function; refuted with a random selection of probability 0 before a tournament |
| C168 | the functions of GP trees with the types of numpy arrays (`Dtypes`) | every call keeps a promise about type, shape and rows; induction on programs against a static inference of types; refuted with a difference of two conjunctions |
| C169 | the creators and operator objects of `Library` and `NSGA2Library` against the rules for genomes in `Vector` and `GPOperators` | refinement: same outcome, same draws, genomes equal, frame condition for all other individuals; induction on the number of individuals and on the depths of half-and-half |
| C170 | `elitesM`, `lexLe` (`NSGA2Evolution`), `Fit.dominate` (`NSGA2`) | stable sort with a total, transitive comparison of lists; Pareto domination implies lexicographic precedence when all directions agree (induction on the number of objectives); refuted with two individuals and directions (max, min) |
| C171 | typed_multiplexer.py (`TypedMultiplexer`), over the run of `Evolution` and the truth table of `Examples` | column-wise execution equals row-wise execution (mutual induction on programs); counting rows; C80, C75, C109 for the run; refuted with a run that starts from a tree wrong for eight inputs |
| C172 | `NSGA2Plot` as a subscriber of the run of `NSGA2Evolution` (`NSGA2Plot`) | the invariant of C114, extended by the objectives at the events of the algorithm; C55 for the front; refuted with the default breeder |
| C173 | `random_terminal` with an ERC range, `get_random_numeric_node` (`Tree`) | counting the draws, as in C157 |
| C174 | whole NSGA-II runs (`mevolve`), `set_random_generator` reseeding before every generation, all operators of vectors and trees | the operators before the last one and the selection take whatever they need from the tape (`FreeM`: some tape makes them do what they did), the last mutation is steered to the target by C86/C87; the log is split at generation N, the part before is unchanged because only the tape of that generation's seed is replaced, the rest completes by C82 |
| C175 | `should_terminate` with a list of checkers (`MooCheckers`), in the runs of `NSGA2Evolution` | induction over the generations: the runs with the list and with a checker that has not said stop are in the same state; when the list answers, some checker of it gives the same answer |
| C176 | `should_terminate` with a list of checkers with state, in the runs of `SimpleEvolution` (`Evolution`) | generations neither look at the states of the checkers nor change them (as for C124); induction over the generations with the state of each checker in the list equal to its state alone |
| C177 | `BestFitnessStagnationTerminationChecker` on lists of objectives (`MooCheckers`), in the runs of `NSGA2Evolution` | negation proved for every sound configuration (`C177_raises`, witness in `C177_refuted`): the populations shown in generations 0 and 1 are non-empty and evaluated, so that the second answer is `TypeError`; `C177_partial` for runs without further generations. `mstagRun_answers` shows that the answers do not depend on which populations were seen before |

## 3. Trusted base

* Lean's kernel (4.33.0) and the definitions of Mathlib used in the statements (lists, ℚ, ℝ, `Real.exp`, ...).
* Axioms: every theorem of the manifest depends on a subset of `propext`, `Classical.choice`, `Quot.sound`
  (checked by the gate; the exact set per property is in section 4).  No `sorry`, no `native_decide`, no added axioms.
* The faithfulness of the hand-written model to the Python text.

Parts of the code that are modelled: see the comments of the definitions, which cite file and lines.  The modules are
`Node`, `Tree`, `Matrix`, `GPOperators` (GP encoding, creators and operators), `Vector` (GA encoding, creators and
operators), `Failable`, `Individual`, `Selection`, `FPSelection`, `Creation`, `Subpopulation`, `Evolution`,
`Termination`, `Publisher`, `Pickle`, `Classifier`, `Primitives`, `NSGA2`, `NSGA2Evolution`, `Library`, `NSGA2Library`, `Printing`, `Statistics`, `Operator`, `CreatorObjects`, `Reports`, `Notify`, `Construction`, `Sharing`, `Regression`, `Identity`, `Told`, `Classification`, `Membership`, `Counted`, `MooCounted`, `MutationSteps`, `Examples`, `Parameters`, `MooSubmit`, `Processes`, `FloatFit`, `Score`, `SymbolicRegression`, `FloatClassify`, `Dtypes`
, `TypedMultiplexer`, `NSGA2Plot`, `MooCheckers`.

Simplifications (also stated at the definitions):

* Numbers are exact rationals (exact reals in `FPSelection` and `Classifier`), except: C68 uses binary64 rounding,
  `Primitives` uses an arbitrary rounding function with infinities and NaN (signed zeros are identified), `Score` (C162)
  compares floats with infinities and NaN, crowding
  distances and ranks have an infinity.
* `deepcopy` copies the whole genome; genomes are values, node objects are not shared between trees.
* User-supplied code (evaluators, gene creators, observers, checkers) may draw random numbers and raise, but does not
  modify individuals; observers are passive.  C38 asks in addition that user code does not depend on ids and addresses.
* Worker tasks are atomic and share objects (thread executor); the pickling of tasks by the process executor is not
  modelled.
* The iteration order of a Python set is an arbitrary permutation.
* NSGA-II runs: one sub-population, genealogy attributes left out, `higher_is_better` of the sub-population is a bool.
* Pickling: objects shared inside the pickled structure are copied separately; executors cannot be pickled.
* Primitives: scalars and one-dimensional arrays; integer items behave like floats, except in bitwise operations.

Not modelled: numpy/pandas/sklearn internals beyond the above, printing other than the printed values, what matplotlib
draws with the numbers it is given, logging, wall-clock timing, Python's recursion limit, memory exhaustion.

## 4. Status per property

* **C01** (proved) Executing a GP tree evaluates the program it denotes.  `GP.C01_execute_denotes`, `GP.C01_trailing_ignored`.  Executing the listing of a program is its denotation; trailing nodes are ignored.  Axioms: Classical.choice, Quot.sound, propext.
* **C02** (proved) depth() and size() report the true depth and node count.  `GP.C02_size`, `GP.C02_depth`, `GP.C02_depth_raises`.  Depth for function sets without nullary functions; with a nullary function depth() raises (theorem).  Axioms: Classical.choice, Quot.sound, propext.
* **C03** (proved) A random subtree is a complete, contiguous subprogram.  `GP.C03_randomSubtree`, `GP.C03_randomSubtree_typed`.  Axioms: Classical.choice, Quot.sound, propext.
* **C04** (proved) Replacing a subtree keeps the tree a legal program.  `GP.C04_replaceSubtree`, `GP.C04_replaceSubtree_typed`.  Axioms: Classical.choice, Quot.sound, propext.
* **C05** (proved) Subtree crossover always yields legal programs.  `GP.C05_crossover_legal`, `GP.C05_crossover_typed`, `GP.C05_crossover_unmatched`, `GP.C05_crossover_arity`.  Axioms: Classical.choice, Quot.sound, propext.
* **C06** (proved) Subtree crossover neither creates nor loses genetic material.  `GP.C06_crossover_conserves`.  Axioms: Classical.choice, Quot.sound, propext.
* **C07** (proved) Subtree mutation always yields a legal program.  `GP.C07_mutation_legal`.  Axioms: Classical.choice, Quot.sound, propext.
* **C08** (partial) Strongly-typed evolution preserves types.  `GP.C08_creation_typed_partial`, `GP.C08_mutation_typed_partial`, `GP.C08_untyped`, `GP.C08_refuted`.  False in general (C08_refuted: a float ERC in an int slot); proved when the ERC type is the only numeric type in use or there is no ERC range, and in untyped mode.  Axioms: Classical.choice, Quot.sound, propext.
* **C09** (proved) ERC mutation changes one numeric constant per individual and nothing else.  `GP.C09_erc_mutation`, `GP.C09_erc_mutation_builtin`, `GP.C09_equal_numbers`, `GP.C09_shape`.  Numeric terminals are ordinary numbers (int, float, bool); C09_erc_mutation_builtin says which values they have without reference to the model.  Axioms: Classical.choice, Quot.sound, propext.
* **C10** (proved) The full method creates perfect-depth trees.  `GP.C10_full`, `GP.C10_full_returns`.  Axioms: Classical.choice, Quot.sound, propext.
* **C11** (proved) The grow method respects the depth window.  `GP.C11_grow`, `GP.C11_grow_returns`.  Axioms: Classical.choice, Quot.sound, propext.
* **C12** (proved) Ramped half-and-half creates exactly the requested population.  `GP.C12_half`, `GP.C12_half_too_small`, `GP.C12_half_returns`.  Axioms: Classical.choice, Quot.sound, propext.
* **C13** (partial) Incremental tree construction enforces the type constraints.  `GP.C13_addTree_partial`, `GP.C13_refuted_root`, `GP.C13_refuted_deep`, `GP.C13_refuted`.  False for the root of a typed tree and for slots below the second level; exact for arguments of the root and in untyped mode.  Axioms: Classical.choice, Quot.sound, propext.
* **C14** (partial) execute accepts exactly the documented keyword arguments.  `GP.C14_execute_kwargs_partial`, `GP.C14_refuted`.  False for constants: a constant in the terminal set makes every call fail.  Axioms: Classical.choice, Quot.sound, propext.
* **C15** (proved) Terminal sets derived from a data matrix match execution on matrices of that width.  `GP.C15_matrix`, `GP.C15_matrix_typed`.  Axioms: Classical.choice, Quot.sound, propext.
* **C16** (proved) K-point crossover conserves genes at every locus.  `GA.C16_genes_conserved`, `GA.C16_bounds_preserved`, `GA.C16_too_many_points`.  Axioms: Classical.choice, Quot.sound, propext.
* **C17** (partial) K-point crossover exchanges exactly the alternate segments.  `GA.C17_refuted`, `GA.C17_segments_partial`, `GA.C17_one_point_partial`, `GA.C17_actual_segments_partial`.  False for k >= 2: start_idx is never advanced; proved for k = 1, and the actually exchanged segments are characterised for every k.  Axioms: Classical.choice, Quot.sound, propext.
* **C18** (proved) Created vectors have the configured length and respect the bounds.  `GA.C18_created_in_bounds`, `GA.C18_illegal_bounds_rejected`, `GA.C18_constructor`.  Axioms: Classical.choice, Quot.sound, propext.
* **C19** (proved) Vector mutations never leave the bounds.  `GA.C19_mutations_keep_bounds`.  All eight mutation classes.  Axioms: Classical.choice, Quot.sound, propext.
* **C20** (partial) N-point mutation touches at most n cells.  `GA.C20_at_most_n_cells`, `GA.C20_at_most_n_cells_each`, `GA.C20_bit_flip_exactly_one`, `GA.C20_refuted`.  True for one individual (all classes) and for several individuals with non-Gaussian classes; false for Gaussian mutation of several individuals at once.  Axioms: Classical.choice, Quot.sound, propext.
* **C21** (proved) A failed mutation attempt is rolled back.  `GA.C21_rejected_rolled_back`, `GA.C21_single_unchanged`, `GA.C21_on_fail_sees_original`.  Axioms: Quot.sound, propext.
* **C22** (proved) Vector part replacement is reversible and length preserving.  `GA.C22_replace_part`, `GA.C22_replace_part_reversible`, `GA.C22_replace_part_random`, `GA.C22_random_part`, `GA.C22_get_part`, `GA.C22_length_attribute`, `GA.C22_cells`.  Axioms: Classical.choice, Quot.sound, propext.
* **C23** (proved) Fitness comparison is a strict weak order.  `Evo.C23_better`, `Evo.C23_equal`, `Evo.C23_irrefl`, `Evo.C23_asymm`, `Evo.C23_trans`, `Evo.C23_trichotomy`, `Evo.C23_ties_trans`, `Evo.C23_unevaluated`, `Evo.C23_individuals`.  Axioms: Classical.choice, Quot.sound, propext.
* **C24** (proved) Bloat control only ever favours the smaller of equally fit trees.  `Evo.C24_smaller`, `Evo.C24_zero`, `Evo.C24_monotone`.  Axioms: Classical.choice, Quot.sound, propext.
* **C25** (proved) A stale fitness value can never be read.  `Evo.C25_no_stale_fitness`, `Evo.C25_evaluated_flag`.  Axioms: Classical.choice, Quot.sound, propext.
* **C26** (proved) Tournament selection fills the population with tournament winners.  `Evo.C26_fills`, `Evo.C26_tournament`, `Evo.C26_too_small`.  Axioms: Classical.choice, Quot.sound, propext.
* **C27** (proved) Elitism selection takes the best.  `Evo.C27_elitism`.  Axioms: Classical.choice, Quot.sound, propext.
* **C28** (proved) Fitness-proportionate selection uses a valid distribution that favours fitter individuals.  `Evo.C28_distribution`, `Evo.C28_no_division_by_zero`, `Evo.C28_favours_fitter`, `Evo.C28_negative`, `Evo.C28_probability`, `Evo.C28_select`, `Evo.C28_not_a_number`, `Evo.fitnessProportionate_good`, `Evo.fitnessProportionate_fills`.  Exact reals; the sum check of np.random.choice is exact.  Axioms: Classical.choice, Quot.sound, propext.
* **C29** (partial) Fitness-proportionate selection is proportional to fitness.  `Evo.C29_refuted`, `Evo.C29_normalised_partial`, `Evo.C29_exponential_partial`.  False of the code: the probabilities are the softmax of the scores unless the scores sum to one.  Axioms: Classical.choice, Quot.sound, propext.
* **C30** (proved) Individual ids are unique and clones are independent.  `Evo.C30_ids_unique`, `Evo.C30_clone`, `Evo.C30_clone_total`, `Evo.C30_independent`.  Genomes are values in the model: deepcopy is assumed to copy the whole genome.  Axioms: Classical.choice, Quot.sound, propext.
* **C31** (proved) Breeding preserves population size.  `Evo.C31_size`, `Evo.C31_succeeds`, `Evo.C31_not_divisible`, `Evo.C31_all`.  Axioms: Classical.choice, Quot.sound, propext.
* **C32** (partial) Elites are carried over unchanged.  `Evo.C32_refuted`, `Evo.C32_selected_partial`, `Evo.C32_no_operator_partial`.  False: operators are applied to elites as well. Proved: the selected list starts with clones of the elites; they survive if no operator fires.  Axioms: Classical.choice, Quot.sound, propext.
* **C33** (proved) Population evaluation is independent of worker scheduling.  `Evo.C33_evaluated`, `Evo.C33_schedule`, `Evo.C33_raises`.  Executor.map with every order of the tasks; tasks are atomic.  Axioms: Classical.choice, Quot.sound, propext.
* **C34** (partial) Both executor methods give the same evaluation.  `Evo.C34_refuted`, `Evo.C34_submit_raises_partial`.  False of the code: submit stores the individual itself as fitness, the first comparison raises TypeError.  Axioms: Classical.choice, Quot.sound, propext.
* **C35** (proved) best_of_run_ is the best individual ever evaluated.  `Evo.C35_always`, `Evo.C35_end`.  One sub-population, operators/selection/creators meeting their contracts, arbitrary evaluator, also when the run raises.  Axioms: Classical.choice, Quot.sound, propext.
* **C36** (proved) The run executes the right number of generations and publishes the right events.  `Evo.C36_course`, `Evo.C36_one_checker`.  Exact event sequence, generations and consultations of every run that returns.  Axioms: Classical.choice, Quot.sound, propext.
* **C37** (partial) final_generation_ reports the generation in which the run ended.  `Evo.C37_refuted`, `Evo.C37_stopped_partial`, `Evo.C37_exhausted_partial`.  False of the code: final_generation_ stays None when max_generation is reached; true when a checker stops the run.  Axioms: Classical.choice, Quot.sound, propext.
* **C38** (proved) Runs are reproducible from their seed.  `Evo.C38_reproducible`, `Evo.C38_fresh`, `Evo.C38_any_schedule`, `Evo.C38_generation_seeds`, `Evo.C38_streams`, `Evo.C38_resume`, `Evo.tournament_uniform`, `Evo.elitism_uniform`, `Evo.fitnessProportionate_uniform`, `Evo.inPlace_uniform`, `Evo.createIndividuals_uniform`, `Evo.halfCreate_uniform`, `Evo.threshold_uniform`, `Evo.stagnation_uniform`, `Evo.C38_loop_streams`.  User-supplied creators, operators, selection methods and checkers must not depend on ids or addresses (shown for those of the library).  Axioms: Classical.choice, Quot.sound, propext.
* **C39** (partial) Reproducibility does not depend on thread timing.  `Evo.C39_refuted`, `Evo.C39_deterministic_partial`.  False for evaluators that draw random numbers; true for all other evaluators.  Axioms: Classical.choice, Quot.sound, propext.
* **C40** (proved) Every termination checker in a list is consulted every generation.  `Evo.C40_all_consulted`.  Every checker of the list is asked with its own state at every generation.  Axioms: Classical.choice, Quot.sound, propext.
* **C41** (proved) Stagnation checker fires exactly after the configured number of stagnant generations.  `Evo.C41_stagnation`, `Evo.C41_exact`, `Evo.C41_run`, `Evo.C41_raises`.  Axioms: Classical.choice, Quot.sound, propext.
* **C42** (proved) Threshold and crowding checkers decide exactly their condition.  `Evo.C42_threshold`, `Evo.C42_threshold_unevaluated`, `Moo.C42_crowding`.  Axioms: Classical.choice, Quot.sound, propext.
* **C43** (proved) Event subscription works like a registry.  `Pub.C43_publish`, `Pub.C43_unknown_event`, `Pub.C43_ids`, `Pub.C43_unregister`, `Pub.C43_register`, `Pub.C43_isolated`.  Axioms: Quot.sound, propext.
* **C44** (proved) Failable operators retry at most `attempts` times.  `Failable.C44_first_success`, `Failable.C44_all_fail`, `Failable.C44_attempt_raises`, `Failable.C44_cases`, `Failable.C44_calls`, `Failable.C44_attempts`, `Failable.C44_operators`.  Axioms: Quot.sound, propext.
* **C45** (proved) Applying a genetic operator invalidates fitness and records the operator.  `Evo.C45_fires`, `Evo.C45_handed_over`, `Evo.C45_skips`, `Evo.C45_probability`, `GA.C45_vector_mutations`, `Moo.C45_moo_fires`, `Moo.C45_moo_skips`, `Evo.C45_identity`.  C45_fires: operators working in place; C45_handed_over: the Gaussian mutations, whose fallback to the uniform mutation is applied (and recorded) as an operator of its own before the Gaussian one is recorded; C45_vector_mutations: what the mutation objects do to the genomes is what the mutations of C19, C20 and C86 do.  Axioms: Classical.choice, Quot.sound, propext.
* **C46** (proved) Best, worst and average queries agree with the fitness order.  `Evo.C46_best`, `Evo.C46_worst`, `Evo.C46_same_as_evaluator`, `Evo.C46_unevaluated`, `Evo.C46_empty`, `Evo.C46_average`.  Axioms: Classical.choice, Quot.sound, propext.
* **C47** (proved) Subpopulation construction validates its arguments.  `Evo.C47_construction`, `Evo.C47_default_pcr`, `Evo.C47_elites`, `Evo.C47_existing`, `Evo.C47_creation`, `Evo.C47_size`.  Float arithmetic of the sum is a parameter; default probabilities: C68.  Axioms: Classical.choice, Quot.sound, propext.
* **C48** (proved) Pareto domination is a strict partial order.  `Moo.C48_dominate`, `Moo.C48_unevaluated`, `Moo.C48_strict_order`.  Axioms: Classical.choice, Quot.sound, propext.
* **C49** (proved) NSGA-II front ranks are the Pareto layers.  `Moo.C49_survivor`, `Moo.C49_layers`, `Moo.C49_frame`, `Moo.C49_order_independent`.  Set iteration order is an arbitrary permutation.  Axioms: Classical.choice, Quot.sound, propext.
* **C50** (proved) NSGA-II survivor selection keeps the best fronts and the right number.  `Moo.C50_terminates`, `Moo.C50_size`, `Moo.C50_survivors`, `Moo.C50_cut`.  Axioms: Classical.choice, Quot.sound, propext.
* **C51** (proved) Crowding distance is infinite on extremes and non-negative elsewhere.  `Moo.C51_crowding`, `Moo.C51_extremes`, `Moo.C51_bounds`.  Exact rational arithmetic.  Axioms: Classical.choice, Quot.sound, propext.
* **C52** (partial) The crowded comparison prefers lower front rank.  `Moo.C52_refuted`, `Moo.C52_same_rank_partial`, `Moo.C52_reversed_partial`, `Moo.C52_trichotomy_partial`.  False of the code: the higher front rank is the better one; true on equal rank.  Axioms: Classical.choice, Quot.sound, propext.
* **C53** (proved) NSGA-II keeps the population size constant.  `Moo.C53_size`, `Moo.C53_doubled`.  One sub-population; operators, selection method, creator and evaluator meeting their contracts (shown for in-place operators and tournament selection).  Axioms: Classical.choice, Quot.sound, propext.
* **C54** (partial) NSGA-II works with its default arguments.  `Moo.C54_refuted`, `Moo.C54_halves_partial`, `Moo.C54_dies_partial`, `Moo.C54_default_checker_partial`.  False of the code: the default breeder leaves n/2^g individuals after g generations and the run then fails; the default termination checker raises TypeError.  Axioms: Classical.choice, Quot.sound, propext.
* **C55** (proved) best_of_gen of NSGA-II is the Pareto front.  `Moo.C55_pareto_front`.  Axioms: Classical.choice, Quot.sound, propext.
* **C56** (proved) Multi-objective corner statistics never fail on two objectives.  `Moo.C56_two_objectives`, `Moo.C56_last_rank`, `Moo.C56_unsorted`.  Axioms: Classical.choice, Quot.sound, propext.
* **C57** (partial) Pickling an algorithm preserves everything but the executor.  `Store.C57_refuted`, `Store.C57_refuted_fitness`, `Store.C57_constructed`, `Store.C57_restored_partial`, `Store.C57_iff_partial`, `Store.C57_values_partial`, `Store.C57_after_initialize_partial`, `Store.C57_without_executor_partial`, `Evo.C57_unpickled`.  False of the code: after initialize the population evaluator holds the executor and pickling raises TypeError; uncached fitness values are lost; before that the fields are preserved and the executor is recreated.  Axioms: Classical.choice, Quot.sound, propext.
* **C58** (proved) Sigmoid classification yields labels 0..n_classes-1 by equal-width bins.  `Clf.C58_methods`, `Clf.C58_range`, `Clf.C58_bins`, `Clf.C58_monotone`, `Clf.C58_any_rounding`, `Clf.C58_binary`, `Clf.C58_surjective`.  Exact reals; the label as a function of the rounded sigmoid is covered by C58_any_rounding.  Axioms: Classical.choice, Quot.sound, propext.
* **C59** (partial) get_params/set_params follow the sklearn contract.  `Store.C59_refuted`, `Store.C59_refuted_round_trip`, `Store.C59_get_params_partial`, `Store.C59_set_params_partial`.  False of the code: set_params sets attributes of the wrapped algorithm and replaces its executor.  Axioms: Classical.choice, Quot.sound, propext.
* **C60** (proved) Predicting uses the best evolved individual on the given data.  `Clf.C60_predict`, `Clf.C60_classify`, `Clf.C60_not_fitted`, `Clf.C60_refit`, `Clf.C60_root`.  The evolution and the execution of trees are parameters.  Axioms: Classical.choice, Quot.sound, propext.
* **C61** (proved) Protected primitives are total.  `Prim.C61_div`, `Prim.C61_bounded`, `Prim.C61_inv`, `Prim.C61_log`, `Prim.C61_sqrt`, `Prim.C61_conditionals`, `Prim.C61_lengths`.  For every rounding function; scalars and one-dimensional arrays.  Axioms: Classical.choice, Quot.sound, propext.
* **C62** (partial) Constants keep their declared type.  `GP.C62_refuted`, `GP.C62_float_constants_partial`.  False: an int constant becomes a float still annotated int; float constants stay floats.  Axioms: Classical.choice, Quot.sound, propext.
* **C63** (partial) Per-cell bounds work for every vector class and length.  `GA.C63_refuted`, `GA.C63_two_cells_raise_partial`, `GA.C63_bit_strings_partial`.  False: two-cell vectors and bit strings raise TypeError. Other cases: C18/C19.  Axioms: Classical.choice, Quot.sound, propext.
* **C64** (partial) The integer one-point mutation changes at most one cell.  `GA.C64_refuted`.  False: every cell is visited. The bounds are still kept (C19).  Axioms: Classical.choice, Quot.sound, propext.
* **C65** (partial) Vectors with default bounds can be initialised.  `GA.C65_refuted`, `GA.C65_int_default_always_raises_partial`, `GA.C65_float_bit_partial`.  False for IntVector: default bounds are swapped and every draw raises.  Axioms: Classical.choice, Quot.sound, propext.
* **C66** (partial) The generic n-point mutation works with its default arguments.  `GA.C66_refuted`, `GA.C66_default_getter_raises_partial`.  False: the default value getter always raises.  Axioms: Classical.choice, Quot.sound, propext.
* **C67** (partial) Subscribing without a callback has no effect on publishing.  `Pub.C67_refuted`, `Pub.C67_raises_partial`.  False of the code: the default callback is a set, so publishing raises TypeError after calling the earlier subscribers.  Axioms: Quot.sound, propext.
* **C68** (partial) Default creation probabilities are always accepted.  `Evo.C68_refuted_py311`, `Evo.C68_refuted_py312`, `Evo.C68_exact_partial`.  False of the code: six creators (CPython <= 3.11) or 49 creators (>= 3.12) are rejected because of float rounding; true with exact arithmetic.  Axioms: Classical.choice, Quot.sound, propext.
* **C69** (partial) Multi-objective statistics work for every number of objectives.  `Moo.C69_refuted`, `Moo.C69_two_objectives_partial`.  False of the code: with three objectives the assertion of get_corners may fail; true for two.  Axioms: Classical.choice, Quot.sound, propext.
* **C70** (partial) NSGA-II reports a non-dominated best individual.  `Moo.C70_refuted`, `Moo.C70_never_updated_partial`, `Moo.C70_lottery_partial`.  False of the code: best_of_run_ is set at initialisation only, by coin flips that ignore the objectives, and breeding modifies the object.  Axioms: Classical.choice, Quot.sound, propext.
* **C71** (partial) A fitted estimator survives pickling.  `Store.C71_refuted`, `Store.C71_restored_partial`.  False of the code: __getstate__ drops is_fitted_.  Axioms: Classical.choice, Quot.sound, propext.
* **C72** (partial) An algorithm can be evolved again.  `Evo.C72_refuted`, `Evo.C72_never_again_partial`, `Evo.C72_result_kept_partial`.  False: finish shuts the executor down, so the second evolve always raises RuntimeError.  Axioms: Classical.choice, Quot.sound, propext.
* **C73** (partial) Trees over the base functions run on every data set.  `Prim.C73_refuted`, `Prim.C73_numeric_partial`, `Prim.C73_argmax_partial`.  False because of argmax2floats with a constant; proved for trees over all other numeric functions but the logical functions of floats and ints, for which see C168.  Axioms: Classical.choice, Quot.sound, propext.
* **C74** (partial) Logical base functions compute logic.  `Prim.C74_refuted`, `Prim.C74_refuted_float`, `Prim.C74_truth_partial`.  False: bitwise operations; proved for truth values (f_and), integers (f_or), everything (f_not).  Axioms: Classical.choice, Quot.sound, propext.
* **C75** (proved) Genetic programming runs contain well-formed programs only.  `GP.C75_programs_legal`.  Selection: any method meeting the contract proved for those of the library.  Axioms: Classical.choice, Quot.sound, propext.
* **C76** (proved) Genetic algorithm runs contain in-bounds vectors only.  `GA.C76_vectors_legal`.  Selection: any method meeting the contract proved for those of the library; bounds that are a list of two pairs are excluded (C63).  Axioms: Classical.choice, Quot.sound, propext.
* **C77** (proved) Base functions compute what their names say.  `Prim.C77_meaning`, `Prim.C77_tiny`.  Argmax2floats: for arguments of one shape (C73); arithmetic on infinities and NaN is described by the model only; the arguments are numbers (for truth values see C168).  Axioms: Classical.choice, Quot.sound, propext.
* **C78** (proved) Executing a tree on columns is executing it on every row.  `Prim.C78_rows`.  Without argmax2floats, which raises when a constant meets a column (C73); trees with the logical functions of floats and ints are treated in C168_exact_partial.  Axioms: Classical.choice, Quot.sound, propext.
* **C79** (proved) Multi-objective fitness values are written once.  `Moo.C79_new`, `Moo.C79_write_once`, `Moo.C79_ready`, `Moo.C79_reset`, `Moo.C79_copy`, `Moo.C79_lengths`, `Moo.C79_stale_rank`.  Axioms: Quot.sound, propext.
* **C80** (proved) A well-configured run completes.  `Evo.C80_completes`, `GA.C80_vectors`, `GP.C80_programs`, `Evo.tournament_worksOn`, `GA.C80_vectors_checkers`, `GP.C80_programs_checkers`, `GP.C80_typed`.  Evolve up to and including the statistics and the shutdown of the executor, but without the final printing of the best individual; resource exhaustion is not modelled; programs: the half-and-half creator, full and grow methods over a function set and a terminal set that have a function and a terminal for every type in use; C80_typed and C144 say which of these conditions the setup checks.  Axioms: Classical.choice, Quot.sound, propext.
* **C81** (partial) Every legal tree can be printed, and its text shows the program.  `GP.C81_refuted`, `GP.C81_run_refuted`, `GP.C81_constant_raises`, `GP.C81_empty_raises`, `GP.C81_text_partial`, `GP.C81_typed_partial`, `GP.C81_faithful_partial`, `GP.C81_run_partial`, `GA.C81_run_vectors`.  False of the code: with a non-string constant in an untyped terminal set __str__ raises TypeError, so every run with such a set raises at its end; proved for terminal sets of variables and for typed trees.  Axioms: Classical.choice, Quot.sound, propext.
* **C82** (proved) A well-configured multi-objective run completes.  `Moo.C82_completes`, `Moo.C82_vectors`, `Moo.C82_programs`, `Moo.tournamentM_worksOn`.  Evolve without the final printing of the best individual; resource exhaustion is not modelled; programs: a function and a terminal for every type in use, and a tree creator of the user's that gives NSGA2Fitness objects, since the library's always give GPFitness (C98).  Axioms: Classical.choice, Quot.sound, propext.
* **C83** (partial) Multi-objective runs are reproducible from their seed.  `Moo.C83_refuted`, `Moo.C83_no_ties_partial`, `Moo.C83_sort_partial`, `Moo.C83_threads_partial`, `Moo.C83_seeded_partial`, `Moo.C83_loop_streams_partial`, `Moo.C83_streams_partial`, `Moo.C83_resume_partial`.  False of the code: the survivors among tied individuals depend on the iteration order of sets of individuals, which follows memory addresses; proved for runs without ties in the first objective, and for thread timing with evaluators that draw nothing.  Axioms: Classical.choice, Quot.sound, propext.
* **C84** (partial) A multi-objective algorithm can be evolved again.  `Moo.C84_refuted`, `Moo.C84_never_again_partial`, `Moo.C84_result_kept_partial`.  False: the population of the first run is still there and evaluated, so set_fitness raises AttributeError.  Axioms: Classical.choice, Quot.sound, propext.
* **C85** (proved) Tree creators create exactly the programs in their range.  `GP.C85_full`, `GP.C85_grow`, `GP.C85_half`.  The random generator is a tape of arbitrary draws; random() may return every rational in [0,1).  Axioms: Classical.choice, Quot.sound, propext.
* **C86** (proved) Vector creators and mutations cover the search space.  `GA.C86_created`, `GA.C86_one_application`, `GA.C86_connected`.  Float cells are rationals; bit vectors with the usual bounds (0, 1); Gaussian classes with sigma different from 0.  Axioms: Classical.choice, Quot.sound, propext.
* **C87** (partial) Subtree mutation and crossover can alter every part of a tree.  `GP.C87_refuted`, `GP.C87_choosable_partial`, `GP.C87_mutation_partial`, `GP.C87_mutation_anywhere_partial`, `GP.C87_crossover_partial`, `GP.C87_mutation_root_kept`, `GP.C87_crossover_root_kept`.  False of the code: the position of a sub-tree is looked up with list.index, which finds the first equal node, so of several equal nodes only the first can be chosen, and the root of a typed tree never; proved: exactly which positions can be chosen and exactly what mutation and crossover can produce.  Axioms: Classical.choice, Quot.sound, propext.
* **C88** (partial) Typed runs contain well-typed programs only.  `GP.C88_refuted`, `GP.C88_typed_partial`, `GP.C88_untyped`.  False of the code for ERC ranges that clash with another numeric type (cf. C08); proved for all other typed configurations and all untyped ones.  Axioms: Classical.choice, Quot.sound, propext.
* **C89** (proved) Typed evolution only selects among the roots of the initial population.  `GP.C89_roots_confined`.  Typed configurations with completely annotated functions and an ERC range that does not clash with another numeric type.  Axioms: Classical.choice, Quot.sound, propext.
* **C90** (partial) Programs are made of what the configuration offers.  `GP.C90_refuted`, `GP.C90_ingredients_partial`, `GP.C90_noise_partial`.  False of the code with ERC mutation, which moves constants out of the range and puts floats into int arguments; proved without ERC mutation, and with it for everything but the numeric constants.  Axioms: Classical.choice, Quot.sound, propext.
* **C91** (proved) best_of_gen and worst_of_gen are the best and the worst of the generation.  `Evo.C91_events`, `Evo.C91_end`.  Ordinary configurations: one sub-population, creators, selection and operators that respect the contracts proved for those of the library; C91_events also covers an event of generation 0, without best_of_gen; worst_of_gen is stated for the end of the run, because events do not carry it.  Axioms: Classical.choice, Quot.sound, propext.
* **C92** (partial) selected_by and applied_operators tell about the last generation.  `Evo.C92_refuted`, `Evo.C92_generation_partial`, `Evo.C92_record_partial`, `GP.C92_tree_names`, `GA.C92_vector_names`.  False as documented: the lists are never emptied and grow by one selection and one list of operators per generation; proved is exactly that, with gen and update_parents as stated, for operators that work on genomes and may hand over to others (all of the library's: GP.LibOp.discloses, GA.LibOp.discloses; the Gaussian mutations' fallback adds an entry of its own).  Axioms: Classical.choice, Quot.sound, propext.
* **C93** (partial) parents are individuals of the previous generation.  `Evo.C93_refuted`, `Evo.C93_parents_partial`, `Evo.C93_groups_partial`.  False of the code: the recorded ids are those of the clones the operator worked on, the individual itself included; proved is that they are exactly the own group's ids, once per applied operator (fallbacks included), and never ids of the previous generation.  Axioms: Classical.choice, Quot.sound, propext.
* **C94** (proved) cloned_from leads back to the initial population.  `Evo.C94_ancestry`.  Ordinary configurations with operators that work on genomes and may hand over to others (all of the library's).  Axioms: Classical.choice, Quot.sound, propext.
* **C95** (partial) The statistics write the best, worst and average fitness of each generation.  `Evo.C95_refuted`, `Evo.C95_lines`, `Evo.C95_subpopulations`, `Evo.C95_ordered_partial`.  The order of the numbers is false with bloat control, because the best individual is chosen by augmented fitness and its pure fitness is written; what is written is proved for all ordinary configurations, the order for runs without bloat control.  Axioms: Classical.choice, Quot.sound, propext.
* **C96** (partial) act applies the operator between its two events.  `Pub.C96_refuted`, `Pub.C96_act_partial`, `Pub.C96_arity`, `Pub.C96_custom_events`, `Pub.C96_selection`, `Pub.C96_creator`, `Pub.C96_creator_events`.  False of the code for operators created with a list of events (TypeError), for selection methods, which always get such a list, and for creators, whose events argument ends up as their arity (ValueError for every payload); proved for operators created without events whose subscribers gave a callback (cf. C67).  Axioms: Classical.choice, Quot.sound, propext.
* **C97** (partial) Every advertised event of an algorithm is published.  `Evo.C97_refuted`, `Evo.C97_order`, `Evo.C97_only`, `Evo.C97_never`, `Evo.C97_published_partial`.  False of the code: before_eval, after_eval, before_breeding, after_breeding, before_operator and after_operator of the algorithm are never published; the order of all events is proved for all runs. That creators, selections, genetic operators and individual evaluators publish nothing is how they are modelled: the code calls apply_operator, select and create_individuals directly instead of act.  Axioms: Classical.choice, Quot.sound, propext.
* **C98** (partial) What a creator is configured with reaches its individuals.  `GP.C98_refuted`, `GP.C98_refuted_fitness_type`, `GP.C98_full_partial`, `GP.C98_grow_partial`, `GP.C98_half_partial`, `GP.C98_half_own_partial`, `GP.C98_always_gp_partial`, `GP.C98_full_depth`, `GP.C98_grow_depth`, `GP.C98_half_depths`, `GA.C98_vector_partial`.  False of the code: HalfCreator drops its bloat weight (its default sub-creators have weight 0 and no update_parents), and GPTreeCreator ignores its fitness_type; proved for everything else, and for HalfCreator exactly what its trees carry.  Axioms: Classical.choice, Quot.sound, propext.
* **C99** (partial) A publisher made from an existing events dictionary keeps its subscribers.  `Pub.C99_refuted`, `Pub.C99_replaced`, `Pub.C99_restored_partial`, `Pub.C99_kept_partial`.  False of the code: the counter of ids starts at 0 again, so that new registrations replace subscribers of the dictionary; proved: the dictionary's subscribers are called, and those with large enough ids are kept. That the dictionary is shared with its previous owner is not modelled.  Axioms: Quot.sound, propext.
* **C100** (partial) A paused experiment can be resumed.  `Evo.C100_refuted`, `Evo.C100_best_refuted`, `Evo.C100_continued_partial`, `GP.LibOp.ageless`, `GA.LibOp.ageless`, `Evo.tournament_ageless`, `Evo.fitnessProportionate_ageless`.  False of the code: generations are counted from 1 again and initialize overwrites best_of_run_; proved: the individuals of all generations and the seeds are those of the uninterrupted run, for configurations without termination checker.  Axioms: Classical.choice, Quot.sound, propext.
* **C101** (proved) Recombination creates nothing new.  `GP.C101_nodes`, `GP.C101_functions`, `GA.C101_genes`.  For runs configured with the library's creators, selections and operators.  Axioms: Classical.choice, Quot.sound, propext.
* **C102** (partial) Statistics are written once per generation.  `Evo.C102_refuted`, `Evo.C102_reports`, `Evo.C102_once_partial`, `Evo.C102_again_partial`, `Evo.C102_generations_partial`.  False of the code: initialize registers the statistics again in every run and the subscribers are saved with the object, so that after n runs everything is written n+1 times; proved: exactly that count, once per generation in a first run, and the generation numbers written.  Axioms: Classical.choice, Quot.sound, propext.
* **C103** (partial) Subscribers may subscribe and unsubscribe while they are notified.  `Pub.C103_refuted`, `Pub.C103_calm_partial`, `Pub.C103_disturbed_partial`, `Pub.C103_one_shot_partial`, `Pub.C103_all_partial`, `Pub.C103_passive_partial`.  False of the code: a subscriber that unregisters itself, even the last, makes publish raise RuntimeError, and the later ones are not called; proved: callbacks that leave the number of subscribers of this event alone are harmless, and what happens otherwise.  Axioms: Classical.choice, Quot.sound, propext.
* **C104** (partial) Bad arguments are rejected when an algorithm is constructed.  `Construction.C104_refuted`, `Construction.C104_accepted_partial`, `Construction.C104_rejected_partial`, `Construction.C104_seed_partial`, `Construction.C104_evolves_partial`.  Accepted exactly if described, rejected with ValueError, default seed in range; the last sentence is false of the code: a list of two sub-populations is accepted and evolve raises.  Axioms: Classical.choice, Quot.sound, propext.
* **C105** (partial) Repetitions with different seeds use different random numbers.  `Evo.C105_refuted`, `Evo.C105_shared_partial`, `Evo.C105_apart_partial`.  False of the code: seeds are incremented per generation, so that runs with seeds s and s+1 share all seeds but one; proved: exactly when seeds coincide, and that seeds at least max_generation apart share none.  Axioms: Classical.choice, Quot.sound, propext.
* **C106** (partial) Objects constructed separately share no state.  `Sharing.C106_refuted`, `Sharing.C106_breeders`, `Sharing.C106_independent_partial`, `Sharing.C106_shared_partial`.  False of the code: default argument objects are shared (fitness of trees, breeder of SimpleEvolution); proved: independence whenever the argument is given or at most one call omits it.  Axioms: Classical.choice, Quot.sound, propext.
* **C107** (partial) A fitted regressor predicts as well as the best program evaluated.  `GP.C107_refuted`, `GP.C107_best_partial`, `GP.C107_bloat_partial`.  False of the code with bloat control (GPFitness's default): the best individual is chosen by the adjusted fitness; proved without bloat control, and with it up to the weight for every node.  Axioms: Classical.choice, Quot.sound, propext.
* **C108** (partial) Progress is never lost.  `Evo.C108_best_of_run`, `Evo.C108_refuted`, `Evo.C108_careful_partial`.  Best_of_run_ proved; the population part is false of the code: the elites pass through the operators like everybody else; proved for operators one of whose results is at least as good as the best they are given, such as IdentityTransformation.  Axioms: Classical.choice, Quot.sound, propext.
* **C109** (partial) A run with a target stops when the target is reached.  `Evo.C109_early`, `Evo.C109_refuted`, `Evo.C109_optimal_partial`, `Evo.C109_legal_partial`.  Early ends proved; stopping is false of the code if a fitness is better than the target by more than the threshold (the checker ignores higher_is_better); proved without bloat control if nothing is better than the target.  Axioms: Classical.choice, Quot.sound, propext.
* **C110** (partial) The maximal initial depth bounds the trees of a run.  `GP.C110_refuted`, `GP.C110_depth_partial`, `GP.C110_depth_method_partial`, `GP.C110_erc_only`, `GP.C110_crossover_partial`, `GP.C110_doubling`.  False of the code: crossover and subtree mutation deepen trees and nothing limits them; proved: the bound with ERC mutation only, and for all operators a bound that depends on the generation (crossover doubles it, subtree mutation adds its own depth), which one crossover can attain.  Axioms: Classical.choice, Quot.sound, propext.
* **C111** (partial) Subscribers of an operator's after_operator event are told the individuals the operator was called with.  `Evo.C111_refuted`, `Evo.C111_told_partial`, `Evo.C111_passed_over`, `Evo.C111_failed`, `Evo.C111_origin`.  False of the code: a call that is passed over, or whose attempts all fail, tells the subscribers the individuals of an earlier call or None; proved: when it is true, what is told otherwise, and that nothing but individuals of calls made so far is ever told.  Axioms: Classical.choice, Quot.sound, propext.
* **C112** (partial) A fitted classifier is as accurate on its training data as the best program evaluated.  `GP.C112_refuted`, `GP.C112_best_partial`, `GP.C112_default_direction`, `GP.C112_bloat_partial`.  False of the code with the default higher_is_better=False of sub-populations: the accuracy is minimised; and with bloat control; proved with higher_is_better=True without bloat control, and with it up to the weight for every node.  Axioms: Classical.choice, Quot.sound, propext.
* **C113** (partial) A fitted classifier predicts labels that occur in its training data.  `GP.C113_refuted`, `GP.C113_sigmoid_partial`, `GP.C113_encoded_partial`, `GP.C113_score_bound`, `GP.C113_root_partial`.  False of the code: labels are not encoded; proved for labels 0..n-1 (sigmoid) and for root functions whose values are labels; the sigmoid is the exact one, C58_any_rounding covers rounding.  Axioms: Classical.choice, Quot.sound, propext.
* **C114** (partial) NSGA-II does not lose the best value it has found for an objective.  `Moo.C114_refuted`, `Moo.C114_extremes_partial`, `Moo.C114_front`.  False of the code for fewer than two individuals per objective: a population of two with two objectives loses one of its two extremes although no operator changes anything; proved from there on.  Axioms: Classical.choice, Quot.sound, propext.
* **C115** (proved) What an event of the algorithm shows is evaluated, and evaluated correctly.  `Evo.C115_events`, `Evo.C115_end`.  Ordinary configurations with a deterministic evaluator; also events of runs that raise afterwards.  Axioms: Classical.choice, Quot.sound, propext.
* **C116** (proved) Tournament selection favours fitter individuals, by known odds.  `Evo.C116_draws`, `Evo.C116_favours_fitter`, `Evo.C116_equal`, `Evo.C116_count`, `Evo.C116_best`, `Evo.C116_select`.  Counts over all outcomes of the index draws of random.choices/random.sample; that CPython's generator makes them equally likely is not modelled.  Axioms: Classical.choice, Quot.sound, propext.
* **C117** (proved) No individual belongs to two generations.  `Evo.C117_find`, `Evo.C117_generations`, `Evo.C117_end`.  Object identity is the reference into the heap of the model.  Axioms: Classical.choice, Quot.sound, propext.
* **C118** (partial) The probability of an operator is the share of draws that apply it.  `Evo.C118_one_partial`, `Evo.C118_zero_partial`, `Evo.C118_odds`, `Evo.C118_refuted`.  False at the boundary: the test is random() <= probability, so an operator of probability 0 is applied if random() returns 0.0; the exact number of draws that apply an operator is floor(n*p)+1 of n, one more than documented.  Axioms: Classical.choice, Quot.sound, propext.
* **C119** (proved) Random vectors, mutated cells and cut points are drawn without bias.  `GA.C119_created`, `GA.C119_cells`, `GA.C119_flip`, `GA.C119_one_point`, `GA.C119_points`.  Uniformity of random.randint, random.sample and random.choice themselves (each index with equal chance) is assumed, not modelled.  Axioms: Classical.choice, Quot.sound, propext.
* **C120** (partial) Subtree operators choose each qualifying subtree with equal chance.  `GP.C120_odds_partial`, `GP.C120_distinct_partial`, `GP.C120_first_copy`, `GP.C120_refuted`.  False if a node occurs twice: the subtree at the first copy is chosen for the draws of all copies, the subtrees at the others never; proved: the exact odds, and equal odds in trees without repeated nodes.  Axioms: Classical.choice, Quot.sound, propext.
* **C121** (proved) Whatever a run raises was raised by the user's evaluator or termination checkers.  `Evo.C121_blames`, `GA.C121_vectors`, `GP.C121_programs`, `GA.C121_vectors_checkers`, `GP.C121_programs_checkers`.  Same parts of evolve as C80; the evaluator is a function of the genome and the random tape.  Axioms: Classical.choice, Quot.sound, propext.
* **C122** (proved) A population without exactly one sub-population is refused before anything is evaluated.  `Evo.C122_refused`, `Evo.C122_value_error`, `Evo.C122_unused`.  Axioms: Classical.choice, Quot.sound, propext.
* **C123** (partial) What a run does depends only on the order of the fitness values, and minimising is maximising the negation.  `Evo.C123_scaled`, `Evo.C123_refuted`, `GA.C123_order_partial`, `GA.C123_mirror`, `GP.C123_order_partial`, `GP.C123_mirror`, `GP.C123_target`.  False for increasing functions with a non-zero bloat weight (C123_refuted: doubling all values changes the best of the run); everything else in the statement is proved.  Axioms: Classical.choice, Quot.sound, propext.
* **C124** (proved) Stopping criteria only cut a run short.  `Evo.C124_checker`, `Evo.C124_generations`, `Evo.C124_budget`, `Evo.C124_patience`.  Axioms: Classical.choice, Quot.sound, propext.
* **C125** (proved) Runs of NSGA-II do not depend on the units of the objectives.  `Moo.C125_run`, `Moo.C125_crowding_checker`, `Moo.C125_vectors`, `Moo.C125_programs`, `Moo.C125_nonlinear`.  Axioms: Classical.choice, Quot.sound, propext.
* **C126** (proved) A multi-objective run executes the right number of generations and publishes the right events.  `Moo.C126_course`, `Moo.C126_generations`.  Axioms: Classical.choice, Quot.sound, propext.
* **C127** (proved) Stopping criteria only cut a multi-objective run short.  `Moo.C127_stopped`, `Moo.C127_raises`, `Moo.C127_longer`.  Axioms: Classical.choice, Quot.sound, propext.
* **C128** (proved) Whatever a multi-objective run raises was raised by the user's evaluator or termination checker.  `Moo.C128_vectors`, `Moo.C128_programs`.  Same parts of evolve as C82; the evaluator is a function of the genome and the random tape.  Axioms: Classical.choice, Quot.sound, propext.
* **C129** (proved) The evaluator is called exactly once for each individual of each generation.  `Evo.C129_same`, `Evo.C129_calls`, `Evo.C129_budget`, `Evo.C129_size`, `GP.C129_programs`, `GA.C129_vectors`.  For runs that return; the record of calls is an addition to the model that C129_same proves harmless.  Axioms: Classical.choice, Quot.sound, propext.
* **C130** (proved) A multi-objective run evaluates N * (2g + 1) times.  `Moo.C130_same`, `Moo.C130_calls`, `Moo.C130_budget`, `Moo.C130_default`, `Moo.C130_complete`, `Moo.C130_vectors`, `Moo.C130_programs`.  For runs that return; the counts for parts that meet their contracts (C53); the record of calls is an addition to the model that C130_same proves harmless.  Axioms: Classical.choice, Quot.sound, propext.
* **C131** (proved) The names of variables and functions do not matter.  `Evo.C131_represent`, `GP.C131_programs`, `GP.C131_execute`, `GP.C131_scores`.  Tournaments and elitism; functions are identified by an identity and a signature.  Axioms: Classical.choice, Quot.sound, propext.
* **C132** (proved) Runs over vectors do not depend on the units of the cells.  `GA.C132_vectors`, `GA.C132_in_bounds`.  Tournaments and elitism; real numbers are modelled as rationals, so rounding of floats is not covered; the random draws are the same exact numbers in [0, 1) and standard normal values.  Axioms: Classical.choice, Quot.sound, propext.
* **C133** (partial) Fitness-proportionate selection does not depend on the unit of the fitness.  `Evo.C133_refuted`, `Evo.C133_odds_partial`, `Evo.C133_offset_partial`.  The statement is false of the code (witness: scores 1 and 2 against 2 and 4); proved instead what a change of units does to the odds; exact real numbers.  Axioms: Classical.choice, Quot.sound, propext.
* **C134** (proved) Names and units of the genome do not matter to a multi-objective run.  `Moo.C134_represent`, `Moo.C134_programs`, `Moo.C134_vectors`.  Exact rational arithmetic; the Gaussian noise is converted with the cells.  Axioms: Classical.choice, Quot.sound, propext.
* **C135** (proved) In multi-objective runs, too, recombination alone creates nothing new.  `Moo.C135_features`, `Moo.C135_nodes`, `Moo.C135_functions`, `Moo.C135_genes`.  Runs started on a new algorithm object, no individuals made before.  Axioms: Classical.choice, Quot.sound, propext.
* **C136** (partial) The best individual that NSGA-II announces stays what it was.  `Moo.C136_refuted`, `Moo.C136_objectives_partial`, `Moo.C136_programs_partial`, `Moo.C136_vectors_partial`.  The statement is false of the code (witness: the announced best goes from [7, -14] to [8, -24], worse in both objectives); proved instead that every individual has the objectives of its current genome.  Axioms: Classical.choice, Quot.sound, propext.
* **C137** (proved) Ids of individuals are labels only.  `Evo.C137_labels`, `GP.C137_programs`, `GA.C137_vectors`, `GA.mutationSteps_twins`, `GA.gaussSteps_twins`, `Evo.threshold_blind`, `Evo.stagnation_blind`.  Relational: two runs from states equal up to labels are in lock step; mutations modelled once as functions of genomes and once statement by statement on the heap with ids used up, related by Twins.  Axioms: Classical.choice, Quot.sound, propext.
* **C138** (proved) The OneMax example finds what it says it finds.  `Examples.C138_returns`, `Examples.C138_one_max`.  The sub-population and the algorithm as the script builds them, with its numbers as parameters; statistics printing left out; executor with max_workers=1.  Axioms: Classical.choice, Quot.sound, propext.
* **C139** (partial) The knapsack evaluator accepts lists of items.  `Examples.C139_refuted`, `Examples.C139_rejects`, `Examples.C139_partial`.  False of the code: every non-empty list raises.  Axioms: Quot.sound, propext.
* **C140** (proved) The knapsack example packs feasible bags.  `Examples.C140_fitness`, `Examples.C140_missing`, `Examples.C140_run`, `Examples.C140_example`, `Examples.C140_default`.  Minus infinity is represented by a number below the value of every feasible bag; exact rational arithmetic for prices.  Axioms: Classical.choice, Quot.sound, propext.
* **C141** (partial) The multiplexer example ends early only with a multiplexer.  `Examples.C141_target`, `Examples.C141_table`, `Examples.C141_fitness`, `Examples.C141_perfect`, `Examples.C141_returns`, `Examples.C141_partial`, `Examples.C141_sharp_partial`, `Examples.C141_refuted`.  The last part is false of the code (witness: a run that ends with a tree wrong for eight combinations); everything else proved; pandas columns are functions from rows to integers.  Axioms: Classical.choice, Quot.sound, propext.
* **C142** (partial) RootFunctionCreator makes trees with the given root function.  `Examples.C142_refuted`, `Examples.C142_statement_refuted`, `Examples.C142_diverges`, `Examples.C142_empty`, `Examples.C142_creator`, `Examples.C142_partial`.  False of the code for every root function.  Axioms: Classical.choice, Quot.sound, propext.
* **C143** (partial) The ZDT examples have the Pareto front of the ZDT problems.  `Examples.C143_refuted`, `Examples.C143_partial`, `Examples.C143_positive_partial`, `Examples.C143_with_factor`.  False of the code at vectors whose first cell is zero; reals instead of floats.  Axioms: Classical.choice, Quot.sound, propext.
* **C144** (partial) A configuration that the setup accepts can create its initial programs.  `GP.C144_partial`, `GP.C144_never`, `GP.C144_refuted`, `GP.C144_statement_refuted`.  False of the code: the setup does not check that argument types are returned by functions, nor that the root type has a terminal; proved for sets that have a function and a terminal for every type in use, and proved that without a suitable function no tree of depth two can be created.  Axioms: Classical.choice, Quot.sound, propext.
* **C145** (partial) Setting a parameter of an estimator is like constructing the algorithm with it.  `Store.C145_partial`, `Store.C145_refuted`, `Store.C145_statement_refuted`, `Store.C145_refuted_more`.  False of the code for random_seed, executor and statistics; proved for the parameters that are only stored.  Axioms: Classical.choice, Quot.sound, propext.
* **C146** (partial) Estimators can be cloned.  `Store.C146_partial`, `Store.C146_refuted`, `Store.C146_statement_refuted`.  False of the code for fitted estimators: the executor kept by the population evaluator cannot be copied; proved as long as no parameter holds such an object.  Axioms: Classical.choice, Quot.sound, propext.
* **C147** (proved) The basic multi-objective example has the Pareto front it is meant to have.  `Examples.C147`.  Reals instead of floats.  Axioms: Classical.choice, Quot.sound, propext.
* **C148** (partial) The ZDT3 example looks for the Pareto front of ZDT3.  `Examples.C148_partial`, `Examples.C148_refuted`, `Examples.C148_statement_refuted`.  False of the code: the example maximises; proved that apart from vectors with first cell zero the other cells are all zeros or all ones; reals instead of floats.  Axioms: Classical.choice, Quot.sound, propext.
* **C149** (partial) NSGA-II works with both executor methods.  `Moo.C149_refuted`, `Moo.C149_statement_refuted`, `Moo.C149_evaluates_partial`, `Moo.C149_same_partial`.  False of the code for every configuration; proved that the objective values have been stored before the exception; tasks run in the same process.  Axioms: Classical.choice, Quot.sound, propext.
* **C150** (partial) Runs do not depend on whether threads or processes evaluate.  `Evo.C150_partial`, `Moo.C150_moo_partial`, `Evo.C150_refuted`, `Evo.C150_statement_refuted`.  False of the code for evaluators that draw random numbers; proved for the others; evaluators and individuals are taken to be picklable, evaluators to keep no state.  Axioms: Classical.choice, Quot.sound, propext.
* **C151** (proved) A run never gets stuck.  `Evo.C151_any_generation`, `Evo.C151_best`, `GA.C151_vectors`, `GP.C151_programs`, `Examples.C151_oneMax`.  Random numbers are a stream per seed, so that the draws of one generation can be exchanged as long as its seed is not the one the run started with; the last operator has arity one; random.gauss may return any number unless sigma is 0.  Axioms: Classical.choice, Quot.sound, propext.
* **C152** (proved) Integer and bit vectors hold whole numbers.  `GA.C152_whole`, `GA.C152_bits`.  Axioms: Classical.choice, Quot.sound, propext.
* **C153** (partial) The float OneMax example can find its optimum.  `Examples.C153_returns`, `Examples.C153_cells`, `Examples.C153_float_partial`, `Examples.C153_refuted`.  False of the code: no run finds the vector of ones; proved that runs return, go through all generations and end with the best of what they saw; sums of cells are exact.  Axioms: Classical.choice, Quot.sound, propext.
* **C154** (partial) Fitting a regressor succeeds and gives predictions.  `FloatFit.C154_fit_partial`, `FloatFit.C154_overflow_partial`, `FloatFit.C154_refuted`.  False of the code: outputs may overflow, and the metric raises ValueError; proved without overflow, and that nothing else can go wrong; functions other than argmax2floats (see C73) and the logical functions of floats and ints (see C168); the metric is a function of two arrays of finite numbers.  Axioms: Classical.choice, Quot.sound, propext.
* **C155** (partial) Fitting with a target stops when the training data are fitted well enough.  `GP.C155_regressor_early`, `GP.C155_classifier_early`, `GP.C155_unreachable`, `GP.C155_regressor_stops_partial`, `GP.C155_classifier_stops_partial`, `GP.C155_refuted`.  False of the code with bloat control; proved without, and proved that fitting ends early only if the target is reached.  Axioms: Classical.choice, Quot.sound, propext.
* **C156** (partial) The front NSGA-II returns is not dominated by anything it has evaluated.  `Moo.C156_covers_partial`, `Moo.C156_front_partial`, `Moo.C156_refuted`.  False of the code: members of a front that is larger than the population are lost; proved if the non-dominated individuals of each generation fit into the population.  Axioms: Classical.choice, Quot.sound, propext.
* **C157** (partial) All programs of the full method are equally likely.  `GP.C157_function`, `GP.C157_terminal`, `GP.C157_full`, `GP.C157_even_partial`, `GP.C157_refuted`.  False of the code with functions of different arities; proved for functions of one arity; the exact odds are proved for all.  Axioms: Classical.choice, Quot.sound, propext.
* **C158** (proved) The odds of a program of the grow method.  `GP.C158_grow`.  Probabilities are shares of the sequences of draws on a grid that contains the pruning probability.  Axioms: Classical.choice, Quot.sound, propext.
* **C159** (partial) An interrupted run can be started again.  `Evo.C159_reopens`, `GA.C159_vectors_partial`, `GP.C159_programs_partial`, `GA.C159_refuted`.  That best_of_run_ gets no worse is false of the code (refuted by a run without elites); the rest is proved.  Axioms: Classical.choice, Quot.sound, propext.
* **C160** (partial) What the constructor of `NSGA2Evolution` accepts.  `Construction.C160_accepted_partial`, `Construction.C160_rejected_partial`, `Construction.C160_as_simple_partial`, `Construction.C160_refuted`.  That an accepted object has a breeder and an evaluator is false of the code; the rest is proved.  Axioms: Quot.sound, propext.
* **C161** (partial) An interrupted NSGA-II run can be started again.  `Moo.C161_vectors_partial`, `Moo.C161_programs_partial`, `Moo.C161_refuted`, `Moo.C161_checker_refuted`.  False of the code: after an exception of the evaluator in a generation the population stays doubled, after one of the checker the run cannot be started again; proved what happens in each of the cases.  Axioms: Classical.choice, Quot.sound, propext.
* **C162** (partial) The best of a run is best even if some scores are NaN.  `Score.C162_partial`, `Score.C162_numbers`, `Score.C162_target`, `Score.C162_found`, `Score.C162_tournament_partial`, `Score.C162_same`, `Score.C162_refuted`, `Score.C162_masked_refuted`.  False of the code with NaN in the first place; proved without NaN, and exactly what happens with NaN; C162_same connects the loop to that of the main model.  Axioms: Classical.choice, Quot.sound, propext.
* **C163** (partial) The first front of NSGA-II is best even if some objective values are NaN.  `Score.C163_partial`, `Score.C163_numbers`, `Score.C163_refuted`.  False of the code with NaN; proved without NaN, and what the first front is with NaN.  Axioms: Classical.choice, Quot.sound, propext.
* **C164** (partial) The symbolic regression example ends early only with a good program.  `SymReg.C164_setup`, `SymReg.C164_score_partial`, `SymReg.C164_run_partial`, `SymReg.C164_optimum`, `SymReg.C164_refuted`.  False of the code: rows with NaN do not count; proved for programs without NaN, and for the rows without NaN otherwise; that np.mean of a Series skips NaN is part of the model of pandas.  Axioms: Classical.choice, Quot.sound, propext.
* **C165** (proved) Fitting a classifier succeeds even if programs overflow.  `FloatFit.C165_fit`, `FloatFit.C165_continuous`, `FloatFit.C165_undefined`.  Functions other than argmax2floats (see C73) and the logical functions of floats and ints (see C168); the sigmoid function and the thresholds are exact; accuracy_score is modelled from scikit-learn's documentation.  Axioms: Classical.choice, Quot.sound, propext.
* **C166** (partial) NSGA-II breeds from selected individuals.  `Moo.C166_whole_partial`, `Moo.C166_run_partial`, `Moo.C166_elites_partial`, `Moo.C166_too_large_partial`, `Moo.C166_refuted`.  False of the code: the operators are applied to the whole population, selection and elites are without effect.  Axioms: Classical.choice, Quot.sound, propext.
* **C167** (partial) Selection methods are used according to their probabilities.  `Evo.C167_first_partial`, `Evo.C167_arity_partial`, `Moo.C167_nsga2_partial`, `Evo.C167_refuted`.  False of the code: the first method is always used.  Axioms: Classical.choice, Quot.sound, propext.
* **C168** (partial) Numeric programs return numbers.  `Prim.C168_exact_partial`, `Prim.C168_numbers_partial`, `Prim.C168_iff_partial`, `Prim.C168_sums_partial`, `Prim.C168_refuted`.  False of the code because the logical functions return truth values; proved which trees return numbers; numpy arrays and scalars, not pandas series; half precision is covered by the arbitrary rounding.  Axioms: Classical.choice, Quot.sound, propext.
* **C169** (proved) Creators and operators leave all other individuals alone.  `GA.C169_vector_creator`, `GA.C169_vector_operators`, `GP.C169_tree_creators`, `GP.C169_half_creator`, `GP.C169_tree_operators`, `Moo.C169_moo_vectors`, `Moo.C169_moo_trees`, `Moo.C169_moo_half`, `Moo.C169_moo_operators`.  The creation rules and operator rules are those of Model/Vector and Model/GPOperators (C05-C08, C11-C21); operators are applied to pairwise different individuals, as breeders do.  Axioms: Classical.choice, Quot.sound, propext.
* **C170** (partial) No individual left out by elitism dominates an elite.  `Moo.C170_lexicographic_partial`, `Moo.C170_partial`, `Moo.C170_refuted`.  Which individuals become elites is proved in general; that none of the others dominates them is false of the code if the directions of the objectives differ ((1, 5) is preferred to (1, 3) although the second objective is minimised), and proved if all have the direction of the sub-population.  Axioms: Classical.choice, Quot.sound, propext.
* **C171** (partial) The typed multiplexer example ends early only with a multiplexer.  `TypedMux.C171_setup`, `TypedMux.C171_executes`, `TypedMux.C171_fitness`, `TypedMux.C171_perfect`, `TypedMux.C171_returns`, `TypedMux.C171_partial`, `TypedMux.C171_sharp_partial`, `TypedMux.C171_refuted`.  False of the code: with the threshold 0.01 a run may end early with a program that is wrong for up to 20 of 2048 inputs; proved with that bound, and in full for thresholds below 1/2048.  Axioms: Classical.choice, Quot.sound, propext.
* **C172** (partial) The plot of NSGA-II shows the final population and its front.  `Moo.C172_shows_partial`, `Moo.C172_silent_partial`, `Moo.C172_final_partial`, `Moo.C172_front_partial`, `Moo.C172_refuted`.  False of the code with the default breeder, which empties the population; proved with NSGA2Breeder; what plt.scatter is given is modelled, the drawing is not.  Axioms: Classical.choice, Quot.sound, propext.
* **C173** (proved) Constants are created and mutated without bias.  `GP.C173_terminal`, `GP.C173_constant`, `GP.C173_integer`, `GP.C173_mutated`.  A draw of random.choice or random.randint is a number taken modulo the number of outcomes; for float ranges the value of the constant is left open.  Axioms: Classical.choice, Quot.sound, propext.
* **C174** (proved) An NSGA-II run never gets stuck.  `Moo.C174_any_generation`, `Moo.C174_vectors`, `Moo.C174_programs`.  The run with other draws in one generation is the same configuration with the tape of that generation's seed replaced; the seed of the generation must differ from the seed of the whole run; the reproduced individual is seen in the event published after the evaluation of generation N.  Axioms: Classical.choice, Quot.sound, propext.
* **C175** (proved) A list of stopping criteria ends an NSGA-II run when the first is met.  `Moo.C175_one_of_them`, `Moo.C175_first`, `Moo.C175_completes`, `Moo.C175_empty`, `Moo.C175_order`.  For checkers without state, like the threshold and the crowding checker; the stagnation checker keeps state and is covered for SimpleEvolution by C40 and C41; with NSGA-II it raises (C177).  Axioms: Classical.choice, Quot.sound, propext.
* **C176** (proved) A list of stopping criteria ends a run when the first is met.  `Evo.C176_one_of_them`, `Evo.C176_first`, `Evo.C176_completes`, `Evo.C176_empty`.  Checkers are functions of their own state, the population, best individual and generation; no checker changes the population.  Axioms: Classical.choice, Quot.sound, propext.
* **C177** (partial) The stagnation checker can be used with NSGA-II.  `Moo.C177_partial`, `Moo.C177_first_partial`, `Moo.C177_again`, `Moo.C177_raises`, `Moo.C177_refuted`, `Moo.mstagRun_answers`.  False of the code: C177_refuted, and C177_raises for every sound configuration; C177_partial is what remains.  Axioms: Classical.choice, Quot.sound, propext.

## 5. Testing the theorems against wrong programs

`seeded/LOG.jsonl` has one line per edit of the model that mimics a realistic bug (or repairs one): the definition, the
edit, the claim it concerns, the theorems that no longer go through, and the theorems that were tightened as a
consequence.  Every edited model is elaborated to the end with failing proofs replaced by an error, so that the list
contains exactly the manifest theorems whose proof breaks directly or through a lemma.
