{"id": "C01", "title": "Sampled token lists always complete to exactly one expression", "statement": "Whatever token indices the controller hands over, from_tokens' completion step returns the pre-order traversal of exactly one well-formed expression: it is the shortest complete prefix of the sample if there is one, and otherwise the whole sample followed only by input-variable tokens; an already complete traversal is returned unchanged.", "quantifier": "every library of arities, every non-empty token list over it, every random choice of filler tokens", "why_tests_cant": "The set of token lists and libraries is infinite and the fillers are random; a test fixes a few lists.", "anchors": ["kd/model/discover/program.py:_finish_tokens", "kd/model/discover/program.py:from_tokens"]}
{"id": "C02", "title": "Expression trees and pre-order traversals are the same thing", "statement": "Building the tree of a complete traversal and walking it in pre-order gives the traversal back, and every expression tree is rebuilt from its own traversal, so the stored token list determines the expression and conversely.", "quantifier": "every expression tree of any size and every complete traversal", "why_tests_cant": "Needs induction on unbounded trees.", "anchors": ["kd/model/discover/stridge.py:build_tree", "kd/model/discover/stridge.py:Node.preorder_traverse"]}
{"id": "C03", "title": "Executing a traversal computes the expression's value", "statement": "Executing a complete traversal with the stack machine returns the value obtained by recursively evaluating the expression tree (with the differentiation axis handed to a derivative operator being the input variable most recently read before it is applied), tokens after the end of the expression are ignored, and any operator exception yields None instead of a value.", "quantifier": "every traversal, every operator semantics, every data environment", "why_tests_cant": "Unbounded expression shapes and arbitrary operator semantics.", "anchors": ["kd/model/discover/execute.py:python_execute"]}
{"id": "C04", "title": "The controller observes the true parent and sibling", "statement": "At every step of sampling, the parent and sibling reported for the next token are the operator under which that token will actually hang in the finished expression tree and the root of that operator's first child (or the empty markers for the root / a first child).", "quantifier": "every expression tree and every position in its traversal", "why_tests_cant": "Every prefix of every expression; tests check a handful.", "anchors": ["kd/model/discover/dso/subroutines.py:parents_siblings", "kd/model/discover/dso/subroutines.py:jit_parents_siblings_at_once", "kd/model/discover/task/task.py:HierarchicalTask.get_next_obs"]}
{"id": "C05", "title": "Ancestor detection is exact", "statement": "The descendant mask is raised for the next token exactly when one of its ancestors in the expression tree is an effector token.", "quantifier": "every expression tree, every position, every effector set", "why_tests_cant": "Unbounded nesting and arbitrary effector sets; the failing shapes (binary effectors, right branches) are easy to miss.", "anchors": ["kd/model/discover/dso/subroutines.py:ancestors"]}
{"id": "C06", "title": "Relational constraints hold in every sampled expression", "statement": "No expression sampled under a child, sibling, only-unique-child, left-child or right-child constraint contains a target token in the forbidden relationship to an effector token.", "quantifier": "every library, every target/effector set, every sampling history", "why_tests_cant": "All sampling histories; the mask must be right at each step of each of them.", "anchors": ["kd/model/discover/dso/prior.py:RelationalConstraint.__call__", "kd/model/discover/dso/prior.py:Constraint.make_constraint"]}
{"id": "C07", "title": "Trig/derivative nesting is impossible", "statement": "No expression sampled with the trig constraint (and, for binary derivative operators, the right-operand constraint) contains a trig or derivative operator below another one.", "quantifier": "every library whose sin, cos and similar tokens are unary and whose derivative operators take operands, every sampling history", "why_tests_cant": "All sampling histories of unbounded length.", "anchors": ["kd/model/discover/dso/prior.py:TrigConstraint", "kd/model/discover/dso/prior.py:DiffConstraint_right", "kd/model/discover/library.py:Library"]}
{"id": "C08", "title": "Length limits are respected and sampling never gets stuck", "statement": "With a length constraint min..max, every sampled expression completes within max tokens and has at least min tokens, and, if the library has a terminal and a unary operator, the constraint leaves some token allowed at every step.", "quantifier": "every max>=3 and min<=max, every library with arities at most two, every sampling history", "why_tests_cant": "The dangling-node arithmetic must be right for all lengths and histories.", "anchors": ["kd/model/discover/dso/prior.py:LengthConstraint", "kd/model/discover/controller.py:loop_fn"]}
{"id": "C09", "title": "Repeat limits are respected", "statement": "An expression sampled under a repeat constraint contains at most max occurrences of the listed tokens in total, and the post-hoc check accepts exactly those.", "quantifier": "every token set, bound of at least one and sampling history", "why_tests_cant": "Unbounded histories.", "anchors": ["kd/model/discover/dso/prior.py:RepeatConstraint"]}
{"id": "C10", "title": "Every sampled expression mentions the state", "statement": "An expression sampled under the no-inputs constraint whose first token is an operator contains at least one state-variable token.", "quantifier": "every library and sampling history", "why_tests_cant": "Unbounded histories.", "anchors": ["kd/model/discover/dso/prior.py:NoInputsConstraint"]}
{"id": "C11", "title": "Inverse unary operators never cancel directly", "statement": "No sampled expression applies an operator directly to its inverse (exp/log, n2/sqrt, neg/neg, inv/inv), whatever subset of these the library contains.", "quantifier": "every library, every sampling history", "why_tests_cant": "All libraries and histories.", "anchors": ["kd/model/discover/dso/prior.py:InverseUnaryConstraint", "kd/model/discover/library.py:Library.inverse_tokens"]}
{"id": "C12", "title": "Post-hoc constraint checks agree with the sampling masks", "statement": "The whole-sequence violation check of a constraint reports a violation for a traversal exactly when some token of it would have been masked during sampling.", "quantifier": "every traversal, every constraint", "why_tests_cant": "Two independent implementations must agree on all inputs.", "anchors": ["kd/model/discover/dso/prior.py:is_violated", "kd/model/discover/dso/subroutines.py:jit_check_constraint_violation", "kd/model/discover/dso/subroutines.py:jit_check_constraint_violation_uchild", "kd/model/discover/dso/subroutines.py:jit_check_constraint_violation_descendant_no_target_tokens", "kd/model/discover/dso/subroutines.py:jit_check_constraint_violation_descendant_with_target_tokens"]}
{"id": "C13", "title": "Recorded observations are the ones the policy acted on", "statement": "The observation stored for training at step t (action, parent, sibling, dangling count) is the observation the policy received when it chose the token of step t.", "quantifier": "every sampling history and every step", "why_tests_cant": "In-place aliasing effects are invisible to shape/value tests of single calls.", "anchors": ["kd/model/discover/controller.py:loop_fn", "kd/model/discover/task/task.py:HierarchicalTask.get_next_obs"]}
{"id": "C14", "title": "Priority memory keeps the best distinct programs", "statement": "After any sequence of pushes the unique priority queue holds at most its capacity of items, no two with the same identifier, its membership test agrees with its contents, and what it holds are the best-priority distinct items pushed so far.", "quantifier": "every push history, every capacity, every tie pattern", "why_tests_cant": "Arbitrarily long histories with ties and duplicates.", "anchors": ["kd/model/discover/dso/memory.py:UniquePriorityQueue"]}
{"id": "C15", "title": "Recency memory keeps the most recent distinct programs", "statement": "After any sequence of pushes the unique FIFO queue holds exactly the last `capacity` distinct identifiers pushed, each once, in order of last push.", "quantifier": "every push history and every capacity of at least one", "why_tests_cant": "Arbitrarily long histories.", "anchors": ["kd/model/discover/dso/memory.py:UniqueQueue", "kd/model/discover/dso/memory.py:Queue"]}
{"id": "C16", "title": "Same expression, same program object", "statement": "Requesting a program for the same completed token list always returns the one cached object, its on/off-policy counters add up to the number of requests, and different completed token lists never share an object.", "quantifier": "every request history", "why_tests_cant": "Arbitrary interleavings of requests.", "anchors": ["kd/model/discover/program.py:from_tokens"]}
{"id": "C17", "title": "The best reward never gets worse", "statement": "Across search iterations the reported best reward is non-decreasing and always equals the largest reward seen, and the reported best program attains it.", "quantifier": "every sequence of sampled reward batches", "why_tests_cant": "Unbounded histories.", "anchors": ["kd/model/discover/searcher.py:Searcher.search_one_step"]}
{"id": "C18", "title": "Term splitting preserves the sum", "statement": "Splitting an expression at its top-level additions and subtractions yields terms whose signed sum equals the original expression.", "quantifier": "every expression tree, every semantics of the non-additive operators", "why_tests_cant": "Unbounded nesting of signs.", "anchors": ["kd/model/discover/stridge.py:STRidge.split_forest"]}
{"id": "C19", "title": "Generated SGA trees are well-formed", "statement": "Every randomly generated SGA tree has: child ranges that partition the next level, arities matching operators, depth at most the maximum, and a denominator-table symbol as the right operand of every derivative operator.", "quantifier": "every random outcome, every depth limit, every operator table", "why_tests_cant": "All random outcomes.", "anchors": ["kd/model/sga/sgapde/tree.py:Tree.__init__"]}
{"id": "C20", "title": "SGA mutation preserves tree well-formedness", "statement": "Mutating a well-formed SGA tree (any mutation outcome) leaves it well-formed: same shape, arities matching operators, right operands of derivatives legal.", "quantifier": "every well-formed tree and every random outcome", "why_tests_cant": "All random outcomes on unbounded trees.", "anchors": ["kd/model/sga/sgapde/tree.py:Tree.mutate"]}
{"id": "C21", "title": "SGA term deletion keeps terms, columns and coefficients aligned", "statement": "After evaluating an SGA candidate, the surviving terms are exactly the original terms that were not rejected, in order, the k-th data column was computed from the k-th surviving term, and the width counter equals their number.", "quantifier": "every candidate and every pattern of rejected terms", "why_tests_cant": "All 2^n deletion patterns for all n.", "anchors": ["kd/model/sga/sgapde/pde.py:PDE.evaluate_mse"]}
{"id": "C22", "title": "SGA evolution is elitist and bounded", "statement": "Over any number of crossover and mutation rounds the population's best score never gets worse, the population never exceeds its configured size, and every stored score is the score of the individual stored next to it.", "quantifier": "every population with scores that are numbers, every random outcome, every number of rounds", "why_tests_cant": "Unbounded evolution runs.", "anchors": ["kd/model/sga/sgapde/solver.py:SGA.cross_over", "kd/model/sga/sgapde/solver.py:SGA.change", "kd/model/sga/sgapde/solver.py:SGA.run"]}
{"id": "C23", "title": "Derivative names round-trip", "statement": "Parsing a derivative key built from a valid field name, axis name and order gives back exactly those, and keys that are ambiguous or malformed are rejected rather than misread.", "quantifier": "every valid field and axis name and order", "why_tests_cant": "Unbounded strings; ambiguity depends on combinations of names.", "anchors": ["kd/model/sga/sgapde/naming.py:build_derivative_key", "kd/model/sga/sgapde/naming.py:parse_derivative_key"]}
{"id": "C24", "title": "Field renaming never collides", "statement": "Resolving field-name conflicts returns one new name per field, pairwise distinct and disjoint from coordinate and reserved names, and leaves non-conflicting names unchanged.", "quantifier": "every list of field names, coordinate names and reserved names", "why_tests_cant": "Collisions appear only for adversarial combinations.", "anchors": ["kd/model/sga/sgapde/naming.py:resolve_field_name_conflicts"]}
{"id": "C25", "title": "Datasets are consistent or rejected", "statement": "Constructing a dataset either raises, or yields one whose axes match its coordinates one-to-one, whose fields all have the grid's shape and whose target field and time axis exist; the legacy and N-D constructors of the same data agree.", "quantifier": "every combination of constructor arguments", "why_tests_cant": "Every combination of shapes and names.", "anchors": ["kd/dataset/_base.py:PDEDataset.__init__", "kd/dataset/_base.py:PDEDataset._init_nd_mode", "kd/dataset/_base.py:PDEDataset._init_legacy_mode"]}
{"id": "C26", "title": "Range queries return exactly the points inside", "statement": "get_range on sorted coordinates returns precisely the sub-grid of points whose coordinates lie in the requested half-open ranges (lower end included, upper end excluded), aligned with the data, whatever the storage order of the axes.", "quantifier": "every sorted coordinate list and every range", "why_tests_cant": "Boundary cases over all arrays.", "anchors": ["kd/dataset/_base.py:PDEDataset.get_range"]}
{"id": "C27", "title": "Sampling returns real grid points", "statement": "Every point returned by random or uniform sampling is a grid point paired with the value stored there; random sampling returns the requested number of distinct points, uniform sampling stays within bounds, and over-large or unknown requests are rejected.", "quantifier": "every dataset size, sample size, and random outcome", "why_tests_cant": "All sizes and random outcomes.", "anchors": ["kd/dataset/_base.py:PDEDataset.sample"]}
{"id": "C28", "title": "Finite differences are second-order exact", "statement": "The first-derivative stencil is exact at every grid point for every quadratic, the second-derivative stencil for every quadratic (cubic), on every uniform grid of at least the required size; shorter inputs are rejected.", "quantifier": "every polynomial, step, grid size and index", "why_tests_cant": "Infinite family of polynomials and grids; boundary rows have different formulas.", "anchors": ["kd/model/sga/sgapde/PDE_find.py:FiniteDiff", "kd/model/sga/sgapde/PDE_find.py:FiniteDiff2"]}
{"id": "C29", "title": "The time axis never leaks into the candidate library", "statement": "If the SGA problem context is built successfully, no candidate variable, denominator symbol or derivative key refers to the left-hand-side axis.", "quantifier": "every field/coordinate/parameter naming and axis order", "why_tests_cant": "All naming combinations.", "anchors": ["kd/model/sga/sgapde/context.py:_init_operators", "kd/model/sga/sgapde/context.py:_build_vars", "kd/model/sga/sgapde/context.py:_assert_no_lhs_in_vars"]}
{"id": "C30", "title": "Sequential thresholding returns a fixed sparse support", "statement": "Sequential-threshold ridge never re-admits a discarded term, terminates, reports zero for every discarded term, and the support is final when an iteration discards nothing.", "quantifier": "every matrix, target, threshold and iteration limit, for any least-squares oracle", "why_tests_cant": "Independent of numeric values; unbounded iterations.", "anchors": ["kd/model/sga/sgapde/PDE_find.py:STRidge", "kd/model/discover/ga_utils.py:STRidge"]}
{"id": "C31", "title": "Threshold search returns the best fit it saw", "statement": "The tolerance search returns the coefficient vector with the lowest score among all evaluated ones, the dense least-squares fit included.", "quantifier": "every sequence of scores", "why_tests_cant": "All score sequences.", "anchors": ["kd/model/sga/sgapde/PDE_find.py:Train"]}
{"id": "C32", "title": "set_params / get_params round-trip and locality", "statement": "Setting valid parameters and reading them back returns the values set and leaves every other parameter unchanged; an unknown name raises.", "quantifier": "every estimator signature, nesting depth and parameter dictionary", "why_tests_cant": "All nestings and key orders.", "anchors": ["kd/base.py:BaseEstimator.set_params", "kd/base.py:BaseEstimator.get_params"]}
{"id": "C33", "title": "Viz adapter resolution is deterministic and most-specific", "statement": "The adapter found for an object is the one registered for its exact class if any, else a lazily registered one for its class name, else the first registered ancestor; lookups never change later answers; unregistering removes it.", "quantifier": "every registration/lookup history and class hierarchy", "why_tests_cant": "Histories interleave eager and lazy registration.", "anchors": ["kd/viz/registry.py", "kd/viz/core.py:render"]}
{"id": "C34", "title": "DLGA genomes stay legal", "statement": "Every genome produced by initialisation, crossover and mutation has between zero and the maximum number of modules with gene values inside the gene range, and the population keeps its size.", "quantifier": "every random outcome and number of generations", "why_tests_cant": "All random outcomes.", "anchors": ["kd/model/dlga.py:DLGA.random_genome", "kd/model/dlga.py:DLGA.cross_over", "kd/model/dlga.py:DLGA.mutation", "kd/model/dlga.py:DLGA.select"]}
{"id": "C35", "title": "DLGA keeps its best genome", "statement": "The best fitness after each generation is no worse than before it.", "quantifier": "every random outcome and number of generations", "why_tests_cant": "Unbounded runs.", "anchors": ["kd/model/dlga.py:DLGA.evolution", "kd/model/dlga.py:DLGA.select"]}
{"id": "C36", "title": "Displayed equations contain exactly the significant terms", "statement": "The rendered equation lists exactly the terms whose coefficient magnitude reaches the tolerance, each once, in order, with the sign of its coefficient; no significant term gives 'lhs = 0'.", "quantifier": "every coefficient vector and term list", "why_tests_cant": "All sign/magnitude patterns.", "anchors": ["kd/model/sga/sgapde/equation.py:extract_equation_details", "kd/model/sga/sgapde/equation.py:sga_equation_to_latex"]}
{"id": "C37", "title": "Edge trimming and grid steps are sound", "statement": "Edge deletion keeps an interior, in-range, contiguous block of every axis, and the grid step is accepted only for strictly monotone coordinates.", "quantifier": "every axis length and coordinate list", "why_tests_cant": "All sizes; integer rounding of fractions.", "anchors": ["kd/model/sga/sgapde/context.py:_apply_edge_deletion", "kd/model/sga/sgapde/context.py:_compute_delta"]}
{"id": "C38", "title": "Pareto filter returns exactly the non-dominated rows", "statement": "The efficient mask marks a cost row exactly when no other row is at least as good in every objective and strictly better in one; of equal such rows the first is marked.", "quantifier": "every cost matrix", "why_tests_cant": "All matrices with ties and duplicates.", "anchors": ["kd/model/discover/utils.py:is_pareto_efficient"]}
{"id": "C39", "title": "Near-equal filtering and module deduplication lose nothing", "statement": "Filtering programs by score, and removing repeated modules of a DLGA genome, keep a representative of each, in first-occurrence order, and no two kept ones are equal.", "quantifier": "every population with scores that are numbers and tolerance", "why_tests_cant": "All duplicate patterns.", "anchors": ["kd/model/discover/utils.py:filter_same", "kd/model/dlga.py:DLGA.delete_duplicates"]}
{"id": "C40", "title": "An explicit target field is honoured for N-D datasets", "statement": "Fitting an N-D dataset with a user-chosen target field or left-hand-side axis uses exactly the user's choice.", "quantifier": "every dataset and every explicit choice", "why_tests_cant": "Depends on keyword-merging for all option combinations.", "anchors": ["kd/model/kd_sga.py:KD_SGA.fit_dataset", "kd/model/sga/adapter.py:SGADataAdapter.to_solver_kwargs"]}
{"id": "C41", "title": "Retrospective priors are the priors in force", "statement": "The joint prior computed in retrospect for a whole token list is, at every step and for every token, the prior that was in force when the token of that step was drawn.", "quantifier": "every list of priors, every sampled token list, every step and token", "why_tests_cant": "Ranges over all priors and all partial traversals.", "anchors": ["kd/model/discover/dso/prior.py:JointPrior.at_once", "kd/model/discover/dso/prior.py:JointPrior.__call__", "kd/model/discover/aggregator.py:gpAggregator.get_agent_programs"]}
{"id": "C42", "title": "Replayed observations equal recorded ones", "statement": "The observations the genetic aggregator reconstructs for a token list are exactly those the controller records when the same tokens are drawn.", "quantifier": "every library and every token list", "why_tests_cant": "All token lists of all lengths, including padded ones.", "anchors": ["kd/model/discover/aggregator.py:gpAggregator.get_agent_programs", "kd/model/discover/controller.py:Controller.loop_fn"]}
{"id": "C43", "title": "Training recomputes the sampling distribution", "statement": "The network outputs recomputed for training for a recorded episode are the ones the tokens of that episode were sampled from.", "quantifier": "every network, every episode", "why_tests_cant": "A property of two code paths over every network and history; unit tests with zero-initialised cells see no difference.", "anchors": ["kd/model/discover/controller.py:Controller.sample_episodes", "kd/model/discover/controller.py:Controller.make_neglogp_and_entropy"]}
{"id": "C44", "title": "Assembling an expression from terms", "statement": "Joining any non-empty list of complete terms with additions gives a complete expression whose top-level terms are again exactly those terms in order, whose value is their sum, and which is returned unchanged when it is padded to the maximal length and turned into a program; a list longer than the maximal length is rejected, never truncated.", "quantifier": "every number of terms, every term, every maximal length", "why_tests_cant": "Unbounded numbers and sizes of terms.", "anchors": ["kd/model/discover/aggregator.py:gpAggregator.reconstruct_tokens", "kd/model/discover/ga_utils.py:tokens2index", "kd/model/discover/program.py:_finish_tokens"]}
{"id": "C45", "title": "Genetic operators preserve validity", "statement": "Point mutation replaces a token only by one of the same arity and variable kind, so a mutated term is a complete term with the same number of tokens; crossover exchanges whole terms, invents and loses none (a lone term is copied), and never leaves an equation without terms.", "quantifier": "every library, every term, every random draw, every pair of equations", "why_tests_cant": "All draws and all expression shapes.", "anchors": ["kd/model/discover/ga_utils.py:mutate_single", "kd/model/discover/ga_utils.py:cross_over_p", "kd/model/discover/aggregator.py:gpAggregator.mutate_p"]}
{"id": "C46", "title": "Remembered programs can be retrieved", "statement": "At the end of a search every program in the priority memory can be looked up in the program cache under the key stored in the memory, and the lookup returns the very program that was remembered.", "quantifier": "every request history", "why_tests_cant": "All interleavings of sampled, genetic and bypassed requests.", "anchors": ["kd/model/discover/searcher.py:Searcher.search", "kd/model/discover/program.py:from_tokens", "kd/model/discover/program.py:Program.__init__"]}
{"id": "C47", "title": "SGA terms are evaluated correctly", "statement": "Evaluating an SGA term gives the mathematical value of the displayed expression (with the documented zero-division policy), rejects the term exactly when some sub-expression differentiates along the left-hand-side axis or, under the guard policy, divides by zero, and leaves the term ready to be evaluated again with the same result.", "quantifier": "every term generated or mutated by the search in a problem where x, if present, names only an axis, every data, every evaluation history", "why_tests_cant": "All expression shapes and histories of evaluations.", "anchors": ["kd/model/sga/sgapde/pde.py:evaluate_mse", "kd/model/sga/sgapde/tree.py:Node"]}
{"id": "C48", "title": "Legacy derivative names are read unambiguously", "statement": "Normalising a legacy derivative name without underscore inserts the underscore only where the name is a field followed by a repeated axis; a name with two such readings is rejected and any other name is returned unchanged.", "quantifier": "every key, field list and axis list", "why_tests_cant": "All strings.", "anchors": ["kd/model/sga/sgapde/naming.py:normalize_legacy_derivative_key"]}
{"id": "C49", "title": "SGA variable names identify their data", "statement": "In a successfully built SGA problem (finite differences, no parameter fields) no two library variables have the same name, so a displayed term determines which data it was computed from.", "quantifier": "every field/coordinate naming and axis order", "why_tests_cant": "All namings.", "anchors": ["kd/model/sga/sgapde/context.py:_build_vars", "kd/model/sga/sgapde/context.py:_validate_registry_names"]}
{"id": "C50", "title": "The displayed text of an SGA term determines the term", "statement": "Two terms the SGA search can hold that are printed as the same text are the same expression, and two candidates printed as the same text consist of the same terms in the same order, so the duplicate check by text never discards a new candidate.", "quantifier": "every pair of legal terms and candidates over a validated naming", "why_tests_cant": "All expression trees and all field/axis names.", "anchors": ["kd/model/sga/sgapde/tree.py:Tree.inorder", "kd/model/sga/sgapde/pde.py:PDE.visualize"]}
{"id": "C51", "title": "The LaTeX of an SGA term determines its value", "statement": "Two SGA terms rendered as the same LaTeX denote the same function of the data.", "quantifier": "every pair of terms", "why_tests_cant": "All expression shapes.", "anchors": ["kd/model/sga/sgapde/equation.py:sga_equation_to_latex"]}
{"id": "C52", "title": "The displayed SGA equation names the data it was fitted to", "statement": "The left-hand side and the default term in the displayed SGA equation name the target field and the left-hand-side axis that the fit used.", "quantifier": "every dataset, target field and left-hand-side axis", "why_tests_cant": "All configurations.", "anchors": ["kd/model/sga/sgapde/equation.py:sga_equation_to_latex", "kd/model/kd_sga.py:KD_SGA.equation_latex"]}
{"id": "C53", "title": "Point lookup returns the value at those coordinates", "statement": "get_datapoint(i, j) returns the i-th x coordinate, the j-th t coordinate and the solution value stored at them, and raises IndexError outside the grid.", "quantifier": "every dataset over x and t in either axis order, every pair of indices", "why_tests_cant": "All grids, indices and axis orders.", "anchors": ["kd/dataset/_base.py:PDEDataset.get_datapoint"]}
{"id": "C54", "title": "Mesh rows and boundaries describe the grid", "statement": "The rows of mesh() are the coordinates of the entries of the flattened solution, in the same order; get_boundaries (of every axis, also for data in more dimensions) and mesh_bounds are the least and greatest coordinates.", "quantifier": "every dataset with the coordinates in the order of the axes and the default indexing", "why_tests_cant": "All grid sizes and coordinates.", "anchors": ["kd/dataset/_base.py:PDEDataset.mesh", "kd/dataset/_base.py:PDEDataset.mesh_bounds", "kd/dataset/_base.py:PDEDataset.get_boundaries"]}
{"id": "C55", "title": "get_derivative is the derivative along the axis", "statement": "get_derivative(axis) approximates the derivative of the solution with respect to that coordinate; it is exact for solutions linear in it.", "quantifier": "every dataset and axis", "why_tests_cant": "All grids, spacings and data.", "anchors": ["kd/dataset/_base.py:PDEDataset.get_derivative"]}
{"id": "C56", "title": "Loading a file does not depend on its orientation", "statement": "load_pde_dataset gives the same dataset whether the file stores the solution by rows of x or by rows of t, and returns None for a file with missing keys or mismatched sizes.", "quantifier": "every coordinate lengths and solution array", "why_tests_cant": "All shapes.", "anchors": ["kd/dataset/_base.py:load_pde_dataset"]}
{"id": "C57", "title": "Visual intents are drawn exactly when listed", "statement": "render hands an intent to the target's adapter exactly when list_capabilities of the target lists it; otherwise it returns a warning result (with the sorted capabilities when there is an adapter) and draws nothing.", "quantifier": "every registry, target, intent and usable backend", "why_tests_cant": "All registries and capability sets.", "anchors": ["kd/viz/core.py:render", "kd/viz/core.py:list_capabilities"]}
{"id": "C58", "title": "Plot style never leaks", "statement": "After a render call the global plotting parameters and the configured style are what they were before, whether the adapter returns, raises or changes parameters itself; configure(style) gives the defaults overlaid with the given style, independent of earlier calls.", "quantifier": "every style, extra style and adapter behaviour", "why_tests_cant": "All crash points inside the adapter.", "anchors": ["kd/viz/_style.py:style_context", "kd/viz/_style.py:configure", "kd/viz/core.py:render"]}
{"id": "C59", "title": "DLGA reports the fit of the genome it returns", "statement": "The coefficients, fitness and left-hand side returned by the DLGA search are those of the returned genome, its fitness is the best recorded in the last generation, and the left-hand side is the one with the smaller residual.", "quantifier": "every random outcome, every population size and number of generations for which the search runs, all data whose fitness is a number", "why_tests_cant": "Genome lists are shared and changed in place; all random outcomes.", "anchors": ["kd/model/kd_dlga.py:KD_DLGA.evolution", "kd/model/kd_dlga.py:KD_DLGA.select", "kd/model/dlga.py:DLGA.get_fitness"]}
{"id": "C60", "title": "DLGA shows the terms it fitted", "statement": "Each displayed term (text and LaTeX) names exactly the operators whose product was the fitted column, with the fitted coefficient, and the text is the signed sum of the terms.", "quantifier": "every operator list, genome and coefficients", "why_tests_cant": "All operator lists and genomes.", "anchors": ["kd/model/kd_dlga.py:KD_DLGA.generate_meta_data", "kd/model/dlga.py:DLGA.translate_DNA", "kd/model/kd_dlga.py:KD_DLGA.convert_chrom_to_eq", "kd/viz/dlga_eq2latex.py:chromosome_to_latex", "kd/viz/dlga_eq2latex.py:dlga_eq2latex"]}
{"id": "C61", "title": "DLGA trains on matching pairs and loads a saved network", "statement": "Shuffling keeps each input with its output, training and validation parts do not overlap, and the network loaded after training was saved in this run at the chosen epoch, whose recorded validation error is the smallest.", "quantifier": "every data size, random outcome and number of iterations", "why_tests_cant": "All sizes and iteration counts.", "anchors": ["kd/model/dlga.py:DLGA.train_NN"]}
{"id": "C62", "title": "Fitting DLGA does not change the data set", "statement": "After fit_dataset the data set's solution array is what it was before.", "quantifier": "every data set, memory layout, sampling option and random outcome", "why_tests_cant": "Depends on memory layout and sampling.", "anchors": ["kd/model/kd_dlga.py:KD_DLGA.fit_dataset", "kd/model/dlga.py:DLGA.train_NN"]}
{"id": "C63", "title": "Duplicate elimination in the aggregator loses nothing", "statement": "Removing duplicate terms or programs never raises, keeps each kept term with its own values, keeps no two equal ones, and keeps a representative of every distinct value.", "quantifier": "every list of terms with values and lengths", "why_tests_cant": "All patterns of equal values and lengths; the lists are overwritten while they are read.", "anchors": ["kd/model/discover/ga_utils.py:drop_duplicates"]}
{"id": "C64", "title": "Constraints forbid nothing but violations", "statement": "Every complete expression over the library that obeys all the configured constraints can be drawn: the masks remove a token only where it would create a violation.", "quantifier": "every library of operators with at most two operands, set of constraints (effectors of descendant constraints being operators) and expression", "why_tests_cant": "Over-restriction is a statement about all expressions never sampled.", "anchors": ["kd/model/discover/dso/prior.py:JointPrior.__call__", "kd/model/discover/dso/prior.py:RelationalConstraint.__call__", "kd/model/discover/dso/prior.py:LengthConstraint.__call__", "kd/model/discover/controller.py:Controller.sample"]}
{"id": "C65", "title": "The policy network sees exactly the observed features", "statement": "At every step the network input is the concatenation of the one-hot vectors of the observed features (last token, parent, sibling); its computation never fails, and two steps get the same input exactly when they agree on all observed features.", "quantifier": "every library with operators of at most two operands, every choice of features and every token list", "why_tests_cant": "All partial expressions; out-of-range classes would only fail on particular ones.", "anchors": ["kd/model/discover/state_manager.py:HierarchicalStateManager.get_tensor_input", "kd/model/discover/library.py:Library.__init__", "kd/model/discover/task/task.py:HierarchicalTask.get_next_obs"]}
{"id": "C66", "title": "Torch evaluation returns no value built on a degenerate one", "statement": "Evaluating a program with torch returns a value exactly when the plain value of every subexpression exists and is neither all-NaN nor all-infinite; otherwise no value is returned.", "quantifier": "every program, data and operator implementation", "why_tests_cant": "All programs; the degenerate value may arise at any depth.", "anchors": ["kd/model/discover/execute.py:python_execute_torch"]}
{"id": "C67", "title": "Sampled derivatives have the prescribed shape", "statement": "Under the derivative constraints, a sampled derivative differentiates with respect to a single input variable, never differentiates an input variable or the constant (strict: only a state variable or a derivative), contains no forbidden operator anywhere below it, and a Laplace operator is applied to a state variable only.", "quantifier": "every library of operators with at most two operands, every network output and every sampled expression", "why_tests_cant": "All sampled expressions.", "anchors": ["kd/model/discover/dso/prior.py:DiffConstraint_left", "kd/model/discover/dso/prior.py:DiffConstraint_left_strict", "kd/model/discover/dso/prior.py:DiffConstraint_right", "kd/model/discover/dso/prior.py:DiffConstraint_des", "kd/model/discover/dso/prior.py:DiffConstraint_des2", "kd/model/discover/dso/prior.py:LaplaceConstraint"]}
{"id": "C68", "title": "The SGA search does not revisit known candidates", "statement": "Once a candidate produced by crossover or mutation has been evaluated, the same candidate is neither evaluated nor added to the population again, however long the search goes on; a candidate with a new text is evaluated and added with its score.", "quantifier": "every problem, population, sequence of search steps and candidate", "why_tests_cant": "A statement about arbitrarily long histories of the search.", "anchors": ["kd/model/sga/sgapde/solver.py:SGA.cross_over", "kd/model/sga/sgapde/solver.py:SGA.change", "kd/model/sga/sgapde/solver.py:SGA.__init__"]}
{"id": "C69", "title": "SGA crossover and mutation lose and invent no terms", "statement": "Crossover exchanges exactly one term of one candidate for one term of the other and leaves every other term in place; mutation keeps the number of terms and changes each term only by tree mutation, and a replacement puts one newly drawn term in place of one term.", "quantifier": "every pair of candidates and every random outcome", "why_tests_cant": "All candidates and random outcomes.", "anchors": ["kd/model/sga/sgapde/solver.py:SGA.cross_over", "kd/model/sga/sgapde/pde.py:PDE.mutate", "kd/model/sga/sgapde/pde.py:PDE.replace"]}
{"id": "C70", "title": "Coefficients belong to the program's terms and fit the data best", "statement": "Whenever fitting a DISCOVER program succeeds, column j of the fitted matrix is the value of its term j (plus at most one column of ones if a constant was asked for), the returned coefficients are the solver's for exactly that matrix with sizes between 5e-5 and 1e4, the prediction is their combination, and no other coefficients of the same columns predict the data better; it succeeds exactly when no regulation, evaluation or coefficient check fails.", "quantifier": "every program, data, evaluation outcome and setting", "why_tests_cant": "All programs, data and failure points; the matrix is edited while the coefficients are being checked.", "anchors": ["kd/model/discover/stridge.py:STRidge.calculate", "kd/model/discover/stridge.py:STRidge.evaluate_terms", "kd/model/discover/stridge.py:STRidge.coef_calculate", "kd/model/discover/stridge.py:STRidge.wf_calculate"]}
{"id": "C71", "title": "Regulations reject exactly the unphysical programs", "statement": "A program is accepted exactly if every term contains a state variable and has at most 2^max_depth tokens, every term with a derivative has the state variable as an argument, and (if asked for) all coordinates occur equally often; accepted programs lose no term.", "quantifier": "every program and token library", "why_tests_cant": "All programs; the check works on the printed text of the token list.", "anchors": ["kd/model/discover/stridge.py:Regulations.apply_regulations", "kd/model/discover/stridge.py:Regulations.check_single_term", "kd/model/discover/stridge.py:Regulations.check_spatial_regulation"]}
{"id": "C72", "title": "The reward ranks programs by error and size", "statement": "The reward lies between 0 and 1 - lambda*n and reaches that bound exactly for an exact fit; a smaller error (same size) or a smaller size (same predictions) gives a strictly larger reward, a valid program is ranked above invalid ones, the units of the data do not matter, and success is reported exactly for errors below the threshold.", "quantifier": "every data, prediction, number of terms and penalty", "why_tests_cant": "Statements about all real-valued data.", "anchors": ["kd/model/discover/task/pde/pde.py:make_pde_metric", "kd/model/discover/task/pde/pde.py:PDETask.reward_function", "kd/model/discover/task/pde/pde.py:PDETask.evaluate"]}
{"id": "C73", "title": "A numerical warning marks the program that raised it", "statement": "In every history of evaluations, an evaluation is reported invalid exactly if one of its own numerical operations warned, and it returns its own value.", "quantifier": "every history of evaluations", "why_tests_cant": "The warning log is shared by all evaluations; a statement about all histories.", "anchors": ["kd/model/discover/stridge.py:InvalidLog", "kd/model/discover/stridge.py:unsafe_execute", "kd/model/discover/stridge.py:unsafe_execute_torch"]}
{"id": "C74", "title": "The displayed expression determines the program", "statement": "Two valid programs shown as the same text have the same terms in the same order with the same printed coefficients.", "quantifier": "every pair of programs", "why_tests_cant": "All pairs of expressions of any depth.", "anchors": ["kd/model/discover/program.py:Program.str_expression", "kd/model/discover/stridge.py:Node.__repr__"]}
{"id": "C75", "title": "The LaTeX equation means what was fitted", "statement": "The expression handed to SymPy for a term has the term's value whatever variables and derivatives stand for, and each displayed LaTeX term (DISCOVER and DLGA) reads as its base times a number within 5e-5 of the fitted coefficient, in order, none left out.", "quantifier": "every program, genome, coefficients and meaning of the operators", "why_tests_cant": "All expressions and coefficients.", "anchors": ["kd/model/discover/stridge.py:Node.to_sympy_string", "kd/viz/discover_eq2latex.py:discover_program_to_latex", "kd/viz/dlga_eq2latex.py:_format_full_latex_term", "kd/viz/dlga_eq2latex.py:chromosome_to_latex"]}
{"id": "C76", "title": "DISCOVER's derivative operators are exact along the named axis", "statement": "The derivative operators differentiate along the axis they are given and no other: on an even grid of any spacing, first and second derivatives are exact at every point (ends included) for functions quadratic (first), cubic (second, third) in that coordinate with arbitrary dependence on the other axes, and the Laplacian is the sum over the space axes.", "quantifier": "every grid size, spacing, axis and polynomial data", "why_tests_cant": "All grids and data.", "anchors": ["kd/model/discover/task/pde/utils_fd.py:FiniteDiff", "kd/model/discover/task/pde/utils_fd.py:Diff", "kd/model/discover/task/pde/utils_fd.py:Diff_2", "kd/model/discover/task/pde/utils_fd.py:Diff_3", "kd/model/discover/task/pde/utils_fd.py:Diff3", "kd/model/discover/task/pde/utils_fd.py:Diff4"]}
{"id": "C77", "title": "The DISCOVER adapter hands over the right numbers", "statement": "In the data handed to DISCOVER the left-hand-side axis comes first (legacy: last), the space axes follow in the data set's order with their own coordinates, every grid point carries the data set's value and parameter values wherever the axis is stored, and the derivative along the left-hand-side axis is exact at every point for data quadratic in it on an even grid.", "quantifier": "every data set, storage order and grid point", "why_tests_cant": "All data sets and storage orders.", "anchors": ["kd/model/discover/adapter.py:DiscoverRegularAdapter._prepare_nd", "kd/model/discover/adapter.py:DiscoverRegularAdapter._prepare_legacy"]}
{"id": "C78", "title": "The DISCOVER adapters refuse unusable data", "statement": "The regular adapter accepts exactly finite data with enough points on every axis and an evenly spaced left-hand-side axis (up to numpy's tolerance), and a matching dimension if given; no data with non-finite entries or unevenly spaced axes are handed over.", "quantifier": "every data set and option", "why_tests_cant": "All data sets.", "anchors": ["kd/model/discover/adapter.py:DiscoverRegularAdapter", "kd/model/discover/adapter.py:DiscoverSparseAdapter"]}
{"id": "C79", "title": "The sparse adapter measures real points and splits them without loss", "statement": "The measured points are as many as asked for, different grid points (surviving the cut, whole columns for spline sampling) with their own value plus their own noise; training and validation data together are exactly the measured points (80/20; with data_ratio a part of the stated size); all collocation points lie in the box spanned by the coordinates and end with the training points; the evaluation set lists every grid point in row-major order with its value, and parameter fields match it.", "quantifier": "every data set, storage order, option and random outcome", "why_tests_cant": "All random outcomes and data sets.", "anchors": ["kd/model/discover/adapter.py:DiscoverSparseAdapter._prepare_nd", "kd/model/discover/adapter.py:DiscoverSparseAdapter._prepare_legacy", "kd/data.py:SparseData.process_data"]}
{"id": "C80", "title": "KD_EqGPT reports the best equations it evaluated", "statement": "After any number of epochs the leaderboard holds, best first and without equal rewards, the best distinct rewards among all the sentences evaluated so far (as many as the first epoch filled), each with the sentence that earned it, and the best reward of the history never decreases and is the maximum of everything evaluated.", "quantifier": "every number of epochs, every sequence of sampled sentences and rewards", "why_tests_cant": "All histories of epochs.", "anchors": ["kd/model/kd_eqgpt.py:KD_EqGPT.fit_pretrained", "kd/model/kd_eqgpt.py:KD_EqGPT._update_top10", "kd/model/eqgpt/continue_train_GPT_all.py:find_min_no_repeat"]}
{"id": "C81", "title": "EqGPT's simplification removes exactly the repeated terms", "statement": "Simplifying a sampled equation keeps the first of any group of terms with the same factors, in order, keeps everything else as written, loses no term that is not a repetition, and does nothing when applied again.", "quantifier": "every sentence", "why_tests_cant": "All sentences.", "anchors": ["kd/model/eqgpt/continue_train_GPT_all.py:delete_duplicate", "kd/model/kd_eqgpt.py:KD_EqGPT._format_results"]}
{"id": "C82", "title": "Every EqGPT word is computed as the derivative it is written as", "statement": "For every word of the vocabulary that the sampler can produce, the column computed for it is the expression its name denotes (derivatives in the named variables, powers, products) evaluated at every data point.", "quantifier": "every word of the vocabulary, every surrogate function and point", "why_tests_cant": "All fields and points.", "anchors": ["kd/model/eqgpt/calculate_terms.py:calculate_terms", "kd/model/eqgpt/continue_train_GPT_all.py:calculate_reward"]}
{"id": "C83", "title": "EqGPT's reward measures the sampled equation on every case", "statement": "The columns of the regression are the products and quotients of the words of each term in the order written; the first term is the left-hand side and the rest the right-hand side; the reward is the mean over the cases of the penalised R2 of the least-squares fit, never above 1, and 0 for sentences that do not mention the required variables or contain forbidden words.", "quantifier": "every sentence, case and data", "why_tests_cant": "All sentences and data.", "anchors": ["kd/model/eqgpt/continue_train_GPT_all.py:calculate_reward", "kd/model/eqgpt/continue_train_GPT_all.py:get_mask_invalid"]}
{"id": "C84", "title": "EqGPT samples well-formed sentences that respect the mask", "statement": "Every sampled sentence alternates operands and operators, ends with the end word or at the length limit, and contains no masked word, for every network and every random outcome; evaluating a sentence only ever removes words from the mask, and every word that evaluates to NaN on some case is removed.", "quantifier": "every network, random outcome, mask and evaluated sentence", "why_tests_cant": "All networks and random outcomes.", "anchors": ["kd/model/eqgpt/gpt_model.py:GPT.step", "kd/model/eqgpt/continue_train_GPT_all.py:get_mask_invalid"]}
{"id": "C85", "title": "User configuration overrides exactly what it sets", "statement": "Every setting of the user's configuration is found at the same place of the merged configuration, every place the user did not mention keeps its default, and a configuration is refused only if it puts a section where the defaults have a single value.", "quantifier": "every default configuration and every user configuration (any nesting), on every supported Python", "why_tests_cant": "All configurations.", "anchors": ["kd/model/discover/utils.py:safe_merge_dicts", "kd/model/kd_discover.py:KD_Discover.set_config", "kd/model/discover/config/__init__.py:load_config"]}
{"id": "C86", "title": "Re-importing data leaves no trace of earlier data", "statement": "The operators, input dimension, derivative mode, parameter variables, data-set name and output path in force after importing a data set are those a freshly constructed estimator would have, whatever was imported, fitted or refused before.", "quantifier": "every history of imports, failed imports, trainings and raw fits", "why_tests_cant": "All histories of calls.", "anchors": ["kd/model/kd_discover.py:KD_Discover.import_dataset", "kd/model/kd_discover.py:KD_Discover_SPR._inject_nd_config", "kd/model/kd_discover.py:KD_Discover._auto_select_function_set"]}
{"id": "C87", "title": "The rounds of the sparse search keep the better equation", "statement": "In every round the equation used to retrain the network is one found so far and scores on that round's data at least as well as the new one and the one carried over; the returned equation is at least as good.", "quantifier": "every number of rounds, every outcome of the searches and rewards", "why_tests_cant": "All sequences of searches.", "anchors": ["kd/model/kd_discover.py:KD_Discover_SPR.callIterPINN"]}
{"id": "C88", "title": "Several estimators in one process do not disturb each other", "statement": "Training or predicting with an estimator uses that estimator's own latest data and evaluation mode, whatever other estimators did before or in between.", "quantifier": "every interleaving of imports, trainings, fits and predictions of any number of estimators", "why_tests_cant": "All interleavings.", "anchors": ["kd/model/kd_discover.py:KD_Discover.setup", "kd/model/discover/program.py:Program.set_task", "kd/model/discover/task/task.py:set_task"]}
{"id": "C89", "title": "The seed determines the result", "statement": "Two runs with the same seed, settings and data give the same result, whatever random numbers the program drew before.", "quantifier": "every earlier state of the random generators, every seed and data set", "why_tests_cant": "All generator states.", "anchors": ["kd/model/kd_discover.py:KD_Discover.set_seeds", "kd/model/kd_discover.py:KD_Discover.setup", "kd/data.py:SparseData.process_data"]}
{"id": "C90", "title": "Regression predictions are row by row", "statement": "Predicting a table gives, for every row, the value of the reported expression on that row; rows do not influence each other, a table with another number of features or an unfitted estimator is refused, and prediction fails only if the expression has no value on any row.", "quantifier": "every complete expression of elementwise operators, every table", "why_tests_cant": "All expressions and tables.", "anchors": ["kd/model/kd_discover_regression.py:KD_Discover_Regression.predict", "kd/model/discover/program.py:Program.execute_direct", "kd/model/discover/execute.py:python_execute"]}
{"id": "C91", "title": "Reported reward, error and constants belong to the reported expression", "statement": "The reward, mean squared error and constants in the result of a regression fit are those of the returned program's own predictions on the training data, and stay so whatever is done with the program afterwards; the constants are the optimiser's.", "quantifier": "every program, every training table, optimiser and metric, every history of evaluations", "why_tests_cant": "All histories of cached evaluations.", "anchors": ["kd/model/kd_discover_regression.py:KD_Discover_Regression.fit", "kd/model/discover/program.py:Program.r_ridge", "kd/model/discover/program.py:Program.evaluate", "kd/model/discover/program.py:from_str_tokens"]}
{"id": "C92", "title": "What the regression reward measures", "statement": "The reward lies in [0, 1], is 1 exactly for a perfect prediction without length penalty, grows strictly as the squared error falls, does not grow with the length of the program and does not depend on the unit of the target.", "quantifier": "all targets and predictions (real numbers), all penalties and lengths", "why_tests_cant": "Real-valued inequality over all data.", "anchors": ["kd/model/discover/task/regression.py:make_regression_metric"]}
{"id": "C93", "title": "The named expression shows every variable by its name", "statement": "The named expression of a regression result is the expression with every variable replaced by the name the user gave for that column, and nothing else changed.", "quantifier": "every program, any number of variables, all variable names", "why_tests_cant": "All names, including names that contain each other.", "anchors": ["kd/model/kd_discover_regression.py:KD_Discover_Regression._render_named_expression"]}
{"id": "C94", "title": "The reported expression can be read back", "statement": "Reading the reported regression expression with from_str_tokens under the same library gives the same program with the same constants, up to half a unit of the sixth decimal.", "quantifier": "every program and library, all constant values", "why_tests_cant": "All programs and all rational constants.", "anchors": ["kd/model/kd_discover_regression.py:KD_Discover_Regression._serialize_program", "kd/model/kd_discover_regression.py:KD_Discover_Regression._format_constant", "kd/model/discover/program.py:from_str_tokens"]}
{"id": "C95", "title": "result.json tells the truth about a run", "statement": "Wherever the batch runner fails or is killed, a result file that reports success holds the equation this run found with the configured model; exit code 0 means a complete success report; if nothing is killed and files can be written, every run with a known model leaves its own report.", "quantifier": "every configuration, every earlier content of the output directory, every outcome (return, exception, kill) of every step", "why_tests_cant": "All crash points.", "anchors": ["kd/runner.py:main", "kd/runner.py:save_output", "kd/runner.py:save_viz"]}
{"id": "C96", "title": "GPU jobs use the settings of the form", "statement": "A model trained by a GPU job is constructed and fitted with exactly the settings a training in the process would use for the same form.", "quantifier": "every form input, all operator texts and numbers", "why_tests_cant": "All form inputs through JSON and back.", "anchors": ["app.py:_submit_gpu_training", "app.py:_run_local", "kd/runner.py:run_dlga", "kd/runner.py:run_dscv_spr"]}
{"id": "C97", "title": "A run uses the data set it names", "statement": "The data set named in the result is the one the model was trained on; a data file given by the user (also one uploaded with a job) is used or the run fails; submitting leaves no temporary file behind.", "quantifier": "every configuration, every state of the file system, every failing step of a submission", "why_tests_cant": "All configurations and failures.", "anchors": ["kd/runner.py:load_dataset", "kd/runner.py:main", "kd/job.py:submit_gpu_job"]}
{"id": "C98", "title": "Polling a job shows its result", "statement": "After submitting a job, repeated checks never forget it until its result (or its failure) has been shown; a shown equation is the one in that job's result file; a status is never both finished and failed.", "quantifier": "every sequence of clicks and server answers, every status code", "why_tests_cant": "All histories of checks and network failures.", "anchors": ["app.py:check_gpu_status", "app.py:run_training", "kd/job.py:check_job", "kd/job.py:download_result"]}
{"id": "C99", "title": "Operator texts are read exactly", "statement": "A comma-separated operator text gives the operators in order, whatever white space or empty places it has; reading what was read and written again changes nothing.", "quantifier": "every text", "why_tests_cant": "All texts.", "anchors": ["kd/runner.py:_parse_ops", "app.py:_parse_ops"]}
{"id": "C100", "title": "load_pde keeps the meaning of the stored solution", "statement": "load_pde(name) returns a dataset whose value at (x number i, t number j) is the one the file stores for that x and t, whether the file stores it by rows of x or by rows of t; data that fit in neither way are refused.", "quantifier": "every registry entry, every file content, all axis lengths", "why_tests_cant": "All shapes and contents of files.", "anchors": ["kd/dataset/__init__.py:load_pde", "kd/dataset/_base.py:load_pde_dataset"]}
{"id": "C101", "title": "Generated grids span the registered domain", "statement": "A dataset read from a single array has equally spaced coordinates from the registered lower to the registered upper bound on each axis (0 to 1 if none is registered), one per row resp. column of the solution.", "quantifier": "every registry entry and array", "why_tests_cant": "All sizes and bounds.", "anchors": ["kd/dataset/__init__.py:load_pde"]}
{"id": "C102", "title": "Every available dataset loads under its name", "statement": "load_pde returns a dataset for every name in list_available_datasets(); it carries that name (and its legacy alias); any other name is a ValueError.", "quantifier": "every name, registry and data directory", "why_tests_cant": "All registries and directories.", "anchors": ["kd/dataset/__init__.py:load_pde", "kd/dataset/__init__.py:_tag_dataset", "kd/dataset/_registry.py:get_dataset_info", "kd/dataset/_registry.py:list_available_datasets"]}
{"id": "C103", "title": "The deprecated loaders agree with load_pde", "statement": "load_burgers_equation() and load_kdv_equation() return the same grid and values as load_pde('burgers') and load_pde('kdv').", "quantifier": "every content of the data files", "why_tests_cant": "All file contents.", "anchors": ["kd/dataset/_base.py:load_burgers_equation", "kd/dataset/_base.py:load_kdv_equation"]}
{"id": "C104", "title": "Keyword arguments of load_pde take effect", "statement": "The keyword epi is stored in the returned dataset whatever the kind of file; every other keyword is either used or rejected.", "quantifier": "every registry entry and every set of keyword arguments", "why_tests_cant": "All keyword sets.", "anchors": ["kd/dataset/__init__.py:load_pde"]}
{"id": "C105", "title": "Loading is not influenced by earlier datasets", "statement": "What load_pde returns does not depend on what a caller did to datasets loaded before (their domain and alias dictionaries).", "quantifier": "every sequence of loads and edits", "why_tests_cant": "All histories of edits of shared dictionaries.", "anchors": ["kd/dataset/__init__.py:load_pde", "kd/dataset/__init__.py:_tag_dataset"]}
{"id": "C106", "title": "Uploaded files are read like registered ones", "statement": "An uploaded .mat file in either layout, and an uploaded .npy file with a configured shape, give the stored table over the stored (or configured) grid; other files are refused.", "quantifier": "every uploaded file and file configuration", "why_tests_cant": "All shapes and contents.", "anchors": ["kd/runner.py:load_dataset"]}
{"id": "C107", "title": "load_regression returns the registered columns", "statement": "load_regression returns, row by row in file order, the registered feature columns and target column with one variable name per column; an unknown name is a ValueError.", "quantifier": "every table and registry entry", "why_tests_cant": "All tables.", "anchors": ["kd/dataset/__init__.py:load_regression"]}
{"id": "C108", "title": "The token library is what was asked for", "statement": "The library starts with the input variables x1, x2, ..., then for PDE tasks the state variables u1, u2, ..., then the parameters under the names asked for, then one token per entry of the function set, in its order. It is built exactly if every entry is an operator, a number or const and no parameter asks for a taken name; otherwise ValueError.", "quantifier": "every number of variables and parameters, list of names, function set and protection flag", "why_tests_cant": "All function sets and names.", "anchors": ["kd/model/discover/functions.py:create_tokens", "kd/model/discover/library.py:Library"]}
{"id": "C109", "title": "A token name stands for one token", "statement": "Two tokens of a library have different names, so the text form of an expression (names joined by commas) is read back as the same expression.", "quantifier": "every accepted function set and every sequence of tokens", "why_tests_cant": "All function sets, names and expressions.", "anchors": ["kd/model/discover/functions.py:create_tokens", "kd/model/discover/library.py:Library.actionize", "kd/model/discover/library.py:Library.__getitem__"]}
{"id": "C110", "title": "Protection changes only values near singularities", "statement": "Asking for protected operators changes neither the names, nor the operand numbers, nor the order of the tokens; a protected division, inversion or power is the exact one away from singularities and overflow, keeps the sign and is bounded everywhere.", "quantifier": "every function set; every pair of operands", "why_tests_cant": "All function sets and operand values.", "anchors": ["kd/model/discover/functions.py:create_tokens", "kd/model/discover/functions.py:protected_div", "kd/model/discover/functions.py:protected_inv", "kd/model/discover/functions.py:protected_div_torch"]}
{"id": "C111", "title": "Switching to torch operators replaces exactly the operators", "statement": "When an expression is switched for evaluation with a network, each operator is replaced by its torch version with as many operands, and variables are left alone; a function set with an operator without torch version is refused at set-up.", "quantifier": "every function set and every expression over its library", "why_tests_cant": "All expressions and function sets.", "anchors": ["kd/model/discover/functions.py:add_torch_tokens", "kd/model/discover/program.py:Program.switch_tokens"]}
{"id": "C112", "title": "Residuals are actual minus predicted", "statement": "The data handed to residual, parity and field-comparison figures contains, value by value, actual minus predicted; inputs whose shapes do not fit are refused with ValueError instead of being drawn.", "quantifier": "every pair of arrays of any shape and every list of coordinates", "why_tests_cant": "All shapes and values.", "anchors": ["kd/viz/_contracts.py:ResidualPlotData", "kd/viz/_contracts.py:ParityPlotData", "kd/viz/_contracts.py:FieldComparisonData"]}
{"id": "C113", "title": "Slicing keeps every value at its place", "statement": "Cutting a field comparison with three or more space axes down to two fixes the chosen axis at the chosen position and further axes at their middle; every true, predicted and residual value shown is the value of the data at exactly that point. Data with at most two space axes is unchanged.", "quantifier": "every number of axes, sizes, chosen axis and position (negative and out of range included)", "why_tests_cant": "All shapes, axes and positions.", "anchors": ["kd/viz/_contracts.py:FieldComparisonData.slice_3d_to_2d"]}
{"id": "C114", "title": "Time slices show the times asked for", "statement": "Each panel of a time-slice figure shows the data at a grid time closest to a requested time, every requested time has a panel, and the time written on the panel is the time of the data shown.", "quantifier": "every time grid and list of requested times", "why_tests_cant": "All grids and requests.", "anchors": ["kd/viz/_adapters/sga.py:SGAVizAdapter._resolve_time_indices", "kd/viz/_adapters/dlga.py:DLGAVizAdapter._time_slices"]}
{"id": "C115", "title": "SGA figures show the data and the discovered equation", "statement": "SGA's field comparison draws each value at its own coordinates whatever the axis order; its parity and residual figures compare the left-hand side with the right-hand side of the discovered equation.", "quantifier": "every axis order, data set and equation", "why_tests_cant": "All axis orders and fields.", "anchors": ["kd/viz/_adapters/sga.py:SGAVizAdapter._build_field_comparison_nd", "kd/viz/_adapters/sga.py:SGAVizAdapter._residual", "kd/viz/_adapters/sga.py:SGAVizAdapter._parity"]}
{"id": "C116", "title": "DLGA figures show the reported equation", "statement": "DLGA's parity figure predicts with exactly the reported terms and coefficients; its term figure shows the terms of largest coefficient, in decreasing order, with their own values.", "quantifier": "every fitted model and number of terms asked for", "why_tests_cant": "All genomes, coefficients and fields.", "anchors": ["kd/viz/_adapters/dlga.py:DLGAVizAdapter._build_parity_data", "kd/viz/_adapters/dlga.py:DLGAVizAdapter._build_term_relationship_data"]}
{"id": "C117", "title": "The reward history never falls and is labelled by epoch", "statement": "The reward-evolution figure shows after each batch the best reward so far (so it never falls); each density curve is labelled with the epoch its rewards come from and there are at most max_curves of them.", "quantifier": "every reward history and list of epochs", "why_tests_cant": "All histories.", "anchors": ["kd/viz/_adapters/discover.py:DiscoverVizAdapter._build_reward_evolution", "kd/viz/_adapters/discover.py:DiscoverVizAdapter._density"]}
{"id": "C118", "title": "DISCOVER's field figures show what was trained on", "statement": "The right-hand side drawn for a discovered equation is, at every grid point and time, the value that training used: coefficients times terms, with the same derivatives; the axes are the coordinates of the data.", "quantifier": "every equation over the token library, field and grid", "why_tests_cant": "All expressions and fields.", "anchors": ["kd/viz/discover_viz.py:_evaluate_term_recursively", "kd/viz/discover_viz.py:_calculate_pde_fields"]}
{"id": "C119", "title": "A returned picture path holds this call's picture", "statement": "When a figure handler returns a path, the file at that path is the picture of this call's model and data, not of an earlier call; no other picture changes.", "quantifier": "every sequence of figure calls into one directory, and rendering failures", "why_tests_cant": "All histories of a directory.", "anchors": ["kd/viz/_adapters/dlga.py:DLGAVizAdapter._field_comparison", "kd/viz/equation_renderer.py:render_latex_to_image"]}
{"id": "C120", "title": "The PySR estimator reports the fit on the given data", "statement": "KD_PySR.fit refuses features that are not a table with one row per target, passes the configured iterations, operators and extra arguments to PySR, and afterwards equation, predictions and parity figure are those of this fit, whatever was fitted before; before a fit they raise RuntimeError.", "quantifier": "every data set, configuration, backend behaviour and history of fits", "why_tests_cant": "All histories and backend failures.", "anchors": ["kd/model/kd_pysr.py:KD_PySR", "kd/viz/_adapters/pysr.py:PySRVizAdapter"]}
{"id": "C121", "title": "Sparse mode trains on every observation", "statement": "In the sparse mode every observation reaches the network exactly once with its own value (training and validation split, both used after pretraining), and points of the domain box reach it scaled to [-1, 1] on every axis.", "quantifier": "every sample set, split, box and number of coordinates", "why_tests_cant": "All sample sets and draws.", "anchors": ["kd/model/discover/pinn.py:PINN_model.import_outter_data", "kd/model/discover/pinn.py:PINN_model.pretrain", "kd/model/discover/pinn.py:PINN_model.net_u"]}
{"id": "C122", "title": "Pretraining keeps the network that validates best", "statement": "Pretraining stops at the epoch limit or when the validation loss has not improved for the configured duration; the saved checkpoint, and the network used afterwards, is the one with the lowest validation loss; a configured checkpoint is used instead of training.", "quantifier": "every network, optimiser, data set, limit and duration", "why_tests_cant": "All loss sequences, including NaN.", "anchors": ["kd/model/discover/pinn.py:PINN_model.pretrain"]}
{"id": "C123", "title": "Training with discovered equations", "statement": "Each round trains the network on the observation error plus coef times the residual of all given equations; the last round stops 200 epochs after the last improvement and its best checkpoint is the network with the lowest loss.", "quantifier": "every network, optimiser, list of equations, coefficient and number of epochs", "why_tests_cant": "All loss sequences.", "anchors": ["kd/model/discover/pinn.py:PINN_model.train_pinn"]}
{"id": "C124", "title": "The residual is the equation's residual", "statement": "The loss of an equation is the mean over the points of (left-hand side minus the sum of coefficient times term, constant included) squared.", "quantifier": "every equation, coefficient list and set of points", "why_tests_cant": "All equations and points.", "anchors": ["kd/model/discover/loss.py:pinn_loss", "kd/model/discover/stridge.py:STRidge.calculate_RHS"]}
{"id": "C125", "title": "The search points of the sparse mode", "statement": "The search works on the collocation points within the cut ratio's quantiles of every coordinate, with the network's value and time derivative at each; cutting removes only the stated share (nothing for ratio 0).", "quantifier": "every set of collocation points, cut ratio and network", "why_tests_cant": "All point sets and ratios.", "anchors": ["kd/model/discover/task/pde/utils_noise.py:cut_bound_quantile", "kd/model/discover/task/pde/pde_pinn.py:PDEPINNTask.AD_generate_mD", "kd/model/discover/task/pde/pde_pinn.py:PDEPINNTask.AD_generate_1D"]}
{"id": "C126", "title": "Parameters in the sparse mode", "statement": "A constant parameter field enters the sparse search with its value at every point; a varying one is refused with NotImplementedError.", "quantifier": "every parameter field", "why_tests_cant": "All fields.", "anchors": ["kd/model/discover/task/pde/pde_pinn.py:PDEPINNTask._refresh_param_refs"]}
{"id": "C127", "title": "Selection by stability", "statement": "With stability selection the reported program is, among the first candidates of the queue, the one that most often has the lowest product of resampled error and coefficient variation; the resampled error is the least-squares error, 0 for an equation the data satisfy exactly.", "quantifier": "every queue, data set and all random draws", "why_tests_cant": "All resamples and candidate lists.", "anchors": ["kd/model/discover/searcher.py:Searcher.search", "kd/model/discover/utils.py:criterion", "kd/model/discover/task/pde/pde_pinn.py:PDEPINNTask.cal_mse_cv"]}
{"id": "C128", "title": "What the EqGPT constructor accepts", "statement": "KD_EqGPT accepts exactly the scenario wave_breaking, positive integer counts of epochs and samples, the filters N and all, and a non-negative integer seed; everything else is refused with ValueError or TypeError, and an accepted object holds the arguments as given.", "quantifier": "every combination of argument values and types", "why_tests_cant": "All argument combinations.", "anchors": ["kd/model/kd_eqgpt.py:KD_EqGPT.__init__"]}
{"id": "C129", "title": "Which cases EqGPT searches", "statement": "The search uses exactly the cases selected by the filter, in the order of their names, each with its own network, times and period as given in its name; a case that cannot be used is reported; with no case the call fails.", "quantifier": "every case table, filter, set of shipped networks and retraining setting", "why_tests_cant": "All case tables and names.", "anchors": ["kd/model/kd_eqgpt.py:KD_EqGPT._load_surrogates", "kd/model/kd_eqgpt.py:KD_EqGPT._build_single_surrogate"]}
{"id": "C130", "title": "The surrogate network that validates best is used", "statement": "Training and validation rows are disjoint and nearly all rows are used; of the networks saved every 500 updates the one with the lowest validation error is the one the search uses.", "quantifier": "every data set, shuffle, network, optimiser and number of updates", "why_tests_cant": "All error sequences, including NaN.", "anchors": ["kd/model/kd_eqgpt.py:KD_EqGPT._train_single_surrogate", "kd/model/kd_eqgpt.py:KD_EqGPT._build_single_surrogate"]}
{"id": "C131", "title": "Surrogates are evaluated where they were trained", "statement": "The surrogate's value used for a time and place of the search grid is the network's value for this time and place, in the coordinates the network was trained in; row i*nx+j of the grid is time i and position j.", "quantifier": "every period, measured time range, network and grid point", "why_tests_cant": "All networks and points.", "anchors": ["kd/model/kd_eqgpt.py:KD_EqGPT._train_single_surrogate", "kd/model/kd_eqgpt.py:KD_EqGPT._build_single_surrogate"]}
{"id": "C132", "title": "What a fine-tuning batch teaches", "statement": "A batch of sentences is a rectangular table; the loss counts exactly, for every sentence and position, the next word after the words before it, and never the padding.", "quantifier": "every batch of sentences (which never contain the padding word)", "why_tests_cant": "All batches.", "anchors": ["kd/model/eqgpt/continue_train_GPT_all.py:MyDataSet.padding_batch", "kd/model/eqgpt/continue_train_GPT_all.py:MyDataSet.__getitem__"]}
{"id": "C133", "title": "Training sentences are the equation", "statement": "Every sentence made from an equation for training the generator is that equation - its terms in some order, each term's factors in some order - framed by the start word and a final end word; each equation gives the same number of sentences.", "quantifier": "every equation of the table and all random draws", "why_tests_cant": "All equations and orders.", "anchors": ["kd/model/eqgpt/read_dataset.py:data_augumentation_plus", "kd/model/eqgpt/read_dataset.py:data_augumentation_multiply", "kd/model/eqgpt/read_dataset.py:get_train_dataset"]}
{"id": "C134", "title": "A withheld equation is not taught", "statement": "Training with the name of an equation to withhold uses no sentence made from that equation.", "quantifier": "every table, name and number of sentences per equation", "why_tests_cant": "All tables.", "anchors": ["kd/model/eqgpt/read_dataset.py:get_train_dataset", "kd/model/eqgpt/read_dataset.py:read_dataset", "kd/model/eqgpt/surrogate_model.py"]}
{"id": "C135", "title": "The vocabulary is a bijection", "statement": "The vocabulary made from a set of equations encodes every word of it, different words get different numbers, decoding gives the word back, and the special words keep the numbers 0 to 5.", "quantifier": "every set of equations", "why_tests_cant": "All sets of words.", "anchors": ["kd/model/eqgpt/read_dataset.py:get_words"]}
{"id": "C136", "title": "kd.utils.FiniteDiff differentiates", "statement": "FiniteDiff(u, dx, order) is the derivative of the stated order on an even grid: exact for quadratics (order 1), cubics (order 2) and polynomials of degree 4 and 5 (orders 3 and 4) at every point; unsupported orders and too few points are refused.", "quantifier": "every polynomial, grid, step and order", "why_tests_cant": "All polynomials, steps and indices.", "anchors": ["kd/utils/utils_fd.py:FiniteDiff"]}
{"id": "C137", "title": "FiniteDifferenceOperator differentiates along the rows", "statement": "diff and compute return the derivative along the first axis, column by column, for float and integer data alike; a result does not change through later computations; other orders and too few rows are refused.", "quantifier": "every array, dtype, step, order and sequence of calls", "why_tests_cant": "All arrays and call sequences.", "anchors": ["kd/utils/solver.py:FiniteDifferenceOperator"]}
{"id": "C138", "title": "Attrdict: attributes are keys", "statement": "After any history of assignments and deletions in attribute or key notation, reading a name in either notation gives the value assigned last; a missing name raises AttributeError or KeyError.", "quantifier": "every history of operations and every name", "why_tests_cant": "All histories and names.", "anchors": ["kd/utils/attrdict.py:Attrdict"]}
{"id": "C139", "title": "SGA's network derivatives are the field's derivatives", "statement": "With use_autograd, if the network trained on the data represents the field, the derivatives SGA uses (first derivatives along every axis; u_t, u_x, u_xx, u_xxx on an x-t grid) are the derivatives of the field at every grid point, with and without normalisation, on the grid used and on the original grid.", "quantifier": "every grid, field, network, axis and normalisation", "why_tests_cant": "Holds for all grids and networks; tests check one network within a tolerance.", "anchors": ["kd/model/sga/sgapde/context.py:_autograd_high_order_2d,_calculate_derivatives_autograd", "kd/model/sga/sgapde/metann.py:prepare_training_data"]}
{"id": "C140", "title": "Refined data are the network's values", "statement": "With use_metadata, the refined axes keep the end points and have fine_ratio times as many evenly spaced points, and the refined field is, at every refined point, the value of the field the network represents; a missing network file raises an error the caller can handle.", "quantifier": "every grid, ratio, field and network", "why_tests_cant": "All grids and networks.", "anchors": ["kd/model/sga/sgapde/context.py:_generate_metadata"]}
{"id": "C141", "title": "Which network SGA differentiates", "statement": "Every differentiated field gets exactly one network: the one given for it, else the one in its file, else one trained on its current data; unknown fields and a missing target are refused; networks of one run do not enter another.", "quantifier": "every configuration, set of fields and files, and every later run with the same configuration", "why_tests_cant": "All configurations and histories.", "anchors": ["kd/model/sga/sgapde/context.py:_calculate_derivatives_autograd,_resolve_model"]}
{"id": "C142", "title": "SGA's finite-difference derivatives", "statement": "On an evenly spaced N-D grid the derivative of each field along each axis uses the line through the point and the step of that axis, is exact for quadratic fields at every grid point (higher derivatives of the target along the primary axis: exact for cubics away from the ends), and the variable field_axis offered to the search is the derivative of that field along that axis.", "quantifier": "every grid shape, step, field, axis and grid point", "why_tests_cant": "All grids, steps and polynomials.", "anchors": ["kd/model/sga/sgapde/context.py:_calculate_derivatives_difference,_compute_grad_fields,_finite_diff_along_axis"]}
{"id": "C143", "title": "SGA's built-in problems and data error", "statement": "A problem name, up to case, outer blanks and separators, selects a built-in problem exactly if it is one of its names; arrays handed over are used and never mixed with bundled ones; an unknown name without data is refused; and the reported data error is zero exactly if the data satisfy the problem's equation at every point.", "quantifier": "every name, combination of arrays handed over, and every data set", "why_tests_cant": "All names and data sets.", "anchors": ["kd/model/sga/sgapde/config.py:SolverConfig", "kd/model/sga/sgapde/context.py:_build_registry_payload_from_config", "kd/model/kd_sga.py:KD_SGA.fit_dataset"]}
{"id": "C144", "title": "Dataset descriptions", "statement": "DatasetInfo.from_dict accepts any dictionary, ignores unknown keys, and makes the keywords a list; copy() gives an equal, independent description; == compares the shown values of all fields; update() sets exactly the named attributes or, on an unknown name, changes nothing.", "quantifier": "every dictionary, description, sequence of updates and later mutation of a list", "why_tests_cant": "All dictionaries and histories, including aliasing.", "anchors": ["kd/dataset/_info.py:DatasetInfo"]}
{"id": "C145", "title": "Loading a data file", "statement": "PDEDataLoader.load_data reads the explicit file if given, else the first of name.csv/.mat/.npy/.npz that exists; anything else is reported; a csv file gives all its data rows.", "quantifier": "every directory content, name, file and csv table", "why_tests_cant": "All directory contents and tables.", "anchors": ["kd/dataset/_base.py:PDEDataLoader,load_csv_data,load_numpy_data"]}
{"id": "C146", "title": "Extending the dataset classes", "statement": "Every subclass of a valid dataset class that has (or inherits) get_data, x, t and usol can be defined.", "quantifier": "every class body and list of bases", "why_tests_cant": "All class hierarchies.", "anchors": ["kd/dataset/_base.py:MetaBase,MetaData,PDEDataset"]}
{"id": "C147", "title": "Spline samples", "statement": "PDEDataset.sample(n, method='spline') returns points and values in which the value in a row is that of the interpolant at the point in the same row.", "quantifier": "every interpolant and grid", "why_tests_cant": "All grids and solutions.", "anchors": ["kd/dataset/_base.py:PDEDataset.sample"]}
{"id": "C148", "title": "EqGPT's network looks back only", "statement": "What EqGPT's network says at a position of a word sequence that begins with a word (not padding) depends only on the words up to that position, for every set of weights and number of layers and heads, so padding or any words after it do not change it; one result per word is returned up to the number of positions.", "quantifier": "every network and pair of word sequences that agree up to a position", "why_tests_cant": "All weights and all continuations.", "anchors": ["kd/model/eqgpt/gpt_model.py:GPT,Decoder,DecoderLayer,MultiHeadAttention,ScaledDotProductAttention,get_attn_pad_mask,get_attn_subsequence_mask"]}
{"id": "C149", "title": "EqGPT's fine-tuning loss is the sampler's likelihood", "statement": "For every batch of sentences of any lengths, padded as the data loader pads them, the terms of the fine-tuning loss are exactly the words after the first of every sentence, each against the distribution from which the sampler would draw it after the words before it; nothing of the padding or of other sentences enters.", "quantifier": "every network and batch of sentences that fit the positions of the network", "why_tests_cant": "All batches and weights.", "anchors": ["kd/model/eqgpt/continue_train_GPT_all.py:train_step,MyDataSet,make_data", "kd/model/eqgpt/gpt_model.py:GPT.forward,GPT.test_gpt"]}
{"id": "C150", "title": "Soft priors", "statement": "The uniform-arity prior makes all arities of the library equally likely under an indifferent controller; the soft length prior makes terminals less likely before its target length and more likely after it.", "quantifier": "every library, logits, position and target", "why_tests_cant": "All libraries and positions.", "anchors": ["kd/model/discover/dso/prior.py:UniformArityPrior,SoftLengthPrior"]}
{"id": "C151", "title": "Regression of DLGA", "statement": "The coefficients DLGA reports for a candidate are those that fit its terms to the left-hand side best; an exact relation between the terms and the left-hand side is recovered.", "quantifier": "every left-hand side, list of term columns and admissible singular vector", "why_tests_cant": "All data and candidates; the singular vector is only determined up to sign.", "anchors": ["kd/model/dlga.py:DLGA.calculate_SVD,get_fitness"]}
{"id": "C152", "title": "Training record of DLGA", "statement": "The histories of a DLGA estimator hold every generation of the search and every training iteration of every fit, in order, numbered without gaps.", "quantifier": "every sequence of fits", "why_tests_cant": "All histories of fits.", "anchors": ["kd/model/kd_dlga.py:KD_DLGA.fit", "kd/model/dlga.py:DLGA.evolution,train_NN"]}
{"id": "C153", "title": "DLGA does not explain the left-hand side by itself", "statement": "The equation DLGA discovers never has its own left-hand side as a term on the right.", "quantifier": "every list of operators and candidate", "why_tests_cant": "All operator lists.", "anchors": ["kd/model/kd_dlga.py:KD_DLGA.__init__", "kd/model/dlga.py:DLGA.translate_DNA"]}
{"id": "C154", "title": "Weighted quantile", "statement": "The baseline quantile over the memory queue and the fresh samples is the least reward whose cumulative weight reaches the level, whatever the order of equal rewards; the combined weights add up to one.", "quantifier": "every list of rewards, weights and level", "why_tests_cant": "All weightings, ties and levels.", "anchors": ["kd/model/discover/utils.py:weighted_quantile", "kd/model/discover/dso/variance.py:quantile_variance"]}
{"id": "C155", "title": "Empirical entropy", "statement": "The reported entropy of the sampled expressions is Shannon's entropy of their frequencies: between 0 and the logarithm of the number of distinct ones, 0 exactly when all agree, independent of order and naming.", "quantifier": "every sequence of labels", "why_tests_cant": "All sequences and label types.", "anchors": ["kd/model/discover/utils.py:empirical_entropy"]}
{"id": "C156", "title": "Error measures of a prediction", "statement": "R2 is at most 1 and 1 exactly for a perfect prediction, non-negative exactly when the prediction is no worse than the mean, and undefined exactly for constant data; the relative L2 error and the root mean square error are 0 exactly for a perfect prediction; R2 and the relative error do not depend on the unit of the data.", "quantifier": "every pair of columns of equal length", "why_tests_cant": "All data.", "anchors": ["kd/model/discover/utils.py:R2,l2_error,eval_result"]}
{"id": "C157", "title": "Stored samples stay whole", "statement": "Actions, observations, priors, length, reward and policy flag of a sample stay together through storing, selection of the best, sampling from the memory and reading it back; every entry carries one whole row of one pushed batch under the name of its program; sampling fails exactly on an empty memory.", "quantifier": "every history of pushed batches, every capacity and kind of queue, every sequence of draws", "why_tests_cant": "All histories of the memory.", "anchors": ["kd/model/discover/memory.py:Batch,get_samples,make_queue,ProgramQueueMixin"]}
{"id": "C158", "title": "Copies of programs", "statement": "A program that is copied or sent to a worker process carries its reward, coefficients, validity and counters with it.", "quantifier": "every program and every attribute set on it", "why_tests_cant": "All states a program can be in when it is copied.", "anchors": ["kd/model/discover/program.py:Program.__getstate__"]}
{"id": "C159", "title": "Splitting programs into objects", "statement": "With several objects per program, a traversal that lists n expressions one after the other is split into exactly these n expressions.", "quantifier": "every list of expressions over every vocabulary", "why_tests_cant": "All lengths, arities and nestings.", "anchors": ["kd/model/discover/program.py:Program._split_traversal"]}
{"id": "C160", "title": "SymPy form of a program", "statement": "The expression handed to SymPy has the value of the program for every value of its variables and other functions, and none of the program's own arithmetic names is left in it.", "quantifier": "every expression tree with the right number of operands", "why_tests_cant": "All trees and values.", "anchors": ["kd/model/discover/program.py:convert_to_sympy,build_tree"]}
{"id": "C161", "title": "Aggregator results", "statement": "A call of the GP aggregator returns exactly those of its own programs that beat every program submitted, leaves the submitted programs as they are, and keeps a record that never falls and is at least every reward seen; it fails only without programs or without an expression of its own.", "quantifier": "every list of programs, every set of programs from the genetic step and the regression, every history of calls", "why_tests_cant": "All batches and histories.", "anchors": ["kd/model/discover/aggregator.py:gpAggregator.__call__", "kd/model/discover/ga_utils.py:drop_duplicates"]}
{"id": "C162", "title": "Symmetric completion of terms", "statement": "Completing a term between the space directions gives the terms of the same form in the other directions (u_xx to u_yy), never fails, keeps all given terms and adds only completions of them.", "quantifier": "every library, every term and every list of terms", "why_tests_cant": "All terms, dimensions and numbers of variables.", "anchors": ["kd/model/discover/ga_utils.py:complete,spatial_complete"]}
{"id": "C163", "title": "Expanded derivatives in displayed equations", "statement": "A term that is a first derivative of a compound expression is displayed with its derivative worked out; this changes no value, leaves every other term as it is, and what a reader computes from the displayed right-hand side is the fitted right-hand side.", "quantifier": "every term, every coefficient, every values of the functions", "why_tests_cant": "All expressions, all functions.", "anchors": ["kd/viz/discover_eq2latex.py:_is_first_order_compound_derivative,_expand_first_order", "kd/viz/dlga_eq2latex.py:_format_full_latex_term"]}
{"id": "C164", "title": "The training loss is made of the sampler's probabilities", "statement": "The loss the DISCOVER policy is trained with contains, for every sequence, the negative logarithm of the very probability with which the sampler draws its expression, whatever is recorded after the end of the expression; forbidden tokens get no probability and no gradient; the entropy bonus is the entropy of the sampler's distributions; the terms are combined as the settings say; the loss is finite.", "quantifier": "every network output, prior, batch, queue and setting", "why_tests_cant": "All real outputs, sequence lengths and vocabularies.", "anchors": ["kd/model/discover/controller.py:safe_cross_entropy,make_neglogp_and_entropy,train_step"]}
{"id": "C165", "title": "The configured constraints are in force in every search", "statement": "Every search of a DISCOVER estimator, in regular and in sparse mode, uses exactly the constraints and priors that are switched on in the configuration and valid for the data's library, in its order; importing data again or training again does not change them.", "quantifier": "every configuration, library and sequence of import_dataset, fit and train calls", "why_tests_cant": "All histories of calls.", "anchors": ["kd/model/discover/dso/prior.py:make_prior,JointPrior", "kd/model/kd_discover.py:KD_Discover.setup,make_prior,train,KD_Discover_SPR.train", "kd/model/discover/controller.py:Controller.__init__"]}
{"id": "C166", "title": "Report of constraint counts", "statement": "With count_constraints on, searching works as before, and the report gives for every hard constraint, under a name of its own, how many token choices it has forbidden, as a share of the choices there were.", "quantifier": "every list of priors and every sequence of calls", "why_tests_cant": "All configurations and histories.", "anchors": ["kd/model/discover/dso/prior.py:JointPrior.__init__,__call__,report_constraint_counts", "kd/model/kd_discover.py:KD_Discover.info"]}
{"id": "C167", "title": "A configuration used for several contexts", "statement": "Every ProblemContext built from a SolverConfig analyses the data the configuration holds at that moment: the same data when nothing was changed, the new arrays, grid or axis order after they were assigned.", "quantifier": "every configuration and sequence of assignments and constructions", "why_tests_cant": "All histories.", "anchors": ["kd/model/sga/sgapde/context.py:_load_data,_build_registry_payload_from_config", "kd/model/sga/sgapde/config.py:SolverConfig"]}
{"id": "C168", "title": "Surrogate network training of SGA", "statement": "Training the network on a grid does not change the random numbers the caller draws afterwards (also when it raises), gives the same network for the same data, settings and seed whatever was drawn before, uses exactly the requested share of the grid points (rounded down), each at most once and with its own value, and raises exactly for unusable data or a share outside (0, 1].", "quantifier": "all data, shares, seeds, numbers of epochs, networks and states of the generators", "why_tests_cant": "All inputs and generator states.", "anchors": ["kd/model/sga/sgapde/metann.py:train_metanet"]}
{"id": "C169", "title": "Training in the web form shows what was discovered", "statement": "When training started in the web form succeeds, the form shows the equation of the fitted model, keeps the model and offers its plot types; an error is shown only if loading or training failed.", "quantifier": "every dataset, model, set of parameters and outcome of the fit", "why_tests_cant": "All inputs and outcomes.", "anchors": ["app.py:run_training,_run_local,_get_equation_text,_get_model_capabilities"]}
{"id": "C170", "title": "The web form offers the models a dataset is marked for", "statement": "For every dataset that is not pending the form offers exactly the models the registry marks as supported, plus EqGPT, each once, and selects one of them.", "quantifier": "every registry and dataset name", "why_tests_cant": "All registries.", "anchors": ["app.py:MODEL_KEYS,ACTIVE_DATASETS,get_compatible_models,on_dataset_change", "kd/dataset/_registry.py:PDE_REGISTRY"]}
{"id": "C171", "title": "Figures in the web form", "statement": "Requesting a figure shows it exactly if the plot could be drawn without warnings (an in-memory figure first, else the first file), writes files only into a temporary directory that is removed, and leaves the configured directory for figures as it was.", "quantifier": "every model, plot type, outcome of drawing and configuration", "why_tests_cant": "All outcomes and configurations.", "anchors": ["app.py:run_viz", "kd/viz/_style.py:configure"]}
{"id": "C172", "title": "Data sets DISCOVER knows by name", "statement": "import_inner_data with a name of the list loads that data set: solution, places and time derivatives (finite difference of every row with the time step) and the true equation, independently of the working directory and of earlier imports; other names and other types are refused.", "quantifier": "every name, type, working directory and earlier state", "why_tests_cant": "All names, directories and histories.", "anchors": ["kd/data.py:data_list,RegularData.__init__,load_data", "kd/model/kd_discover.py:KD_Discover.import_inner_data"]}
{"id": "C173", "title": "Equation text of the base class DLGA", "statement": "convert_chrom_to_eq writes the left-hand side, an equals sign and one term per module in the order of the genome, each term the coefficient and the names of its factors joined by stars, the terms joined by plus signs; nothing is dropped, doubled or glued together.", "quantifier": "every genome without empty modules, every left-hand side and list of coefficients", "why_tests_cant": "The text is assembled by appending and popping pieces; it must be right for every number of modules and genes.", "anchors": ["kd/model/dlga.py:DLGA.convert_chrom_to_eq"]}
{"id": "C174", "title": "A whole search of DISCOVER", "statement": "Whatever is drawn in any number of iterations, the best program a search reports is an expression that was drawn, is complete, obeys every configured constraint and has the reported reward, and no expression drawn in the whole run has a larger one; nothing is reported exactly if no drawn expression has a number as reward; there is exactly one program object per expression drawn; the head of the memory attains the best reward.", "quantifier": "every library, list of sound constraints with a length limit, number of iterations, batch sizes, drawn rows and reward function", "why_tests_cant": "It speaks about entire runs with arbitrary random draws.", "anchors": ["kd/model/discover/searcher.py:Searcher.search_one_step,Searcher.search", "kd/model/discover/program.py:from_tokens,_finish_tokens", "kd/model/discover/dso/prior.py:JointPrior"]}
{"id": "C175", "title": "DISCOVER recovers an equation the data satisfy", "statement": "If the data satisfy exactly an equation with the terms of an expression, the fit of that expression returns the coefficients of the equation and reproduces the data; its reward is 1 - lambda n for n terms, and no expression with as many terms or more has a larger one; once such an expression is drawn in any iteration, the search reports a valid equation with at least this reward and, if one more term costs more than the rounding, with at most n terms.", "quantifier": "every task, library, data set and run in which the expression is drawn", "why_tests_cant": "It speaks about all data sets and all runs, and about optimality over all expressions.", "anchors": ["kd/model/discover/program.py:r_ridge", "kd/model/discover/stridge.py:STRidge.calculate", "kd/model/discover/task/pde/pde.py:PDETask.reward_function", "kd/model/discover/searcher.py:Searcher.search"]}
{"id": "C176", "title": "A whole run of SGA", "statement": "Whatever is drawn, a run of SGA never fails on its own; the reported text, score and equation belong to one candidate whose terms are terms of the problem with finite nonzero columns; the score is that of the coefficients fitted on exactly these columns and the least of all coefficient vectors tried; the displayed equation has the default term and these terms with these coefficients, without negligible ones; and no candidate scored in the whole run is better.", "quantifier": "every problem, kernel, regression, population size, number of generations and random outcome", "why_tests_cant": "It speaks about entire runs with arbitrary random draws.", "anchors": ["kd/model/sga/sgapde/solver.py:SGAPDE_Solver.run,SGA.run", "kd/model/sga/sgapde/pde.py:evaluate_mse", "kd/model/sga/sgapde/PDE_find.py:Train", "kd/model/sga/sgapde/equation.py:extract_equation_details"]}
{"id": "C177", "title": "SGA ranks candidates by error and size and keeps exact equations", "statement": "With equally many terms the smaller error has the better score, with equal error the smaller equation, one more term being worth a factor exp(aic_ratio) of error; an equation that fits exactly has the best score, is kept, and the smaller of two exact equations wins.", "quantifier": "every regression result, ratio and drawn population", "why_tests_cant": "It speaks about all errors and all sequences of draws.", "anchors": ["kd/model/sga/sgapde/PDE_find.py:Train.AIC", "kd/model/sga/sgapde/solver.py:SGA.__init__"]}
{"id": "C178", "title": "DLGA builds its library from derivatives of the network", "statement": "The column of every operator name is, at every point, the derivative of the fitted network with respect to the coordinates it names, so when the network satisfies an equation of the library, the candidate with the terms of that equation is fitted with its coefficients.", "quantifier": "every network, set of points, operator list and equation", "why_tests_cant": "It speaks about derivatives of arbitrary functions at all points.", "anchors": ["kd/model/kd_dlga.py:KD_DLGA.generate_meta_data", "kd/model/dlga.py:DLGA.generate_meta_data"]}
{"id": "C179", "title": "A whole run of DLGA", "statement": "On points (x, t), with operators of the library and at most as many generations as genomes, a run of DLGA does not fail whatever is drawn; the reported fitness is the mean squared difference between left- and right-hand side of the reported equation on the derivatives of the network plus the penalty per operator; the text shows this equation; no genome scored in any generation is better; and if a genome with the terms of an equation the network satisfies is scored, the reported fitness is at most the penalty of that equation plus a negligible residual.", "quantifier": "every network, set of points, operator list, penalty, population size, number of generations and random outcome", "why_tests_cant": "It speaks about entire runs with arbitrary random draws.", "anchors": ["kd/model/kd_dlga.py:KD_DLGA.fit,KD_DLGA.evolution,KD_DLGA.select", "kd/model/dlga.py:DLGA.translate_DNA,DLGA.get_fitness"]}
{"id": "C180", "title": "A whole run of EqGPT", "statement": "The report of a run of EqGPT lists, in strictly descending order of reward, equations drawn in this run; the reward beside an equation is the mean reward of exactly its terms over the cases of the data; the reward of every candidate of the run is listed or smaller than all listed ones; every candidate uses only words allowed for the variables of the data, and once a word has produced NaN it is an operand of no later candidate.", "quantifier": "every network, fine-tuning, data set, number of epochs and samples, and random outcome", "why_tests_cant": "It speaks about entire runs with arbitrary random draws.", "anchors": ["kd/model/kd_eqgpt.py:KD_EqGPT.fit_pretrained,KD_EqGPT._update_top10,KD_EqGPT._format_results", "kd/model/eqgpt/continue_train_GPT_all.py:calculate_reward,get_mask_invalid"]}
{"id": "C181", "title": "DISCOVER figures in several space dimensions", "statement": "For data with two or more space axes the field comparison of DISCOVER shows, for the first, middle and last time step, the left- and the right-hand side of the discovered equation at the grid points of the first two axes with the other axes at their middle, over their coordinates; the residual figure shows their difference at the middle step on the same points.", "quantifier": "every grid, number of axes and steps, field, equation and coefficients", "why_tests_cant": "It quantifies over all grids of all dimensions.", "anchors": ["kd/viz/discover_viz.py:_calculate_pde_fields_nd", "kd/viz/_adapters/discover.py:DiscoverVizAdapter._residual_plot_nd,DiscoverVizAdapter._field_comparison,DiscoverVizAdapter._field_comparison_nd"]}
{"id": "C182", "title": "A whole run of DISCOVER in the sparse mode", "statement": "A run of `train()` in the sparse mode pretrains the network on the measurements, then in every round generates search data from the present network at the kept collocation points, searches, takes the better of the expression found and the one of the round before, and trains the network with it; after the last round it searches once more and reports what that search found. Every expression found or used comes from programs drawn in that or an earlier search, is the best one or the one selected by stability, and the network is always trained on the measurements plus the residual of the equation with its fitted coefficients.", "quantifier": "every data set, network, regression, sequence of draws and number of rounds and epochs", "why_tests_cant": "It quantifies over all sequences of draws and all trained networks.", "anchors": ["kd/model/kd_discover.py:KD_Discover_SPR.callIterPINN,KD_Discover_SPR.train,KD_Discover_SPR.pinn_train,KD_Discover_SPR.pretrain", "kd/model/discover/searcher.py:Searcher.search", "kd/model/discover/pinn.py:PINN_model.pretrain,PINN_model.train_pinn"]}
{"id": "C183", "title": "SGA field figures show the right sections", "statement": "For a fitted SGA model the field comparison and the time slices show, for the steps drawn, the field used and the original field on the section asked for (the axis and position given, further axes at their middle), each value at its coordinates and each title the time of its step; with one space axis whole fields and lines; all values lie within the colour limits, which are attained.", "quantifier": "every number and order of axes, grid, field, slicing option and list of times", "why_tests_cant": "It quantifies over all grids of all dimensions and all options.", "anchors": ["kd/viz/_adapters/sga.py:SGAVizAdapter._field_comparison,SGAVizAdapter._field_comparison_plot_1d,SGAVizAdapter._field_comparison_plot_nd,SGAVizAdapter._time_slices,SGAVizAdapter._time_slices_1d,SGAVizAdapter._time_slices_nd", "kd/model/sga/sgapde/context.py:ProblemContext._apply_edge_deletion"]}
{"id": "C184", "title": "Figures of the sparse mode show the equation found", "statement": "After a run of sparse DISCOVER the residual figure shows, at every collocation point used, the time derivative of the trained network against the right-hand side of the reported equation for the same network; the field figure draws both, interpolated, at their place and time, for several space dimensions in panels whose points have the times of the panel.", "quantifier": "every run (data, draws, network, rewards, number of rounds), every set of points, values and interpolation", "why_tests_cant": "It quantifies over whole runs and over all scattered data.", "anchors": ["kd/viz/discover_viz.py:_calculate_pinn_fields,plot_spr_residual_analysis,plot_spr_field_comparison", "kd/viz/_adapters/discover.py:DiscoverVizAdapter._spr_residual,DiscoverVizAdapter._spr_field_comparison,DiscoverVizAdapter._spr_field_comparison_nd,DiscoverVizAdapter._get_best_program", "kd/model/kd_discover.py:KD_Discover_SPR.callIterPINN"]}
{"id": "C185", "title": "The name of a data set has no effect in the sparse mode", "statement": "Importing a data set into sparse DISCOVER and training the network on it gives the same result whatever the data set is called; in particular neither fails because of the name, and the reported error of the field is that of the data given.", "quantifier": "every data set, name, machine (files in the package), configuration, network and random outcome", "why_tests_cant": "It quantifies over all names, data and networks.", "anchors": ["kd/model/discover/pinn.py:PINN_model.__init__,PINN_model.load_inner_data,PINN_model.import_outter_data,PINN_model.pretrain", "kd/model/kd_discover.py:KD_Discover_SPR.setup,KD_Discover_SPR.make_pinn_model,KD_Discover_SPR.import_dataset", "kd/model/discover/task/pde/dataset.py:load_1d_data,_resolve_file", "kd/model/discover/utils.py:l2_error"]}
{"id": "C186", "title": "The sample from a built-in data set is part of its grid", "statement": "Loading a built-in data set by name for the network gives measurements at pairwise different points of the grid in the file, each with its place, time and recorded value, as many as the share asks for; four fifths, rounded down, for training and the others for validation; noise changes only the values, in proportion to the level and the spread; the box is spanned by the grid and contains all collocation points, the training points among them; other names are refused.", "quantifier": "every file whose array fits its axes, share, noise level, name and random outcome, both ways of sampling", "why_tests_cant": "It quantifies over all files, shares and random outcomes.", "anchors": ["kd/model/discover/task/pde/dataset.py:load_1d_data,_resolve_file"]}
{"id": "C187", "title": "A whole run of symbolic regression", "statement": "fit(X, y) returns an expression drawn in the search that obeys the constraints and has the largest reward of all drawn, with the constants found for it; the reported reward and error are those of predict on the training table; predict gives in every row of any table the value of that expression; if an expression that can reproduce the targets exactly is drawn and the optimiser minimises its error, the fit reproduces them.", "quantifier": "every table and targets, every library of elementwise operators, every set of sound constraints, every sequence of drawn rows over any number of iterations, every constant optimiser and pattern of floating-point errors", "why_tests_cant": "It quantifies over whole runs: all draws, all tables, all optimisers.", "anchors": ["kd/model/kd_discover_regression.py:KD_Discover_Regression.fit,KD_Discover_Regression.predict", "kd/model/discover/task/regression.py:RegressionTask.reward_function", "kd/model/discover/searcher.py:Searcher.search", "kd/model/discover/program.py:Program.r_ridge,Program.optimize_inner_constant"]}
{"id": "C188", "title": "The generic check of a constraint is right and leaves the constraint alone", "statement": "The generic whole-sequence check, which tests of every constraint run, says \"violated\" exactly if the sampler would have masked a token of the sequence, and the constraint still masks the same tokens afterwards.", "quantifier": "every constraint, every sequence of tokens, every later call of the constraint", "why_tests_cant": "It compares the check with the masks for all sequences and quantifies over everything asked after the check.", "anchors": ["kd/model/discover/dso/prior.py:Constraint.is_violated,Constraint.test_is_violated,Constraint.make_constraint"]}
{"id": "C189", "title": "DISCOVER figures in one space dimension", "statement": "plot_residuals, plot_parity and plot_field_comparison of a fitted KD_Discover with one space dimension use every grid point exactly once: the residual figure puts u_t minus the right-hand side at the coordinate and time step of its point, its histogram, returned data and summary (count, mean, largest size) are those residuals; the parity figure pairs right-hand and left-hand side of the same point, its line spans both; the field figure shows both sides over the axis of the data with one colour range. Where the equation cannot be evaluated the call gives a warning and no picture.", "quantifier": "all grids, data, equations (terms, coefficients with or without a constant), points and time steps", "why_tests_cant": "a mis-ordered flattening or a transposed axis shows only for particular shapes; every shape and equation must be right", "anchors": ["kd/viz/_adapters/discover.py:_residual", "kd/viz/_adapters/discover.py:_residual_plot_1d", "kd/viz/_adapters/discover.py:_field_comparison_1d", "kd/viz/_adapters/discover.py:_parity", "kd/viz/discover_viz.py:_calculate_pde_fields"]}
{"id": "C190", "title": "Simulating a found equation takes the right step", "statement": "update_u advances a profile by one time step of the chosen equation: on an even grid a quadratic profile is carried along exactly by the advection equation and by the dispersive equation, the derivatives it uses are those of the profile for quartic profiles, the rate of change solves the second equation with these derivatives, the number of points stays and constant profiles stay constant over any number of steps; too few points raise.", "quantifier": "every profile of the stated degree, grid, time step, speed, coefficients and number of steps", "why_tests_cant": "Exactness is a statement about all polynomials, grids and steps; a wrong power of dx or a wrong neighbour at the boundary is invisible for grids with dx = 1 or flat profiles.", "anchors": ["kd/model/eqgpt/posterial_solution.py:update_u,get_posterial"]}
{"id": "C191", "title": "The limited scheme creates no new extremes", "statement": "With a time step of at most two thirds of dx/c, simulating the found advection equation with the limited scheme keeps every value of every row between the smallest and largest of the initial row and the observed end values, over any number of steps; monotone profiles stay monotone; the end values of each row are the observed ones.", "quantifier": "every initial profile, sequence of end values, speed c >= 0, grid and number of steps under the condition", "why_tests_cant": "Boundedness over any number of steps is an invariant of the nonlinear limiter for all profiles.", "anchors": ["kd/model/eqgpt/posterial_solution_FD.py:update_u_TVD,minmod,compute_flux,get_posterial"]}
{"id": "C192", "title": "The WENO derivative is the derivative", "statement": "weno5_flux_derivative gives at every inner point of an even grid the derivative of the profile there, exactly for quadratic profiles, whatever weights the smoothness indicators produce.", "quantifier": "every quadratic profile, grid and inner point", "why_tests_cant": "The weights are rational functions of the data; the claim is for all data and all positions, also next to the ends.", "anchors": ["kd/model/eqgpt/posterial_solution_FD.py:weno5_flux_derivative"]}
{"id": "C193", "title": "The figure functions of dlga_viz show the found equation and the given data", "statement": "plot_pde_parity draws for every sample the point (right-hand side of the found equation, left-hand side) and a line from the smallest to the largest of all values, and draws whenever every gene names an available operator; plot_derivative_relationships shows the requested number of terms with the largest coefficients, largest first, each with its values, on a grid without empty rows; plot_optimization_analysis highlights the shortest start of the run with four fifths of the change of the best fitness plus at most four generations; plot_time_slices shows for every requested relative time the column nearest to it.", "quantifier": "every fitted model (genome, coefficients, columns), number of panels, history and list of relative times", "why_tests_cant": "The right-hand side is a sum of products over all genomes; which terms are shown depends on all coefficients and which generation is highlighted on the whole history.", "anchors": ["kd/viz/dlga_viz.py:plot_pde_parity,plot_derivative_relationships,plot_optimization_analysis,plot_time_slices"]}
{"id": "C194", "title": "Trimming noisy data keeps terms and left-hand side together", "statement": "With a positive data_noise_level in the configuration, the share cut_ratio of every axis is left out at both ends of the grid, for the terms and the left-hand side alike, so that programs are fitted on the same inner points; without noise, on grids too small to trim and for tensors nothing changes.", "quantifier": "every grid of any number of axes, cut ratio up to one half, noise level, program and execution of its terms", "why_tests_cant": "Whether terms and left-hand side still fit together depends on rounding for every length of every axis; a test on a small grid sees no trimming.", "anchors": ["kd/model/discover/task/pde/utils_noise.py:cut_bound", "kd/model/discover/stridge.py:STRidge.evaluate_terms,STRidge.calculate", "kd/model/discover/task/pde/pde.py:PDETask.load_data"]}
{"id": "C195", "title": "The tree figure shows the program", "statement": "plot_expression_tree and plot(fig_type=\"tree\") draw exactly the expression of the best program: one node per token with its text, one edge from each operator to each operand in order, all node identities different - within a figure and over all figures of a process; drawing the same program again changes only identities. A token list that is no expression is drawn as far as it goes, without an error.", "quantifier": "every library, token list, well-formed expression of any arity and depth, and sequence of figures in one process", "why_tests_cant": "Identities are strings joined from token text and a counter that survives between figures; that no two ever clash needs an argument for all texts and numbers, and the recursion must be right for every tree.", "anchors": ["kd/model/discover/plotter.py:ExpressionTree.build_tree,ExpressionTree.draw_tree,tree_visualization,Plotter.tree_plot", "kd/viz/discover_viz.py:plot_expression_tree", "kd/model/discover/library.py:Library.__init__"]}
{"id": "C196", "title": "The reward figures of a search show its history", "statement": "plot_evolution and plot(fig_type=\"evolution\") show, per iteration numbered from 1, the largest and mean reward of the iteration and the best reward so far, which never falls and ends at the reported best reward; plot_density shows the rewards of every iteration, or of the epochs asked for.", "quantifier": "every sequence of iterations (any batches, rewards, NaN, invalid programs, aggregator results) and every list of epochs", "why_tests_cant": "The end of the best curve must agree with the reported best over all histories, including iterations in which nothing could be trained.", "anchors": ["kd/viz/discover_viz.py:plot_evolution,plot_density", "kd/model/discover/plotter.py:Plotter.evolution_plot,Plotter.density_plot", "kd/model/discover/searcher.py:Searcher.search_one_step,Searcher.plot"]}
{"id": "C197", "title": "The weak form fits the integrated equation", "statement": "With `weak_params` the sparse mode fits the equation integrated over windows: each row of the system belongs to one window (right end minus left end of every term against the integral of u_t over the window), the integral is exact for fluxes that are polynomials up to degree 10 with the default rule, the fit of the true terms reproduces the left-hand side exactly and with independent columns returns the true coefficients. (The methods do this; a search with weak_params does not use them and fails with IndexError.)", "quantifier": "all window grids, widths, quadrature rules, polynomial fluxes, terms, coefficients and exact solvers, over every field of numbers", "why_tests_cant": "quantifies over all grids, all polynomial fluxes and all solvers; a test fixes one grid and one field", "anchors": ["kd/model/discover/task/pde/weak_form.py:WeakEvaluate.reconstruct_input,WeakEvaluate.glq_cal", "kd/model/discover/task/pde/pde_pinn.py:PDEPINNTask.weak_form_cal,PDEPINNTask.__init__,PDEPINNTask.generate_meta_data", "kd/model/discover/stridge.py:STRidge.wf_calculate"]}
{"id": "C198", "title": "Terms of the sparse mode have their mathematical values", "statement": "In the sparse mode a term – any nesting of sums, products, protected quotients and powers, derivatives of order 1 to 4 along an axis and Laplacians over the network's outputs and the parameters – is evaluated at every collocation point to the value of the mathematical expression there, the derivatives being those of the trained network; the value at a point does not depend on the other points, although gradients are taken of a sum over all of them.", "quantifier": "every network, expression of any depth, number of axes, set of points, times and parameter values", "why_tests_cant": "Gradients of the sum over a batch equal pointwise derivatives only because rows do not mix; that this survives nesting, repeated differentiation and products is an induction over all expressions.", "anchors": ["kd/model/discover/task/pde/utils_nn.py:torch_diff,Laplacian_t", "kd/model/discover/execute.py:python_execute_torch", "kd/model/discover/functions.py:protected_div_torch,protected_n2_torch,protected_n3_torch,add_ops", "kd/model/discover/task/pde/pde_pinn.py:PDEPINNTask.AD_generate_1D,PDEPINNTask.AD_generate_mD"]}
{"id": "C199", "title": "Plot helpers pass on what they are given, reach the model's own adapter and say what they saved", "statement": "A plot helper hands the adapter of the model's method exactly the keyword arguments of the call (optional ones only if they are not None), whatever was plotted before and also for derived classes; for a method that does not support it, it returns one warning and draws nothing. It prints one line that names every file saved, and different figures are saved to different files below the directory asked for.", "quantifier": "every helper, dictionary of keyword arguments, model class (shipped, derived to any depth, foreign), history of earlier plots, set of importable modules, result of a handler and setting of the directories", "why_tests_cant": "Arguments, derived classes and plot histories are unbounded; the lazy registration of one adapter makes the answer depend on the history.", "anchors": ["kd/viz/api.py:plot_time_slices,plot_residuals,plot_field_comparison,plot_derivative_relationships,plot_parity,_dispatch,_emit_info", "kd/viz/adapters.py:register_default_adapters,_resolve_pysr", "kd/viz/_helpers.py:resolve_output_path", "kd/viz/_adapters/dlga.py:DLGAVizAdapter._resolve_output", "kd/viz/_adapters/discover.py:DiscoverVizAdapter._resolve_output", "kd/viz/_adapters/sga.py:SGAVizAdapter._resolve_output", "kd/viz/_adapters/pysr.py:PySRVizAdapter._resolve_output"]}
{"id": "C200", "title": "The histories and curves of a DLGA estimator describe the fit", "statement": "After a fit the evolution and optimisation figures of a DLGA estimator have one point per generation of that fit, with the least fitness among the genomes scored in that generation and the number of terms of such a genome; the fitness curve never rises and ends in the fitness of the reported equation, which is the best objective reported; the loss curves have one point per epoch, the loss of the weights at the beginning of that epoch.", "quantifier": "every setting with at least two genomes and no more generations than genomes, every earlier history of the estimator, data, scoring, optimiser and sequence of random numbers", "why_tests_cant": "Populations, random numbers and sequences of fits are unbounded; the histories are only ever appended to, which tests that fit once do not see.", "anchors": ["kd/model/dlga.py:DLGA.__init__,train_NN", "kd/model/kd_dlga.py:KD_DLGA.select,evolution,fit", "kd/viz/_adapters/dlga.py:DLGAVizAdapter._training_curve,_search_evolution,_optimization,_build_optimization_data", "kd/viz/dlga_viz.py:plot_training_loss,plot_validation_loss,plot_evolution"]}
{"id": "C201", "title": "The field comparison of a DLGA estimator shows the fields given", "statement": "plot_field_comparison for a DLGA estimator answers a path exactly if it is given a true and a predicted field of the shape of the grid; the file of that path then shows both fields node by node at their times and places with one colour scale from the smallest to the largest of all values; a call that answers a warning or raises touches no file, and no call touches other files.", "quantifier": "every content of the output directory, every history of calls, grid, pair of fields (under either option name) and optional residual field", "why_tests_cant": "Directories, grids and sequences of calls are unbounded; a test that draws once into a fresh directory cannot see what a second call leaves.", "anchors": ["kd/viz/_adapters/dlga.py:DLGAVizAdapter._field_comparison,_build_field_comparison_data,_resolve_output", "kd/viz/dlga_viz.py:plot_pde_comparison", "kd/viz/_contracts.py:FieldComparisonData"]}
{"id": "C202", "title": "The term and residual figures of kd.viz.dlga_viz show the data given", "statement": "plot_equation_terms draws one point per stored value at the products of the named columns, coloured and binned by the colour variable, and draws nothing (with a warning, no exception) exactly if a group of names is empty or a name is not stored; plot_residual_analysis places every training point at its time and place with the colour value minus network, and its histogram of true minus predicted has fifty equal adjoining bars that cover all residuals, each counted in exactly one, with total area one.", "quantifier": "every dictionary of columns of one length, all lists of names and labels, every network, set of training points and pair of fields", "why_tests_cant": "The columns, names and residuals are unbounded; that no value falls between two bars or into two of them is a statement about all values.", "anchors": ["kd/viz/dlga_viz.py:plot_equation_terms,plot_residual_analysis"]}
{"id": "C203", "title": "A displayed DISCOVER equation names the axes of the data", "statement": "The equation shown for a fitted DISCOVER estimator has the derivative along the data set's left-hand-side axis on its left and writes every coordinate with the name of its axis; different derivatives are shown differently, and every derivative is valid LaTeX.", "quantifier": "every data set of several axes that prepare accepts, every renaming of its axes, every derivative of the state, of a parameter or of an expression, in any order and sequence of coordinates", "why_tests_cant": "Axis names and orders of differentiation are unbounded; a test on one data set with the usual names t, x, y passes.", "anchors": ["kd/viz/discover_eq2latex.py:_SubscriptLatexPrinter._print_Derivative,discover_program_to_latex", "kd/viz/_adapters/discover.py:_equation", "kd/model/discover/adapter.py:_prepare_nd"]}
{"id": "C204", "title": "A job leaves its figures next to its result", "statement": "After a job the equation, the search and (DLGA) the training curve are saved in the output directory alongside result.json; a figure that cannot be drawn does not prevent the others; no other files are written, whatever was plotted or configured before, and the directory configured for figures is afterwards what it was before.", "quantifier": "every model class, output, current and configured directory, every history of plots, and every behaviour of the drawing functions (files written, figure returned, exception)", "why_tests_cant": "The history of the registry and the behaviour of the drawing functions are unbounded; a test sees one model with drawings that succeed.", "anchors": ["kd/runner.py:save_viz", "kd/viz/_style.py:configure", "kd/viz/core.py:render,list_capabilities"]}
{"id": "C205", "title": "plot_results of SGA compares given and refined data and shows the residual of the known equation", "statement": "KD_SGA.plot_results raises before a fit, draws nothing for data other than x–t data under the name of a built-in benchmark, and otherwise saves ten figures: u and the residual of the known equation node by node with the colour scale of the given data, and slices of u, u_t, u_x, u_xx, the right-hand side and the residual at the middle time, in which the given and the refined data are shown at the same time and each place at one abscissa.", "quantifier": "every configuration and data set of a fit, every grid, refinement ratio and all values of the field and its derivatives", "why_tests_cant": "Grids and refinements are unbounded; the mistakes are in scales and times, invisible in a test that only looks for the saved files.", "anchors": ["kd/model/kd_sga.py:KD_SGA.plot_results", "kd/model/sga/sgapde/visualizer.py:plot_figures,_resolve_output_path", "kd/model/sga/sgapde/context.py:_initialize_slicing_indices,_calculate_errors"]}
{"id": "C206", "title": "SGA refuses a network with the wrong number of inputs", "statement": "With use_autograd, before a field is differentiated its network is checked: it is accepted exactly if it takes as many features as there are axes, and otherwise a ValueError names the first field whose network does not fit; the fields before it are differentiated each with its own network.", "quantifier": "every list of fields and networks, every number of axes", "why_tests_cant": "Networks are supplied by the user, with any attributes and layers; a test tries a few.", "anchors": ["kd/model/sga/sgapde/context.py:_infer_model_input_dim,_validate_model_input_dim,_calculate_derivatives_autograd"]}
{"id": "C207", "title": "The data containers of kd.viz accept exactly what fits together", "statement": "OptimizationHistoryData and RewardEvolutionData are built exactly if every array given has the shape of the steps, TermRelationshipData exactly if there is a term and each has as many values as the left-hand side, TimeSliceComparisonData exactly if both fields have one entry per point of the axes and times and every slice time lies within the times; a container holds what was given, and anything else raises ValueError (TypeError without coordinates).", "quantifier": "every array (shape and values, NaN and infinities included), every list of terms, every form of coordinates", "why_tests_cant": "Arrays of any shape, any number of terms and axes; a test tries a few.", "anchors": ["kd/viz/_contracts.py:OptimizationHistoryData,RewardEvolutionData,TermContribution,TermRelationshipData,TimeSliceComparisonData,_normalize_spatial_coords"]}
{"id": "C208", "title": "setup_logger writes each message once", "statement": "After setup_logger a message of the logger at or above its level is written once to the console and once to the file asked for, and one below it nowhere; the last call decides the level; an unknown level raises ValueError and changes nothing.", "quantifier": "every history of calls in a process, every hierarchy of names, every level", "why_tests_cant": "The number of lines depends on all earlier calls for the logger and for those above it.", "anchors": ["kd/utils/logging.py:setup_logger"]}
{"id": "C209", "title": "Loading and cleaning a table", "statement": "load_data makes a handler hold a copy of the table or file it was given and raises ValueError for any other source; clean_data leaves exactly the rows without missing cells, each once, in their first order; the user's own table is never changed; after load_data get_data returns the source's table.", "quantifier": "every table, every handler, every history of load_data and clean_data", "why_tests_cant": "Tables of any size, with any pattern of missing and repeated rows, and any order of calls.", "anchors": ["kd/data.py:BaseDataHandler.__init__,load_data,clean_data,get_data"]}
{"id": "C210", "title": "What SGA's parity figure compares", "statement": "The parity figure of a fitted SGA model shows, entry by entry, the stored prediction of the right-hand side against the time derivative (of the search data, or with compare='original' of the original data if it has this shape), else the one of a second evaluation, else the sum of the given terms weighted by their coefficients; mean, largest absolute value and root mean square in the summary are those of the differences shown.", "quantifier": "every context, prediction of any shape, equation and compare option", "why_tests_cant": "Arrays of any shape and size, every combination of missing predictions and options.", "anchors": ["kd/viz/_adapters/sga.py:_parity,_evaluate_equation_prediction"]}
{"id": "C211", "title": "Programs of several expressions", "statement": "After Program.set_n_objects(n) a program of n expressions is cut into exactly these expressions; while the next expression is written, its length stays within the length prior's bounds, counted within this expression; the repeat prior counts the occurrences in the expression being written, so that each expression has at most the maximum and is otherwise free.", "quantifier": "every library with arities up to 2, every number of expressions and every sequence of tokens", "why_tests_cant": "Expressions of any size and number, at every point of being written.", "anchors": ["kd/model/discover/dso/subroutines.py:get_position,get_mask", "kd/model/discover/dso/prior.py:RepeatConstraint.__call__,LengthConstraint.__call__", "kd/model/discover/program.py:Program.__init__"]}
{"id": "C212", "title": "The text a language model answers with", "statement": "GPT.answer ends for every sentence: it extends the sentence by words drawn with the model's probabilities, restricted to operators where an operator stands and to words elsewhere, until E or 50 words, and returns the sentence with the words added, without the closing E; it continues a sentence with the start word as the search does.", "quantifier": "every model (every softmax output), every sentence and every sequence of draws", "why_tests_cant": "Sentences of any length, any probabilities, any draws.", "anchors": ["kd/model/eqgpt/gpt_model.py:GPT.greedy_decoder,GPT.answer"]}
