# Formal model of Scientific-Artificial-Intelligence-Lab/kd in Lean 4

## Layout

* `properties.jsonl` – the English properties; `MANIFEST.json` – the theorems that carry each of them.
* `lean/Verif/<Area>/*.lean` (areas `Api`, `Dataset`, `Discover`, `Dlga`, `EqGpt`, `Memory`, `Sga`, `Viz`, …) – functions
  transcribed from `/repo`, each with a citation `file:lines` and a note of every simplification. Files called `…Lemmas`,
  `Bridge`, `Heap`, `GenMut` hold helper lemmas only; `Spec` files hold the small specification vocabulary (trees, relations).
* `lean/Verif/Claims/*.lean` – the claims (theorems listed in `MANIFEST.json`), their specification definitions, and next
  to each a concrete `example` meeting its hypotheses. Where the code falls short of the English property the failing case is
  proved as `…_counterexample` and the provable remainder is called `…_partial`.
* `seeded/LOG.jsonl` – wrong programs tried against the theorems, and what was tightened.

## Modelling conventions

* Python ints → `Int`/`Nat`; lists/arrays → `List` (with shapes where they matter); exceptions → `Option`/`Except`;
  a numpy batch is modelled one row at a time when rows never interact.
* In-place mutation and aliasing are made explicit state where they matter (dangling column, caches, caller arrays).
* Random choices are universally quantified arguments ("every random outcome").
* Numeric kernels (least squares, SVD, autograd, networks, sympy) are parameters: theorems hold for every behaviour of
  the kernel, or under the kernel's documented contract, which is then a visible hypothesis.
* Floats are modelled by rationals or an arbitrary ordered field when only order or arithmetic identities matter (rounding and
  overflow out of scope); where NaN matters it is an explicit extra value.

## Trusted base

* The Lean 4.33.0 kernel; axioms at most `propext`, `Classical.choice`, `Quot.sound` (list at the end of this file).
* Mathlib is used for lemmas only; everything is re-checked by the kernel.
* The hand transcription of `/repo` into the model (cited line by line): nothing is extracted automatically and the
  Python code is never run. A wrong reading of the Python code is not detected by Lean.
* The stated contracts of external code (numpy, torch, sympy, scikit-learn, the file system) where they appear as hypotheses.

## Per-property plan and outcome

| id | modelled | proof method | outcome |
|----|----|----|----|
| C01 | `Discover/Finish`: `_finish_tokens` over an arbitrary arity function; random fillers = arbitrary function into arity-0 tokens | prefix sums = dangling count; completeness of prefix lists by induction on rose trees | proved: np.random.choice is an arbitrary function into arity-0 tokens |
| C02 | `Discover/Basic`, `Exec`: `build_tree`, `preorder_traverse`, `PDEData` walks; recursion limit = fuel | structural induction; parser/printer inverse | proved: Python's recursion limit is the fuel parameter (any fuel at least the length) |
| C03 | `Discover/Exec`: `python_execute` stack machine, operator semantics a parameter | simulation of a recursive evaluator, stack invariant | proved: operator semantics and data are arbitrary parameters; a failing data read (index out of range) raises, as in the code; the torch version is covered by C03_execute_eval and C03_value_iff |
| C04 | `Discover/Positions`: `parents_siblings`, `jit_parents_siblings_at_once` | zipper decomposition of an incomplete prefix | proved: arities at most two, as in every shipped library; counterexample shows arity 3 would break it |
| C05 | `Discover/Positions`: `ancestors` | same decomposition; exact description plus counterexample for binary effectors | partial: False for binary effectors (second operand not detected): exact behaviour proved, full property for unary effectors, counterexample for binary ones |
| C06 | `Discover/Prior`, `Constraints`: `RelationalConstraint.__call__`, `make_constraint`, sampling as a relation "every token drawn had finite prior" | induction on the sampling history via C04 | partial: All relationships proved; descendant only for unary effectors (code defect); programs completed by random fillers (no length constraint) may violate constraints |
| C07 | `TrigConstraint`, `DiffConstraint_right` | C05 + C06 | proved: needs the right-operand constraint for binary derivative operators |
| C08 | `LengthConstraint`, controller loop bound | invariant dangling <= remaining | proved: max>=3; progress needs a unary operator (counterexamples otherwise) |
| C09 | `RepeatConstraint` | invariant on counts | proved: max>=1 (counterexample for 0) |
| C10 | `NoInputsConstraint` | last-token argument | proved: as stated |
| C11 | `InverseUnaryConstraint`, `Library.inverse_tokens` | C06 with the child relation | proved: as stated |
| C12 | `Discover/Violation`: `is_violated` of every prior | scanning invariants; counterexamples for the descendant check | partial: Exact for child/sibling/uchild/trig/repeat/length/no-inputs/inverse; the descendant check is sound but incomplete (code defects, counterexamples) and left/right child checks raise |
| C13 | `Discover/Episode`: `loop_fn`, `get_next_obs` with the shared dangling array as explicit state | invariant on the recorded columns; counterexample for the aliased one | partial: False for the dangling column (in-place update before recording); proved for action, parent, sibling, priors and hence for the default network input |
| C14 | `Memory/Queue`, `Memory/Heap`: `UniquePriorityQueue` over a binary heap contract | refinement to a top-k set | partial: Size, uniqueness and membership for every history; best-of-all-pushes when an identifier always comes with the same score (a better score for a held identifier is ignored: counterexample) and without remove-same-rewards (counterexample for every n) |
| C15 | `Memory/Queue`: `UniqueQueue` | refinement to "last distinct k" | proved: capacity at least one (a queue of capacity 0 holds one item: counterexample) |
| C16 | `Discover/Cache`: `from_tokens` and the class-level cache | state machine invariant over all histories | partial: Full property per array item size; different expressions never share an object across item sizes; the same expression as int64 and int32 array gives two objects (counterexample) |
| C17 | `Discover/Searcher`: `search_one_step`, quantile filter, best bookkeeping | fold invariant over all iterations | proved: rewards finite or NaN; invalid programs have non-positive reward (shipped tasks); numpy's tie-breaking and quantile position arbitrary; exact condition under which an iteration raises; the final replacement of best_p by stability selection is not modelled; a GP aggregator (not offered by the estimators) is taken not to change the submitted list, which it does for equal rewards (C161) |
| C18 | `Discover/Terms`: `split_forest` | denotation in a commutative ring; counterexamples for the signs | partial: The terms are right and some choice of signs makes the sum right (regression refits coefficients); the signs the code records are wrong when a sum or difference is subtracted (counterexamples) |
| C19 | `Sga/Tree`: `Tree.__init__`, random draws arbitrary | level-by-level invariant | proved: depth limit at least two (a limit of one raises IndexError, proved); the tables of every successfully built context meet the hypotheses (built_tables_ok) |
| C20 | `Sga/Tree`: `Tree.mutate` | level-by-level invariant; counterexamples | partial: Holds whenever "x" names only a spatial axis; a field or parameter called x breaks it in simple mode (counterexample); the leaf loop never ends on a grid with a single spatial axis not called x (counterexample) |
| C21 | `Sga/Eval`: `evaluate_mse` term deletion | list index arithmetic | proved: as stated |
| C22 | `Sga/Evolve`: `cross_over`, `change`, `run` | argsort/truncate lemmas, induction over generations | proved: Scores compared as np.argsort does (NaN last); reported best and absence of exceptions when no score is NaN |
| C23 | `Sga/Naming`: build/parse of derivative keys | character-list lemmas | partial: Full with a list of known axes; without it multi-letter axes are misread (counterexample) |
| C24 | `Sga/Naming`: `resolve_field_name_conflicts` | loop invariant | partial: Everything except that a non-conflicting name is renamed when an earlier field was given it (counterexample) |
| C25 | `Dataset/Base`: `PDEDataset.__init__` | decision logic, iff characterisation | partial: Consistency and exact acceptance for all arguments; legacy and N-D constructors agree for real data, for complex data only the legacy one takes the real part (counterexample) |
| C26 | `Dataset/Base`: `get_range` | sortedness lemmas on searchsorted | partial: Holds when x is stored before t (all legacy datasets); fails for axis order t, x (counterexample) |
| C27 | `Dataset/Base`: `sample` | index arithmetic, arbitrary random outcome | partial: Holds when x is stored before t, for every random outcome and any rounding of linspace; fails for axis order t, x; uniform sampling may repeat points; the spline method is not modelled |
| C28 | `Sga/FiniteDiff`: `FiniteDiff` orders 1, 2 | polynomial identities in a field | proved: Exact arithmetic in any field with 2 ≠ 0 |
| C29 | `Sga/Context`: variable tables | decision logic | partial: Names of user parameter fields are not checked for derivative names (counterexample) |
| C30 | `Sga/Regress`: `STRidge` loop | decreasing support | partial: Fails as stated when every coefficient is below the tolerance at the first round (dense, un-normalised coefficients are returned) and for a coefficient exactly at the tolerance; both are proved as counterexamples |
| C31 | `Sga/Regress`: `Train` | fold invariant | partial: Holds when no score is NaN; a NaN score of the dense fit freezes the answer (counterexample proved) |
| C32 | `Api/Params`: `BaseEstimator` | finite map lemmas, induction on nesting | partial: Holds for every well-formed estimator (all constructor parameters stored, no trailing underscores); shipped KD_Discover and KD_DLGA do not store all their parameters, so both calls raise on them; a failing set_params is not undone; sharing of sub-estimators is not modelled |
| C33 | `Viz/Registry`: registry and lazy adapters | state machine, determinism of the answer as a function of the history | partial: The answer is determined by the history for all histories; "lookups never change later answers" holds except when a lookup resolves a lazy registration of a proper ancestor or overrides an explicit adapter (counterexamples), and unregistering does not reach a still lazy entry (counterexample) |
| C34 | `Dlga/Model`: genetic operators and evolution | invariant over runs | partial: Legal genes, module lengths, non-empty genomes and constant population size in every run; the number of modules is not bounded by the maximum (counterexample), more generations than genomes always raises (counterexample for all runs), the base class loses a genome when the size is odd |
| C35 | `Dlga/Model`: selection/elitism | fold invariant | partial: Monotone over all generations; the best of the initial population may be lost in the first generation (counterexample); NaN fitness excluded |
| C36 | `Sga/Equation`: filtering, signs, rendering | list lemmas | partial: Proved for every coefficient vector, where a coefficient reaches the tolerance if it is not below it; a NaN coefficient counts as reaching it and is shown as 1 (C36_nan_counterexample) |
| C37 | `Sga/Grid`: `_apply_edge_deletion`, `_compute_delta` | arithmetic | partial: Holds for fields and coordinates; parameter fields are not trimmed (counterexample) and a one-point axis is trimmed to nothing |
| C38 | `Discover/Select`: `is_pareto_efficient` | loop invariant | proved: as stated |
| C39 | `Discover/Select`: `filter_same`, `delete_duplicates` | list lemmas | proved: NaN scores excluded |
| C40 | `Sga/Grid`: `fit_dataset` keyword merging | decision logic, counterexample | partial: Holds for legacy datasets and for N-D datasets without explicit choice; every explicit choice with an N-D dataset raises (proved) |
| C41 | `Discover/Episode`: `JointPrior.at_once` | per-position equality by induction | proved: as stated |
| C42 | `Discover/Episode`: `get_agent_programs` replay | same recursion as the sampling loop | proved: as stated |
| C43 | `Discover/Episode`: `sample_episodes`, `make_neglogp_and_entropy`; the network is an arbitrary function | unfolding; counterexample for recurrent networks | partial: False: the sampling loop never passes the recurrent state on; proved for state-independent outputs and the first step |
| C44 | `Discover/Terms`: `reconstruct_tokens`, `tokens2index`, padding | denotation and C01 | proved: as stated |
| C45 | `Discover/Terms`: `mutate_single`, `cross_over_p` | C02 with replaced subtrees | proved: random draws are arbitrary |
| C46 | `Discover/Cache`: lookups by remembered key | invariant of C16 | partial: Holds for requests through the cache; fails for stochastic tasks, which bypass it |
| C47 | `Sga/Eval`: evaluation of a term, broadcasting to the grid | simulation with a recursive evaluator | proved: For the terms the search generates and mutates, under the conditions that guarantee legal terms (x only names an axis) |
| C48 | `Sga/Naming`: `normalize_legacy_derivative_key` | uniqueness of the reading | proved: as stated |
| C49 | `Sga/Context`: `_build_vars`, `_validate_registry_names` | injectivity of the name table | proved: as stated |
| C50 | `Sga/Equation`: `inorder`, `visualize` | injectivity of the printer by induction | proved: as stated |
| C51 | `Sga/Equation` (rendering); `Sga/LatexUnique`: syntax of the texts | unique readability by strong induction on the size; counterexamples | partial: Unique up to the bracketing of products in Leibniz notation (in subscript notation without derivative operators) unless a power is taken of a product enclosed in brackets by chance; outside these limits two counterexamples (derivative of a product in subscript notation; power of a product of sums) |
| C52 | `Sga/Equation`: left-hand side | decision logic, counterexample | partial: Only when the target is u and the left-hand-side axis is t (counterexample otherwise) |
| C53 | `Dataset/Base`: `get_datapoint` | search lemmas | partial: Holds when x is stored before t; counterexample otherwise |
| C54 | `Dataset/Base`: `mesh`, `mesh_bounds`, `get_boundaries` | index arithmetic | proved: default indexing, x stored before t; with indexing xy the rows are not in flattened order (counterexample) |
| C55 | `Dataset/Base`: `get_derivative` | difference identities, counterexample | partial: Differences per index step: exact for linear data only when the spacing is 1 (counterexample otherwise) |
| C56 | `Dataset/Base`: `load_pde_dataset` | case analysis on shapes | partial: Holds when the axes have different lengths; square data stored by rows of x is transposed (counterexample) |
| C57 | `Viz/Registry`: `render`, `list_capabilities` | case analysis | proved: for usable backends |
| C58 | `Viz/Registry`: `style_context`, `configure`, backend state | bracket invariant over all render outcomes | partial: style and parameters are restored in every case; the backend named by one call stays for later calls (counterexample) |
| C59 | `Dlga/Model`: fitness cache alignment | invariant over generations | proved: for legal parameters; NaN fitness excluded; the SVD step is a parameter |
| C60 | `Dlga/Model`, `Display`: theta columns, names, LaTeX | list index lemmas; counterexamples | partial: Holds when all operators are available; unavailable operators shift the names (counterexample); the LaTeX form ignores the user's operator list (counterexample, correct for prefixes of the built-in list) |
| C61 | `Dlga/Fit`: `train_NN` | permutation lemmas, loop invariant | partial: All of it, but the error recorded for an epoch is that of the weights one step before the saved ones (counterexample to "best saved network") |
| C62 | `Dlga/Fit`: aliasing of caller arrays | explicit buffer model | partial: Holds for samples and non-contiguous arrays; on the full mesh of a contiguous array the data set is scrambled (counterexample) |
| C63 | `Discover/Select`: `drop_duplicates` | loop invariant; counterexamples | partial: No exception, alignment and distinctness for all inputs; "loses nothing" is false in general (wrong index: counterexample; tolerance not transitive: counterexample), proved when no length clash can occur |
| C64 | `Discover/Prior` (completeness direction) | a mask entry is infinite only if every completion violates | proved: arities at most two; effectors of descendant constraints are not terminals |
| C65 | `Discover/Input`: `get_tensor_input`, lookup tables | one-hot decoding; counterexamples | partial: Full for action, parent and sibling with arities at most two; observing the dangling count always raises (counterexample), and so may an operator of three operands (counterexample); embedding=True raises at the first observation (counterexample) |
| C66 | `Discover/Exec`: `python_execute_torch` | simulation with the checked evaluator | proved: as stated |
| C67 | `Discover/Prior`: derivative-shape constraints | C06 instances, by token names | proved: token names distinct; operators of at most two operands |
| C68 | `Sga/Evolve`: `pde_lib` bookkeeping | invariant over the search; counterexamples | partial: Holds for candidates that lose no term when evaluated and for those found after the start; a candidate with a rejected term is remembered under a different text, and the initial population is not remembered (counterexamples) |
| C69 | `Sga/Evolve`: crossover, mutation of candidates | multiset lemmas | proved: as stated |
| C70 | `Discover/Fit`: `calculate`, `evaluate_terms`, `coef_calculate`, `wf_calculate`; least squares is a parameter with its contract as hypothesis | case analysis; lifting the contract | partial: Full except: after a small constant was dropped the sizes are not checked again; the weak form may drop a term when a constant is asked for and ignores evaluation errors on the second data set (counterexamples). The solver's contract is a hypothesis of C70_best; exact numbers |
| C71 | `Discover/Fit`: `Regulations` | exact characterisation of acceptance | partial: The accepted programs are characterised exactly; because the check looks for the letter u in the text, operators such as mul count as state variables (counterexamples) |
| C72 | `Discover/Reward`: metrics and reward | ordered-field inequalities | partial: Full for fewer than 1/lambda terms; beyond that a valid program ranks below invalid ones (counterexample). Real numbers instead of floating point |
| C73 | `Discover/Fit`: `InvalidLog` as state | state machine | partial: Holds as long as no evaluation raises and torch and numpy evaluation are not mixed; otherwise the next evaluation is blamed (counterexamples) |
| C74 | `Discover/Show`: `str_expression`, `Node.__repr__` | injectivity of the printer | partial: Full for valid programs; invalid programs all show their first term with coefficient 0 (counterexample) |
| C75 | `Discover/Show`, `Dlga/Display`: sympy strings and LaTeX assembly | denotation of the assembled string pieces | partial: SymPy's parser and LaTeX printer are parameters; a program with a constant is shown as an error (counterexample) |
| C76 | `Discover/Diff`: utils_fd derivatives | polynomial identities in a field, per axis | partial: Full for 1-D and 3-D; 2-D operators wrap around at the ends (counterexample), fourth derivatives are exact for cubics only near the ends, uneven grids and an operand of the coordinate's shape go wrong (counterexamples). Exact arithmetic |
| C77 | `Discover/Adapter`: `_prepare_nd`, `_prepare_legacy` | index arithmetic on strided arrays | proved: N-D and legacy data sets; constructed_nd: every data set the N-D constructor returns satisfies the hypothesis. Exact arithmetic; sym_true lookup not modelled |
| C78 | `Discover/Adapter`: validation | exact characterisation of acceptance | partial: The accepted data sets are characterised exactly; they include unevenly spaced space axes and (below 1e-8) time axes, and the sparse adapter does not check legacy data (counterexamples) |
| C79 | `Discover/Adapter`: sparse sampling and splitting, `SparseData.process_data` | index arithmetic; random draws arbitrary under numpy's contract | partial: Full except that cut_quantile does not trim the parameter fields (counterexample). numpy's choice and the Latin hypercube are parameters with their contract as hypothesis |
| C80 | `EqGpt/Board`: `_update_top10`, `find_min_no_repeat`, epochs | invariant over epochs | partial: Full while no reward is NaN, for the board size fixed by the first epoch's distinct rewards (counterexamples for both) |
| C81 | `EqGpt/Sentence`: `delete_duplicate`, `_format_results` | list lemmas, idempotence | partial: Full for equations without '/' between factors; u*ux and u/ux are taken for the same term (counterexample). nothing_lost: every dropped term is a reordering of a kept one |
| C82 | `EqGpt/Terms`: `calculate_terms` table, derivatives abstract | table lifted by a rendering function | partial: Full for the words of the term table except the listed counterexamples; derivatives abstract |
| C83 | `EqGpt/Reward`: `calculate_reward` | case analysis, mean over cases | partial: Full while every case's reward is a number; a NaN case is left out of the mean (counterexample) |
| C84 | `EqGpt/Sentence`: `GPT.step`, `get_mask_invalid`; network and draws arbitrary | invariant over generated words | partial: Full while at least one operand and one operator is unmasked; the network is an arbitrary function, draws arbitrary |
| C85 | `Api/Config`: `safe_merge_dicts`, `set_config`, `load_config` | induction on paths and on the update | partial: Full for dict configurations on Python 3.9; on Python >= 3.10 every non-empty configuration raises and a path never works (counterexamples) |
| C86 | `Discover/Facade`: configuration written by `import_dataset`/`fit`/`train` | invariant over call histories | partial: Full for import_dataset except out_path; raw fits keep the previous network configuration (counterexamples) |
| C87 | `Discover/Facade`: `callIterPINN`; searches and rewards arbitrary | induction on rounds | partial: Full for the carried equation; the returned one is not compared with it (counterexample) |
| C88 | `Discover/Facade`: class attributes shared between estimators | invariant over interleavings of calls | partial: Full for sparse training and regression fits; regular training and predict are disturbed by other set-ups (counterexamples) |
| C89 | `Discover/Facade`: order of draws and seeding; generators abstract | equational | partial: Holds up to what is drawn before the seeds are set (controller weights; sparse split and collocation points) |
| C90 | `Discover/Regression`: tables, elementwise operators over any number type, `executeDirect`, `predict` | structural induction on expressions through the stack machine (C02's execution) | proved: Derivative operators and `harmonic`, which look at whole columns, are outside the property's quantifier |
| C91 | `Discover/Regression`: cached reward and error of a shared program object, constant optimisation (optimiser a parameter) | invariant over histories | partial: Holds until the shared program is assigned other constants by from_str_tokens (counterexample) |
| C92 | `Discover/RegressionMetric` over the reals | real arithmetic | partial: Full except: units only above the variance floor, order only while the penalty is affordable (counterexamples) |
| C93 | `Discover/RegressionText`: `str.replace` on character lists | induction on the text; replacement acts on comma-separated fields | partial: Fails for names containing the default name of an earlier variable (counterexamples) |
| C94 | `Discover/RegressionText`: rounding, `:.6f`, `rstrip`, `split`, decimal parsing; constants are rationals | digit arithmetic, induction on the program | partial: Exact rationals instead of floats (no NaN, infinity); fails for libraries with names that are numbers and for constants without value (counterexamples) |
| C95 | `App/Runner`: `main`, `save_output`; every effect may return, raise or be killed | case analysis over all crash points | partial: Full for exit code 0 and for runs without kill; a killed or refused run can leave an earlier run's success report, a failing final print overwrites a success (counterexamples) |
| C96 | `App/Runner`: form, parameters through JSON, constructor calls; number conversions a parameter with round-trip laws | equational | partial: Fails only for sample numbers between 0 and 1 (counterexample) |
| C97 | `App/Runner`: `source`, `label`, `submitConfig`, `submitJob` | case analysis | partial: Wrong label with both a name and a file; missing files fall back silently; uploaded files are never used (counterexamples) |
| C98 | `App/Runner`: the form as a state machine, `check_job`, `download_result` | induction over sessions | partial: A failed download, a second submission or a local run forgets the job (counterexamples) |
| C99 | `App/Runner`: `parseOps` on character lists | induction on the text | proved: White space is any set of characters without the comma |
| C100 | `Dataset/Load`: `load_pde` with its three kinds of entries, the data directory as an argument | case analysis; row-major index arithmetic | partial: Proved when the axes differ in length; a square solution stored by rows of x is turned (counterexample) |
| C101 | `Dataset/Load`: `linspace`, `domainOf`, `toShape` | field arithmetic over ℚ | proved: Exact arithmetic |
| C102 | `Dataset/Load`: `tag`, `getInfo`, the shipped registry | case analysis | partial: Names and refusals in full; one shipped name has no file and gives None (counterexample) |
| C103 | `Dataset/Load`: `loadBurgers`, `loadKdv` | rewriting | partial: Agreement for files stored by rows of x with axes of different length; other files are refused by the deprecated loaders (counterexample) |
| C104 | `Dataset/Load`: `passed`, `loadMatEntry`, `epiOf` | case analysis; induction on the registered keys | partial: epi in full; other keywords are ignored for array files and rejected for .mat files (counterexample) |
| C105 | `Dataset/Load`: `Shared` dictionaries, `setAlias`, `setDomain` | induction on the registry | partial: Edits never reach other names; they reach the same name through the registry's own dictionaries (counterexample) |
| C106 | `Dataset/Load`: `loadUpload` | rewriting | partial: .mat when the axes differ in length; .npy is always read row by row (counterexample for an array stored by rows of t) |
| C107 | `Dataset/Load`: `loadRegression` | case analysis | proved: The description and source texts are not modelled |
| C108 | `Discover/Build`: the operator tables and `createTokens` | induction on the function set and parameters | proved: torch_add (never set by a caller) is not modelled; max and min take one operand (counterexample) |
| C109 | `Discover/Build`: `getName`, `actionize`, comma splitting | induction on the text; distinctness of the operator table evaluated in the kernel | partial: Distinct for operators and const given once, not by protected_ names, with distinct parameter names; otherwise accepted libraries repeat names (counterexamples) |
| C110 | `Discover/Build`: `resolve`, `protDiv`, `protInv`, `protPow`, `torchDiv` over ℚ; `Discover/Protected`: exp, log, sqrt, expneg, sigmoid over ℝ | case analysis, order arithmetic | partial: Exact (rational and real) arithmetic; the torch division loses the sign of tiny negative divisors and disagrees with the numpy one, and the protected sigmoid is 1 instead of 0 from -100 downwards (counterexamples) |
| C111 | `Discover/Build`: `addTorch`, `npNames`, `switchTokens` | induction on the function set and on the expression | partial: Fails for sub, hard-coded numbers and mixed function sets (counterexamples) |
| C112 | `Viz/Data`: `residualOf`, `parityOf`, `mkField` with numpy broadcasting | case analysis on shapes | proved: Exact arithmetic on arrays given by shape and entries |
| C113 | `Viz/Data`: `cut`, `slice` | induction on the number of axes cut | proved: as stated |
| C114 | `Viz/Data`: `nearest`, `sgaPanels`, `dlgaPanels` | induction on the grid (argmin) and the request | partial: Panels are at closest grid times for both; the DLGA titles show the requested time instead of the time of the data (counterexample) |
| C115 | `Viz/Data`: `sgaField` (transposition), `sgaParity`, `sgaResidual` | index arithmetic of a permutation | partial: Field and parity figures proved; the residual figure does not depend on the discovered equation (counterexample) |
| C116 | `Viz/Data`: `dlgaParity`, `dlgaTerms` | induction on terms; sorting invariants | partial: Under the hypothesis that every operator has a stored field and no term is empty; otherwise terms are left out or the figure fails (counterexample) |
| C117 | `Viz/Data`: `rewardEvolution`, `density`, `autoEpochs` | induction on the history | partial: max_curves is exceeded and epochs beyond the history shift labels (counterexample) |
| C118 | `Viz/Fields`: `eval`, `fieldAt`, against `Discover/FD` | induction on the expression over any field of characteristic ≠ 2 | partial: Holds for first derivatives, sums, products, powers on even grids; fails for second derivatives, quotients, uneven grids, time axis and two space dimensions (counterexamples) |
| C119 | `Viz/Data`: a directory as a finite map, three ways of saving | map lemmas | partial: Fails for the second DLGA field comparison in a directory and for equations that cannot be rendered (counterexample) |
| C120 | `Api/PySR`: estimator as state machine, backend a parameter | case analysis; dict lemmas by induction | partial: After a fit that fails inside PySR the old equation is reported with the new data (counterexample) |
| C121 | `Discover/Pinn`: `importData`, `merge`, `scale`, with `SparseData` of `Discover/Adapter` | list lemmas; rational arithmetic | partial: Fails for a second pretraining (validation points twice) and a box without extent (counterexample) |
| C122 | `Discover/Pinn`: `preLoop`, `pretrain`; network, loss and Adam are parameters | loop invariant by induction on the epochs | partial: The saved file is the best network, the network used afterwards is the last one (counterexample) |
| C123 | `Discover/Pinn`: `trainLoop`, `trainPinn`, `finish`; residuals are parameters | loop invariant by induction on the epochs | partial: Loss proved for one equation; with several only the last counts, the best checkpoint is one update late, a NaN first loss ends in UnboundLocalError (counterexamples) |
| C124 | `Discover/Pinn`: `residual`, `pinnLoss` | induction on lists | partial: Fails with a constant term (counterexample) |
| C125 | `Discover/Pinn`: `quantile`, `cutQuantile`, `generateMulti`, `generateOne` | sorting and counting lemmas by induction, floor arithmetic | partial: Ratio 0 still removes the extreme points in space; the one-dimensional variant fails for several coordinates (counterexamples) |
| C126 | `Discover/Pinn`: `refreshParam` | case analysis | partial: Parameters below 5e-9 in size are taken as constant (counterexample) |
| C127 | `Discover/Stability`: `calMseCv`, `vote`, `select`; lstsq, coefficient of variation and draws are parameters | fold invariants, counting; reuses C63 | partial: The vote and the errors are proved; the test for duplicates may drop the best program before the vote (counterexample) |
| C128 | `EqGpt/Surrogate`: `create` | case analysis | partial: What is accepted is characterised; bools count as counts, fractional seeds and any number of surrogate epochs are accepted (counterexample) |
| C129 | `EqGpt/Surrogate`: `sorted`, `passes`, `parse`, `build`, `loadAll`; networks are parameters | induction on the case list; the regular expression by induction on the prefix | partial: The filter looks for the letter N anywhere in the name, and a case without shipped weights is left out silently (counterexample) |
| C130 | `EqGpt/Surrogate`: `splitRows`, `trainOne`, `loadBest`; network and optimiser are parameters | loop invariant, induction on the number of updates | partial: Holds if the first validation error is a number; a NaN there always selects the network after 500 updates, and fewer than 20 rows leave no validation rows (counterexample) |
| C131 | `EqGpt/Surrogate`: `grid`, `searchCoord`, `trainCoord` | induction on the times; ceiling arithmetic | partial: Layout proved; a retrained network is trained in other coordinates than it is evaluated in (counterexample) |
| C132 | `EqGpt/Surrogate`: `item`, `pad`, `batch`, `counted` | induction on lists | proved: as stated |
| C133 | `EqGpt/Augment`: `split`, `join`, `perms`, `plus`, `multiply`, `variants`, `chosen`; `random.sample` is a parameter | splitting and joining are inverse; loop invariant of the in-place loop; permutations by induction | partial: The end word is final only without products; otherwise it wanders with the last factor (counterexample) |
| C134 | `EqGpt/Augment`: `readDataset`, `getTrain` | membership through the construction | partial: Violated: the name is not passed on, the withheld equation is taught |
| C135 | `EqGpt/Augment`: `addWord`, `getWords`, `encode` | invariant of both dictionaries | proved: as stated |
| C136 | `Utils/Diff`: `finiteDiff` | polynomial identities for each stencil, all grid sizes | partial: Order 3 has the wrong sign at every inner point; orders 3 and 4 are 0 at the ends; unsupported orders give zeros (counterexamples) |
| C137 | `Utils/Diff`: `Operator`, `diff`; arrays as numbered objects, integer storage by truncation | reduction to C136; identities of arrays | partial: Order 4 is wrong near the ends, integer data are cut to integers, a later computation overwrites an earlier result (counterexamples) |
| C138 | `Utils/Diff`: `put`, `apply`, `getAttr`; the names of dict's attributes are a parameter | induction on the history | partial: Fails for names every dictionary has as attributes (counterexample) |
| C139 | `Sga/Autograd`: `prepare`, `gradND`, `high2`; a network is a function, automatic differentiation is `deriv` | chain rule for affine substitutions, induction on lists | partial: Fails on the original grid after delete_edges and for networks from files or other data: the statistics are those of the grid at hand (counterexamples) |
| C140 | `Sga/Autograd`: `linspace`, `refine` | closed forms of mean and variance of evenly spaced points (induction) | partial: With normalisation the refined values belong to stretched coordinates; a missing file ends the process (counterexamples) |
| C141 | `Sga/Autograd`: `setup`, `resolve`, `resolveAll`; files and training are parameters | induction on the fields | partial: Networks are kept in the configuration and reused for other data (counterexample) |
| C142 | `Sga/Derivs`: `along`, `Problem.parts`, `Problem.grads` | C28's stencils on the line through a point; induction on the pairs of field and axis | partial: u_xx and u_xxx are repeated first differences, wrong for cubics near the ends (counterexample) |
| C143 | `Sga/Problems`: `normalize`, `builtin`, `load`, `payload`, `label`, `dataErrors` | case analysis; a sum of squares vanishes iff all terms do | partial: The Chafee-Infante template lacks u_xx; the name alone decides on the equation (counterexamples) |
| C144 | `Dataset/Info`: `construct`, `fromDict`, `copy`, `update`, `toDict`, `eqv` over a heap of lists | frame lemmas for the heap; induction on attribute lists | partial: update is not atomic, stores keyword texts unsplit and accepts method names; from_dict shares the list (counterexamples) |
| C145 | `Dataset/Info`: `loadCsv`, `findFile`, `readFile`, `loadData`; directories are functions, number parsing a parameter | case analysis, induction on rows | partial: The first csv row is always dropped as a header (counterexample) |
| C146 | `Dataset/Info`: `newClass` | case analysis | partial: Inheriting subclasses of PDEDataset are refused (counterexample) |
| C147 | `Dataset/Info`: `splineSample`; the interpolant is a parameter | positions in nested loops (induction) | partial: Values are transposed against the points (counterexample) |
| C148 | `EqGpt/Gpt`: `masked`, `attend`, `Layer.apply`, `runLayers`, `Net.logits`; embeddings, projections and feed-forward parts are parameters, softmax over the reals | induction on layers | proved: The hypothesis that a word precedes is needed: sentences that begin with the padding see later words (counterexample; neither the sampler nor the loader makes such sentences) |
| C149 | `EqGpt/Gpt`: `Net.next`, `Net.lossTerms` with `batch`, `item`, `pad` | causality (C148), induction on sentences | proved: Log-softmax and mean are the library's; the terms and the distributions they are taken under are proved equal |
| C150 | `Discover/Soft`: `uniformArity`, `softLength`, `probs` over the reals | sums over the arities, monotonicity of exp | partial: Before the target the soft length prior does not lower terminals (counterexample) |
| C151 | `Dlga/Svd`: `svdSolve`, with the last right singular vector an arbitrary unit vector minimising the norm | minimality at an exact relation, field algebra | partial: Exact relations are recovered up to a factor within about 1e-8 of 1; otherwise the last singular vector is total least squares, not the best fit (counterexample) |
| C152 | `Dlga/Svd`: `Record.fit`, `generation`, `iteration` | induction on fits, generations and iterations | proved: as stated |
| C153 | `Dlga/Svd` with `Dlga/Core`'s names and terms | membership in the operator list; C151 for the counterexample | partial: Holds for operator lists without u_t and u_tt; with u_t among the operators u_t = u_t is discovered (counterexample) |
| C154 | `Discover/Stats`: `weightedQuantile`, `combinedWeights` | running sums, first position of the mask, permutation of the pairs | partial: Holds for levels up to the sum of the weights; above it (rounding, or weights that do not add up to one) the smallest value is returned (counterexample) |
| C155 | `Discover/Stats`: `empiricalEntropy` over the reals | sums over the distinct labels, log x ≤ x − 1 | proved: Over the reals |
| C156 | `Discover/Stats`: `r2`, `l2Error`, `evalResult` over the reals | sums of squares | proved: Over the reals, for columns |
| C157 | `Memory/Batch`: `getSample`, `pushBatch`, `sampleBatch`, `toBatch`, selection of the best | invariant over the history of pushes, position-wise equality of the columns | proved: With a GP aggregator (not offered by the estimators) the list of programs is changed in place: see C161 |
| C158 | `Discover/ProgramState`: attributes as partial maps, `__getstate__` | case analysis; counterexamples | partial: False of the code: the reward is looked up under another name than it is stored, so copies lose reward, coefficients, validity and counters; proved is what a copy keeps |
| C159 | `Discover/ProgramState`: `splitLoop` | dangling counts of preorder traversals | proved: as stated |
| C160 | `Discover/ProgramState`: `build`, `convert` on rose trees | induction on trees | proved: Over the reals |
| C161 | `Discover/Aggregate`: `call`, `dropBoth` (with the effect on the caller's list) | maxima, invariant of the deduplication; counterexample | partial: Failure and record proved in general; "better than all" and "list unchanged" for programs whose rewards differ by more than the tolerance; otherwise false (counterexample: the best program is overwritten) |
| C162 | `Discover/Aggregate`: `perms`, `substitute`, `complete`, `spatialComplete` | membership in permutations, same-form relation, uniqueness | partial: Exact set of completions proved; the stated symmetry holds for one place of an input variable, false for nested derivatives (counterexamples) |
| C163 | `Discover/Expand`: `diff`, `expandFirst`, `rhs` | derivations on a field, induction over expressions; reading of the printed sum; counterexample | partial: Expansion proved to change no value; the display is right for terms that expand to a single product; for a sum the display has no parentheses, so the coefficient reaches the first summand only (what is displayed is proved; counterexample) |
| C164 | `Discover/Policy`: `safeCrossEntropy`, `maskedSum`, `Sample.neglogp`, `Sample.entropy`, `loss` | softmax over the reals, Gibbs' inequality, derivative of log-softmax; counterexample | partial: Proved for sequences whose recorded tokens are all allowed; a forbidden token recorded after the end makes the loss non-finite (counterexample; the exact condition is proved) |
| C165 | `Discover/PriorBuild`: `makePrior` with the configuration it leaves, `Est.regular`, `Est.sparse`, `maxLength` | induction over the configuration; invariant over the history of calls; counterexamples | partial: A build is exact, but switches every entry of the configuration off, so each later build of the same estimator has no constraint: proved for regular mode with one import; false after a second import and for sparse mode with import_dataset and train (proved in general for every configuration) |
| C166 | `Discover/PriorBuild`: `names`, `constraintIndices`, `Counter.call`, `report` | invariant over calls, characterisation of the index error; counterexamples | partial: Right if all hard constraints come first (exact condition proved); otherwise IndexError, also for the default configuration; the share can exceed one (counterexamples) |
| C167 | `Sga/Reuse`: `payload`, `store`, `build`, `run` | invariant over the history; counterexamples | partial: Holds for the first context, for repeated building and for a new grid given together with its axes; new arrays u, x, t after a first context are never analysed, and a new grid keeps the axes of the old one (proved for every configuration) |
| C168 | `Sga/MetaTrain`: `trainMetanet` with explicit generator states | case analysis; permutation lemmas | proved: Full; exact arithmetic for the share. A share below one point trains on nothing without an error (C168_empty) |
| C169 | `App/Form`: `runTraining`, `present`, `plotTypes`, `moduleOf` | case analysis; counterexample for all runs | partial: Holds for EqGPT only: listing the plot types imports kd.model.kd_dscv, which does not exist, so every other successful training is shown as an error (proved for every dataset, model and fit); proved in full for a repository that had the module |
| C170 | `App/Form`: `compatible`, `active`, `onDataset`, `shipped` | membership characterisation; counterexample | partial: What is offered is characterised exactly; the form asks for the keys dscv and dscv_spr while the registry uses discover and discover_spr, so DISCOVER is never offered and four datasets offer EqGPT only (counterexample for every such registry) |
| C171 | `App/Form`: `runViz`, `configureDir`, `vizAnswer` | case analysis; counterexample | partial: What is shown is characterised exactly; configure(save_dir=None) changes nothing, so the removed temporary directory stays configured (counterexample for every call) |
| C172 | `Discover/Inner`: `sourceFiles`, `Handler.load`, `importInner` | characterisation over all paths; counterexamples | partial: Which names load from which directory is characterised exactly: chafee-infante and Burgers from the root of the repository only, Kdv from kd/model only, so never all; other types than regular are ignored silently (counterexamples) |
| C173 | `Dlga/BaseText`: `genePieces`, `modulePieces`, `convert` | induction over modules and genes | proved: Genes outside the table of names (none is drawn by the search) are excluded by hypothesis |
| C174 | `Discover/Search`: `fromRow`, `oneStep`, `search` over the models of C01, C06-C11, C14, C16, C17 | composition: induction over the iterations, using the claims of the parts | proved: Composition of the models of sampling, completion, program cache, search loop and memory; for library constraints whose masks are sound (C05 excludes descendant constraints with binary effectors) and a length constraint that matches the row length; the reward is any function of the expression within the clip bound, at most 0 when invalid |
| C175 | `Discover/Recover`: `termsOf`, `fitOf`, `programScore` over the models of C02, C18, C70, C72, and the search of C174 | zero residual is the least; uniqueness gives the coefficients; the reward is bounded by 1 - lambda n (C72); then C174 | proved: Exact real arithmetic with a monotone rounding of the reward; the solver returns least-squares minimisers (its contract); no constant term; the coefficients are unique and of acceptable size |
| C176 | `Sga/Run`: `Reg`, `detailsOf`, `solve` over the models of C19-C22, C31, C36, C47 | invariant: for every recorded text the population has a score at least as good; then C22, C31 with float comparison, C36 | proved: Composition of the models of tables, tree generation, evaluation, regression, evolution and display; the dense regression of finite columns has a score (not NaN) and returns one coefficient per column; argsort sorts; kernels are arbitrary functions |
| C177 | `Sga/Aic`: `aic`, `mse`, `discarded` (extended reals); `initOne`, `initPop` of C22 | monotonicity of the logarithm; induction over the draws | partial: Fails: candidates with a score below -100, so every exact equation, are thrown away while the first population is drawn; exact equations of different size tie at minus infinity; the rest is proved over the reals |
| C178 | `Dlga/Meta`: `gradCol`, `available`, `baseTheta`; translate and SVD of C60, C151 | points do not mix in the derivative of a sum (induction over the points); then C60 columns and C151 exact fit | partial: Proved for points (x, t); false for points with one coordinate (u_t and u_tt are zero) and with three (u_t is the derivative along the second coordinate); exact derivatives, any network that maps rows independently |
| C179 | `Dlga/Run`: `Setup.score`, `fit` over the models of C34, C35, C59, C60, C151, C178 | invariant over generations (history of selections), then composition | proved: For two or more genomes and not more generations than genomes (C34), known operators and points (x, t) (C178); exact real arithmetic; the SVD is a function with the properties of C151 where they are used; composition of the models of library, translation, fitness, search and text |
| C180 | `EqGpt/Run`: `samples`, `epoch`, `epochs`, `search` over the models of C80, C81, C83, C84 | induction on the samples and epochs, then composition | partial: For runs with at least one sample per epoch in which no reward is NaN and no draw raises; with a NaN reward the report can be wrong (C80_nan_counterexample, C83_nan_counterexample), and it never has more entries than the first epoch has distinct rewards (C80_size_counterexample); the network is a function from its state and the prefix to a distribution; composition of the models of sampling, reward, mask and top ten |
| C181 | `Viz/Nd`: `axesOf`, `computeNd`, `residualFigure`, `fieldFigure` over the models of C112, C113, C118 | composition with C112/C113, induction on the number of cut axes | partial: Full for increasing coordinates; with a decreasing axis the figures are wrong (counterexample). Rational entries; default slicing options (others: C113); titles show step numbers, not times (C118_time_counterexample) |
| C182 | `Discover/SprRun`: `run`, `round`, `oneSearch`, `bestOf`, `pickBest`, `equation` over the models of C28, C55, C87, C165 and the search loop | invariant over the rounds; simulation of a kept best program; composition | partial: Exact characterisation proved; the wish that the network is trained towards the expression found is false for an invalid expression (C182_invalid_counterexample), and the last search is not compared with the equation carried (C87, C182_concrete). One dependent variable; draws, stability tests, derivatives and regression are arguments |
| C183 | `Viz/SgaFig`: `fieldComparison`, `timeSlices`, `limits`, `heatMaps` over the models of C113-C115 | composition with C113, C114, C115 | partial: Full when the field used and the original field have one grid; otherwise both figures raise ValueError (C183_grids_counterexample: after delete_edges and with use_metadata). Rational entries; what matplotlib draws is the data handed to it |
| C184 | `Viz/Spr`: `prediction`, `shownPrediction`, `calculate`, `sprResidual`, `fieldOne`, `fieldNd`, `legacyMap`, `legacyScatter` on the outcome of `SprRun.run` | composition with C182_network; order of the bin bounds | partial: What the figures show is proved exactly for every run; it is the right residual only if the last training of the network left the terms as they were (C184_stale_counterexample). Fields: positions, bins and panels for any interpolation; zero is drawn where there is no value, bins overlap for short spans of large times, the older field figure exchanges space and time (counterexamples) |
| C185 | `Discover/InnerPinn`: `load1d`, `loadInner`, `construct`, `setup`, `pretrainChecked`, `fieldError` on the model of C168 and C182 | case analysis on the names and the caught exceptions; the import replaces all training attributes | partial: The trained network never depends on the name if import and first training succeed; exactly characterised when they fail because of the name (KS, KS_sine, KS2; several space dimensions with the name of a shipped data set). |
| C186 | `Discover/InnerPinn`: `fileOf`, `fieldOf`, `Field.star`, `measured`, `noisy`, `cut`, `load1d` | row-major positions, C79's lemmas on the split and the box | proved: Exact arithmetic (the float product `int(n * 0.8)` is taken as the exact share); files whose array does not fit the axes are excluded; the picture is not modelled. |
| C187 | `Discover/RegressionRun`: `task`, `score`, `fit` composing `Search.search` and `Regression.report` | composition of C174, C90, C91 and C92; C174_total for the absence of exceptions | partial: All statements hold for every run of the search and every optimiser; the search itself raises if a batch has only valid programs whose penalty eats the whole reward (C187_penalty_counterexample) |
| C188 | `Discover/GenericCheck`: `makeWith`, `Hard.callWith`, `genericLoop`, `genericCheck` | induction over the positions | partial: Exact for relational and repeat constraints; for the length and no-inputs constraints the missing operands are counted one token late, and the check leaves the mask value 1 behind (counterexamples) |
| C189 | `Viz/Line`: the three handlers from the fields of `Viz/Fields` to what matplotlib gets | induction over the grid, index arithmetic | proved: For every grid, data and equation that can be drawn; rational entries, the standard deviation of the summary and the picture itself are not modelled; where drawn values differ from training values is C118, that the time axis counts steps is C118_time_counterexample |
| C190 | `EqGpt/Simulate`: the three update formulas with their boundary rules as functions on lists, constants of the equations as parameters | field arithmetic per index; the error spreads two points per stage | partial: Exact at inner points as stated; false at the left end of the advection step (a moving linear profile is not moved there), at its right end for curved profiles, and for the second derivative of the second equation, which is divided by 12 dx instead of 12 dx^2 (counterexamples). Exact arithmetic |
| C191 | `EqGpt/Simulate`: `minmod`, slopes with wrap-around, Rusanov flux, two stages, end values | each stage lies between the two upwind values; induction over the steps | proved: Exact arithmetic; the condition on the time step holds for the shipped numbers (C191_shipped) and is needed (counterexample) |
| C192 | `EqGpt/Simulate`: smoothness indicators, weights, flux array and its differences | every stencil reproduces quadratics and the weights add up to one | partial: The value at a point is the derivative at the next point (exact for quadratics); at point n - 4 a flux that was never computed counts as 0 (counterexamples). The Gaussian filter and the third derivative built on it are not modelled |
| C193 | `Viz/DlgaOld`: the loops over the modules with their failures, selection of the panels, cumulated changes and `searchsorted`, index of a time slice | a specification `rhsValue` summing products per sample; loops by induction; sortedness of the selection; cumulated sums as variation of the history | partial: False for a history of one generation (the optimisation figure raises), for relative times outside [0, 1] and between two samples (rounded down, not to the nearest; negative ones count from the end) and for terms without genes in the relation figure (counterexamples); otherwise as stated, in exact arithmetic. Drawing and the population panel are not modelled |
| C194 | `Discover/Trim`: the slices of `cut_bound` with Python ends on arrays of any shape, the columns of the terms, fitting with the model of C70 | floor and ceiling of a share add up to the length; products of the lengths; the length of a trimmed column against the left-hand side | partial: The trimmed block is as stated, but the left-hand side is not trimmed with the terms: on a grid with an axis of 34 points or more (shipped ratio) no program of array terms can be fitted (C194_never_counterexample); proved for small grids and tensors. Exact arithmetic; that least squares refuses columns of another length is a hypothesis |
| C195 | `Viz/TreeFig`: building the tree from the tokens, drawing with the process-wide counter, the arity table | mutual induction over expressions; decimal digits contain no underscore and determine the number | proved: Every program and library, any order of figures in a process. A graph is its node and edge statements; graphviz itself (rendering, colons as ports) is not modelled |
| C196 | `Viz/RewardFig`: the reward logs of the searcher of C17, the curves, the chosen densities | running maxima by induction; the maximum of the kept rewards is the reported best by C17 | partial: The curves and densities are as stated for the kept iterations, but iterations without anything to train on are not counted (C196_skipped_counterexample) and at most four epochs can be drawn (C196_five_counterexample). Rewards as in C17; kernel density estimation not modelled |
| C197 | `WeakEvaluate`, `weak_form_cal`, the weak branch of `execute` and the flag of the task; the quadrature rule is a parameter, the five-node rule over the reals is an instance | chunking of the flattened mesh; change of variables for polynomials (`derivative_comp`); moments of the five-node rule by ring identities in √70; linear algebra of the columns | partial: Proved of weak_form_cal, glq_cal and the weak-form fit: rows, exactness, recovery, and the five-node default rule. False of a search: with weak_params the windows are never produced and the first admissible program raises IndexError. |
| C198 | `Discover/TorchDiff`: tensors as functions of the position columns, the gradient of a sum as a derivative, `torch_diff`, `Laplacian_t`, the protected operators, the environment of `python_execute_torch` (the stack machine is that of C03) | pointwise columns are closed under the gradient of the sum (the other rows are constant); iterated derivatives along lines by induction on the order; induction over expressions; C03 for the token list | partial: Proved for all expressions over the network's outputs and the parameters in which only expressions with a network output are differentiated; expressions without one are refused (diff) or raise (lap). Automatic differentiation is the derivative of a real function; rounding and the switching points of the protected operators are not modelled |
| C199 | `Viz/Api`: the ten helpers as lists of assignments, the registry of C33 filled by the default registration, the class hierarchy, tables of capabilities and files, `_emit_info`, the output paths | induction over the assignments; the registry has two reachable states; the first ancestor is the root class by induction over derivation; disjoint file tables | partial: Proved except: classes derived from KD_PySR get no adapter before a KD_PySR was plotted, and files saved together with a warning are not named in the printed line. Style and backend of render are C58; drawing is not modelled |
| C200 | `Dlga/History`: the four histories, the records made by `select` for every completed generation (also of a search that raises), the two loss curves, and the curves and summaries of the figures; the search is that of C34 and C35 | the generations of a run are related to the recorded entries by induction; monotonicity and the winner from the invariants of C35 and C59 | partial: The account of every single fit and the figures of the first fit are proved; after a second fit of the same estimator the figures show both runs as one (counterexample). Losses and fitness values other than NaN; a raising training is not modelled |
| C201 | `Viz/DlgaCompare`: `build`, `plotComparison`, `draw`, `fieldComparison` on the files of all directories | case analysis of one call; induction over the history of calls for the stale file | partial: The first call of a directory, and every refused call, is as stated; any later call answers the path of the first picture with the new data (counterexample for every pair of calls). One space axis |
| C202 | `Viz/DlgaCompare`: `plotTerms`, `plotResiduals`, `bars` (numpy's histogram in exact arithmetic) | products entry by entry; the bin of a value by the floor of its relative position; counting over the bins | proved: Exact arithmetic; training points of one place and one time; the true and the predicted field of one shape |
| C203 | `Discover/Notation`: `display`, `derivative`, `lhsText`, `figureLhs`, on top of `Discover/Adapter` | case analysis of the accepted data sets; unique reading of the subscript from the right; invariance under renaming | partial: The names are right exactly if the left-hand side is along t and the space axes are called x, y (, z) in this order; the displayed equation does not depend on the names at all; derivatives of the state are written uniquely, those of a parameter field with a double subscript. SymPy's printing of sums, products and powers is not modelled |
| C204 | `App/RunnerViz`: `saveViz`, `saveFigures`, `drawWith`, on top of `Viz/Api` and `Viz/Registry` | the registry is stable after the first lookup; induction over the figures | partial: Which files are written, below which directory, is proved for every session; two parts of the full statement are false: no figure is next to result.json, and the configured directory is not restored. The drawing itself is not modelled here |
| C205 | `Viz/SgaLegacy`: `plotResults`, `figures`, `slice`, `rhsSlice`, `image`, on top of `Sga/Problems` | points of the curves node by node; parity of the numbers of times; extremes by induction | partial: What is drawn, and when, is proved node by node; false are: the common place axis for u_t and u_x, the common time of the two curves (never with the default refinement) and the residual of refined Chafee–Infante data. Exact arithmetic |
| C206 | `Sga/InputDim`: `infer`, `validate`, `loop` | case analysis of the attributes; induction over the fields | partial: Proved for every network whose declared numbers and first linear layer are true; a network with another layer in front of its first linear one is judged by the wrong number (C206_front_counterexample) |
| C207 | `Viz/Containers`: `mkHistory`, `mkReward`, `mkTerms`, `normalize`, `mkSlices` | case analysis of the checks; induction over terms, lists and the running minimum and maximum | partial: Histories, rewards, terms and coordinates proved in full; time slices without NaN: NaN passes the range check (C207_nan_counterexample) |
| C208 | `Utils/Logging`: `setup`, `run`, `effective`, `handlers`, `emit` | induction over the history and over the way from a logger to the root | partial: One line per message is proved while a single accepted call names the logger or one above it; every further call adds a line (C208_twice_counterexample) |
| C209 | `Dataset/Handler`: `load`, `clean`, `get`, `run` | induction over the rows and over the history; invariant: the handler never points at a table that existed before it | partial: Cleaning, copying and the refusal of other sources are proved for every table and history; a load that fails is not reported, the earlier table stays (C209_stale_counterexample) |
| C210 | `Viz/SgaParity`: `parity`, `prediction`, `target`, `figure`, `sumDefaults` | case analysis on what is stored; induction over residuals for the maximum and over terms for the weighted sum | partial: What is compared and the summary are proved for every shape, prediction and option; the last resort leaves terms out and another shape silently changes the target (C210_dropped_counterexample) |
| C211 | `Discover/Objects`: `getPosition`, `getMask`, `repeatCount`, `repeatForbids`, `lengthAllows`, `traversals` | induction over the expressions and over the tokens of one; expressions are an inductive predicate, their prefixes stay above the next marker | partial: Cutting, positions and the bounds are proved for every number of expressions; the repeat bound counts the last token of the expression before as well (C211_previous_counterexample) |
| C212 | `EqGpt/Answer`: `weights`, `decode`, `ends`, `answer` | induction over the number of words that still fit; the parity of the position determines which weights are positive | partial: Ending, extension, weights and the text returned are proved for every model, sentence and draw; the kinds of words are those of an older vocabulary, so that a sentence with the start word S is continued wrongly (C212_start_counterexample) |

## Where the code does not do what the property says

Each is proved as a `…_counterexample` (or named in the note of the claim) about the model of the unchanged code.

* **DISCOVER constraints.** The descendant mask ignores the second operand of binary effectors; `ancestors`/`parents_siblings` are wrong for operators of three or more operands; random fillers added by `_finish_tokens` are not checked against any constraint; `max_=2`, `max_=0` and single-token edge cases of the length/repeat constraints; the post-hoc descendant check resets on nested effectors, scans only as many effectors as there are targets and never flags a token that is both; left/right-child checks raise `UnboundLocalError`.
* **DISCOVER sampling.** The recorded dangling column is the value after the action; `observe_dangling=True` raises at construction; the sampling loop never threads the RNN state.
* **DISCOVER memory and cache.** A better score for a held identifier is ignored and then lost; `push_rm_same` drifts and forgets the best; `UniqueQueue(0)` holds one item; cache keys differ between int64 and int32 arrays; a stochastic task ends in `KeyError`; the searcher raises `ValueError` when the kept valid programs have no positive reward; stability selection may replace `best_p`.
* **DISCOVER terms and regression.** `split_forest` sign errors for subtracted sums; `build_tree_new` children lose their token; `drop_duplicates` may overwrite an unrelated term; `is_pareto_efficient` keeps one of several equal rows; the refit after dropping a small constant is not re-checked; `wf_calculate` may drop a real term and ignores the second data set's error; regulations look for the *letter* u in the text; the reward is negative for many terms; numerical-warning blame leaks to the next evaluation; invalid programs display `0.0000 * first term`; programs with a constant are shown as a LaTeX error; metric names `R2` and `inv_nrmse` of the PDE task raise.
* **DISCOVER numerics and adapters.** 2-D derivative operators wrap around periodically; an operand of the coordinate's shape is divided by it; spacing comes from one interval only; the tolerance of the evenness check accepts tiny uneven grids; `cut_quantile` does not trim parameter fields.
* **SGA.** `fit_dataset` with an explicit target always raises for N-D data; mutation over-restricts or hangs (single axis not called x) and accepts a field called x; `max_depth=1` raises; `pde_lib` holds objects for the initial population so duplicates are missed; pruned candidates are remembered under another text; NaN scores; `STRidge` returns dense un-normalised weights when everything is below the tolerance; parameter fields are neither trimmed nor checked for derivative names; the LaTeX output is ambiguous and always shows `u_t`.
* **Datasets.** Square arrays are transposed by `load_pde_dataset`; point lookup, range, sampling and derivatives assume axis order x, t; `get_derivative` uses unit spacing; the N-D constructor keeps complex data complex.
* **Estimator API.** `KD_Discover`/`KD_DLGA` do not store all constructor parameters so `get_params`, `set_params`, `repr` raise; the SPR and regression classes have `*args`; `set_params` is not atomic.
* **Viz.** Looking up a lazily registered class changes later answers for subclasses; unregistering does not reach a lazy entry; a backend named in one call persists.
* **DLGA.** More generations than genomes raises; an odd population loses a genome (base class); module number is unbounded; the best of the initial population is not saved; unavailable operators shift the names; the LaTeX table ignores the user's operators; `fit_dataset` can scramble the data set; the recorded validation error is one step older than the saved weights.
* **EqGPT.** NaN rewards are ranked first and block the board; the board never grows beyond the first epoch's distinct rewards; `u*ux` and `u/ux` are duplicates for `delete_duplicate`; several words are computed differently from how they are written; a fully masked step draws any word or raises.
* **DISCOVER facade.** `safe_merge_dicts` uses `collections.Mapping`, so every non-empty configuration raises on Python 3.10+; a configuration path always raises (`config_common.json` is missing); `out_path` accumulates over imports; the sparse `fit(x, y, domains)` keeps the network configuration and name of the last import; `KD_Discover.train()` uses whatever task was set up last in the process; setting up a sparse estimator breaks `predict` of earlier regression estimators; `callIterPINN` returns the last search without comparing it; controller weights and the sparse split are drawn before the seeds are set.
* **Tabular regression.** A variable name containing an earlier default name is corrupted in `expression_named` (`flux1` → `flut`); targets of scale 1e-7 or less get rewards near 1 for any reasonable constant (variance floor); programs longer than `1/parsimony_coeff` get the reward of invalid ones; `from_str_tokens` overwrites the constants of a shared cached program, whose reward and error stay; an invalid best program ends in `float(None)`; constants below 5e-7 are printed as `0.0`; `max` and `min` are registered with one operand and always fail; `harmonic` fails on columns.
* **Runner, jobs and web form.** `result.json` of an earlier run survives a killed or refused run; a failing final `print` turns a saved success into an error report; with both `dataset_name` and `dataset_file` the file is used but the name reported, and a missing file silently falls back to the name; a file uploaded with a GPU job never reaches the runner's configuration; one failed download (or another submission) makes the form forget the job; a run that failed is shown as a finished job with the equation `(error)`; a DLGA sample number between 0 and 1 means different things locally and on the GPU.
* **Loading.** `load_pde` turns every square solution; `advection_diffusion` is listed but its file is missing, so `load_pde` returns `None`; the `domain` and `aliases` dictionaries of a returned dataset are the registry's own, so editing them moves the grid of later loads; keywords other than `epi` are ignored for array files and raise TypeError for `.mat` files; the runner reads an uploaded array row by row where `load_pde` would turn it; the deprecated loaders refuse files `load_pde` reads.
* **DISCOVER operator set.** `create_tokens` accepts libraries with two tokens of one name (a parameter named `p2` before an unnamed second one; `div` with `protected_div`; `1` with `1.0`; a repeated operator), and parameter names with a comma, which no text can address; `protected_div_torch` replaces a tiny negative divisor by +1e-8 and so flips the sign; the numpy and torch divisions disagree for divisors between 1e-8 and 1e-3; `sub` is never switched to torch because its name contains the letter u; a hard-coded number in the library ends the switch in `KeyError`, one `_t` operator disables it, an operator without torch version ends the set-up in `KeyError`.
* **Figures.** DLGA time-slice titles show the requested time, not the time of the data drawn; SGA's residual figure ignores the discovered equation (it uses the built-in problem's template, and is empty for any other data); DLGA's parity figure silently leaves out terms whose operator has no stored field and its term figure raises for a constant term; the density figure exceeds `max_curves` and shifts labels after an epoch beyond the history; DISCOVER draws a second derivative as the gradient of a gradient, quotients with a shifted divisor, uneven axes with the wrong spacing, two-dimensional data without the periodic ends of training, the time axis as step numbers, and cannot draw `exp`, `log`, `sqrt`, `abs`; the second DLGA field comparison in a directory returns the first one's picture; a failed equation rendering returns a path to an old or missing picture.
* **PySR.** A failed second fit keeps the first equation with the second data; the `lhs` argument of `equation_latex` is ignored when PySR writes LaTeX itself.
* **Sparse mode.** After pretraining the network is the last one, not the best one that was saved; a second pretraining (a new `fit` on the same model) enters the validation points twice; an axis of the box without extent makes every network input NaN; with several equations only the last one enters the training loss; the `_best` checkpoint is the network one update after the best loss; a first loss that is NaN or at least 1e8 ends the last round in `UnboundLocalError`; with `add_const` training ends in `IndexError`; a cut ratio of 0 still removes the extreme points of every space coordinate, and all points if they share one coordinate; parameters below 5e-9 in size are taken as constant; candidates whose normalised errors differ by less than 1e-5 count as duplicates before the stability vote, so the best one may not be tested.
* **EqGPT surrogates.** A retrained surrogate is trained in (t, x − 8) but evaluated in (t / Tp, (x − 8.17) / λ), so its values belong to other times and places; a NaN first validation error selects the network after 500 updates; data with fewer than 20 rows have no validation rows; the case filter `N` matches the letter anywhere in the name; a case without shipped weights is left out with a log message only; bools pass for counts and fractional seeds are accepted.
* **EqGPT training data.** The end word is attached before the factors are reordered, so sentences whose last term is a product carry it in the middle (`ux E * u`); `get_train_dataset` does not pass the name of the equation to withhold on, so that equation is taught.
* **kd.utils.** `FiniteDiff(u, dx, order=3)` returns *minus* the third derivative (for x³: −6); orders other than 1–4 silently give zeros; `FiniteDifferenceOperator` cuts derivatives of integer arrays to integers, its fourth derivative is wrong at the two rows next to each end (x⁴: −24, 0 instead of 24), and a second `compute` overwrites the array returned by the first; `Attrdict` attributes named like dict methods can be assigned but not read back.
* **SGA with networks.** After `delete_edges` the derivatives on the original grid use the statistics of the original grid with a network trained on the cropped one (u = x + t on 10 × 2 points: u_t = √(17/11) instead of 1); refined data are normalised with the statistics of the refined grid, so they are the field at stretched coordinates, extrapolated at the ends; a missing network file calls `sys.exit(1)`; data with one time become NaN; networks stay in the configuration and are reused for other data.
* **SGA derivatives and problems.** u_xx and u_xxx are repeated first differences (x³ on 0..6: 9/2 instead of 0 at the first point); the Chafee–Infante template for "data error" has no u_xx, so exact data are reported as wrong; the name alone (also of own data) decides on the equation used for the error.
* **Datasets.** `sample(method='spline')` returns values transposed against its points; csv files without a header lose their first row; `class My(PDEDataset): pass` raises TypeError; `DatasetInfo.update` is not atomic, accepts method names (then `==` or `copy` raises) and stores a keyword text unsplit, so the copy differs.
* **EqGPT network.** A sequence that begins with the padding word gets equal attention over the whole row, so the words that follow are seen.
* **Soft priors.** `SoftLengthPrior` before `loc` does not lower the terminals (only positions 1 and 2 lower every token but sums, by a fixed factor).
* **DLGA regression.** The coefficients are those of total least squares (last singular vector), not of the best fit; with `u_t` among the operators the discovered equation is u_t = u_t.
* **Weighted quantile.** If the weights add up to less than the level (rounding at level 1), the smallest value is returned instead of the largest.
* **Program copies.** `Program.__getstate__` looks for an attribute `r`, but the reward is kept as `r_ridge`: a copied or pickled program has no reward, no coefficients, is valid again and has fresh counters.
* **GP aggregator** (only by constructing `Searcher` directly). The submitted list of programs is overwritten in place when rewards agree, so programs and rows no longer match and the best program may be lost; `u_xx` written as two first derivatives is "completed" to the mixed derivatives, never to `u_yy`; without an expression of its own the call ends in `IndexError`.
* **Displayed sums.** A derivative that expands to a sum is displayed without parentheses: `2 (u x)_x` becomes `2 u + x u_x`.
* **Padding in the loss.** A forbidden token recorded after the end of an expression (rows padded by the aggregator) makes the training loss NaN: the mask multiplies an infinite cross entropy by zero.
* **Sparse mode runs without constraints.** `make_prior` pops the key `on` from the configuration it is given. `KD_Discover_SPR.train` sets up again after `import_dataset` has done so, so its searches have no constraint or prior at all (no length limit 64 but the controller's 30, no constraints on derivatives); the same in regular mode after a second `import_dataset`.
* **Constraint counts.** `constraint_counts[i]` is indexed by the position among all priors: with `count_constraints` the default configuration ends in IndexError; the percentages refer to tokens drawn, not to choices, and exceed 100%.
* **Stale data in a reused configuration.** `_load_data` writes `fields_data`, `coords_1d` and `axis_order` back into the configuration; arrays `u_data`, `x_data`, `t_data` assigned later are ignored, and a later grid without axis order is read with the old one.
* **The web form never shows a result of SGA, DLGA or DISCOVER.** `_get_model_capabilities` and the DISCOVER branches import `kd.model.kd_dscv`; the module is called `kd_discover`. Every successful local training ends as "Training error" and the model is lost.
* **DISCOVER cannot be selected in the web form.** The form looks for the model keys `dscv` and `dscv_spr`, the registry has `discover` and `discover_spr`. For PDE_divide, PDE_compound, fisher and fisher_linear only EqGPT is offered, which ignores the dataset.
* **Removed directory stays configured.** `configure(save_dir=None)` does not reset the directory; after `run_viz` every later figure of the process goes to the removed temporary directory (which is created again).
* **Built-in data of DISCOVER.** Paths are relative to the working directory, with different roots for different names: Kdv loads only from kd/model, the others only from the repository root. A type other than "regular" is ignored.
* * **Exact equations in the first population.** `SGA.__init__` redraws while `a_err < -100`: a candidate that fits the data exactly (AIC minus infinity, or mean squared error below exp(-50 - ratio k)) is discarded if it is drawn for the first population (C177).
* * **DLGA with more than one space coordinate.** `generate_meta_data` always takes `u_t` from column 1 of the input: for points (x, y, t) it is the derivative along y (C178).
* `_calculate_pde_fields_nd` sorts the coordinates with `np.unique` but not the field: with a decreasing axis every derivative along it has the wrong sign in the figures and values are drawn at wrong coordinates (C181_order_counterexample).
* A round that finds only an invalid expression trains the network towards u_t = 0 as if that were the equation: an invalid program keeps the coefficients [0] (pde_pinn.py:149-159, C182_invalid_counterexample). The searcher is reset between rounds only if its memory is not empty (searcher.py:258-260), so that an old invalid program can be reported again.
* `delete_edges` cuts the field used and the coordinates but not `u_origin` (context.py:399-438): afterwards `plot_field_comparison` and `plot_time_slices` of SGA always end with a ValueError; likewise with `use_metadata` (C183_grids_counterexample).
* The figures of sparse DISCOVER use `model.best_p`, the equation of the last round, not the reported one, and its cached prediction, made with the network before its last training, against `task.ut` of the network after it (kd_discover.py:676-683, discover_viz.py:561-592): with a network that satisfies the equation exactly the residual shown is not zero (C184_stale_counterexample). Outside the points the fields are drawn as zero (C184_zero_counterexample); `plot_spr_field_comparison` exchanges space and time (C184_transposed_counterexample), and `plot_spr_residual_analysis` labels the second space coordinate as time (C184_scatter_counterexample).
* The network model of the sparse mode loads a built-in data set if the data set has the name of one (pinn.py:88-98) and catches only AssertionError and UnboundLocalError: a data set called KS, KS_sine or KS2 cannot be imported, because the file is not in the package (C185_name_counterexample); with the name Burgers2, fisher, fisher_linear or PDE_divide the built-in field stays in `x_star`, so data with two or three space coordinates raise after the first training (C185_dimension_counterexample) and the logged "full Field Error" compares with the built-in field, not the data given (C185_error_counterexample). Loading also advances the global numpy generator.
* With `parsimony_coeff` times the length of an expression at least 1 its reward is exactly 0; a batch whose valid programs are all that long makes `search_one_step` take `np.max` of an empty array and `fit` raises ValueError, even if the expression reproduces the targets (C187_penalty_counterexample).
* `Constraint.is_violated` sets `self.mask_val = 1.0` and never restores it (prior.py:337): after one check the constraint excludes nothing any more, in later sampling the forbidden tokens get a bonus of 1 (C188_disabled_counterexample). It also counts the missing operands after the token (342): a correct `add(x1, x1)` violates the minimal length 3 (C188_length_counterexample).
* The protected sigmoid is 1 for every argument from -100 downwards, where the sigmoid is nearly 0: the overflow guard of expneg returns 0 for an infinite value (`C110_sigmoid_counterexample`, functions.py:154-156, 170-171).
* `embedding=True` in the state manager always raises: the embedding tables are parameters, which are called like modules (`C65_embedding_counterexample`, state_manager.py:139-180).
* The operators `max` and `min` are registered with one operand although `np.maximum` and `np.minimum` need two: every expression that uses them fails (`C108_max_counterexample`, functions.py:113-114).
* posterial_solution.py:60: the five-point second derivative of the second equation is divided by `12 * dx` instead of `12 * dx ** 2`, so it is dx times the true one (C190_uxx_counterexample); line 29-32: the left end of the advection step reflects the profile, so that a moving linear profile is pushed the wrong way there (C190_left_counterexample).
* posterial_solution_FD.py:261: `dfdx[3:-3] = (flux[4:-2] - flux[3:-3]) / dx` takes the differences one place too far to the right: the result at a point is the derivative at the next point, and at point n - 4 it uses a flux that was never computed, so a constant profile a gets the derivative -a/dx there (C192_shift_counterexample, C192_end_counterexample).
* dlga_viz.py:446: with a history of one generation `show_gens` is unbound, so plot_optimization_analysis raises after writing the file (C193_one_generation_counterexample); line 477 rounds the index of a time slice down, so that 0.9 of two samples shows the first, and a negative relative time shows samples from the end (C193_slice_counterexample); a constant term makes plot_derivative_relationships fail (C193_constant_counterexample).
* stridge.py:509-510 trims every NumPy term when data_noise_level > 0, but pde.py:119 keeps the left-hand side on the whole grid: with the shipped cut_ratio 0.03 and an axis of at least 34 points the numbers of rows differ and no program is ever fitted (C194_never_counterexample, C194_shipped).
* An iteration without a valid sample in the elite appends nothing to the reward logs (searcher.py:154-163), so the figures number the remaining iterations as if it had not happened: after two iterations of which the first had nothing to train on, the point of the second stands at iteration 1 (C196_skipped_counterexample), and "Epoch=k" of the density figure is not epoch k. plot_density with more than four epochs raises IndexError, the colour list has four entries (C196_five_counterexample).
* `weak_params` sets the weak-form flag, but the call of `weak_form_cal` in `generate_meta_data` is commented out: `wf_calculate` then asks for `u[1]` of a list with one field and raises IndexError for the first admissible program.
* `lap` of an expression without an output of the network (a parameter token) raises RuntimeError outside the `try` of `python_execute_torch` and ends the search, while `diff` of it makes the program invalid (C198_parameter_counterexample).
* A class derived from KD_PySR has no adapter until a KD_PySR itself was plotted (C199_subclass_counterexample). If a figure is saved with a warning, the printed line gives the warning and not the file (C199_printed_counterexample). `plot_residuals` and `plot_field_comparison` demand data (`actual`, `true_field`, …) that the SGA, DISCOVER and PySR adapters do not use.
* The histories are created in the constructor and never emptied: after a second fit the figures show both runs as one curve with twice the generations and epochs, the fitness may rise in the middle, and "best_objective" may belong to the equation of the earlier data (C200_refit_counterexample). A fit whose search raises leaves the earlier fit's evolution on display (C200_failed).
* The DLGA adapter draws its field comparison to `pde_comparison.png` and renames that file only if `field_comparison.png` is missing (viz/_adapters/dlga.py:133-135): every later call for the same output directory answers the path of the *first* picture together with the new data, and leaves the new picture under the other name (C201_stale, C201_history_counterexample).
* The equation figure of DISCOVER never passes the left-hand-side axis (viz/_adapters/discover.py:219-221), and the table `_SYMBOL_DISPLAY` writes the coordinates as x, y, z whatever the axes are called: u_x = … over (t, y) is shown as u_t = … with x for t (C203_axes_counterexample). A derivative of a parameter field is printed as `p_{1}_{x}`, a double subscript which LaTeX and mathtext refuse (C203_parameter_counterexample).
* The generation types `FD` and `FD_generate_2d` of the physics-informed data (kd/model/discover/pde_pinn.py:312-375, not modelled) read `self.shape` of a task on which it is never set, and so always raise AttributeError.
* `save_viz` of the runner says that it saves the figures alongside result.json, but only saves a figure there that an adapter returns in memory, and none does: the images are in the subdirectory `dlga/` or `discover/` (runner.py:166-172, C204_alongside_counterexample). Its `configure(save_dir=None)` does nothing, so that the process keeps the job's directory (C204_restored_counterexample).
* `KD_SGA.plot_results` draws the given data of u_t and u_x over linspace(0, 256, n) but the refined data over linspace(0, 100, n) (visualizer.py:75-76, 88-89): the two curves agree in place only at the left end (C205_scale_counterexample). The curves are taken at the columns m//2 of the two grids, which is the same time only if the refinement ratio and the number of times are both odd – with the default ratio 2 never (C205_time_counterexample). For Chafee–Infante the residual of the refined data leaves out u_xx (C205_residual_counterexample).
* SGA's input check takes the first linear layer's inputs for the network's: a network that expands two coordinates to five features before its first linear layer is refused for two axes (C206_front_counterexample).
* TimeSliceComparisonData lets NaN through: a slice time NaN is accepted, and one NaN among the times lets every slice time through (C207_nan_counterexample); coordinates of several axes stacked in one array are taken for a single axis (C207_stacked_counterexample).
* Every further setup_logger call for a name (or for one above it, as for kd and kd.viz) adds another line per message, since handlers are appended without looking; a log file named without a directory raises FileNotFoundError and leaves the console handler behind (C208_twice_counterexample, C208_refused).
* BaseDataHandler.load_data swallows every reading error: a handler pointed at a path that cannot be read keeps handing out the table loaded before (C209_stale_counterexample).
* SGA's rendered equation shows a term with a NaN coefficient as if the coefficient were 1 (C36_nan_counterexample).
* SGA's parity figure falls back, when the equation cannot be evaluated again, to a prediction without the terms the search found, with no warning; and compare='original' with another shape silently shows the search's own derivative (C210_dropped_counterexample).
* get_mask leaves the last token of the expression before unmasked: with several expressions per program RepeatConstraint counts this token for the next expression, and so forbids it there (C211_previous_counterexample).
* GPT.answer/greedy_decoder keep the operator ids 1..3 of an older vocabulary (no '/', no 'S'): from the start sentence S they draw +, * or E at once, can never draw ut there, and may draw '/' in the place of a word (C212_start_counterexample).

## What is modelled and what is not

| source | status |
|----|----|
| kd/base.py | modelled: `BaseEstimator` (sharing of sub-estimators between parents is not) |
| kd/data.py | modelled: `SparseData.process_data` and the regular container; not: noise generators' distribution |
| kd/dataset/{__init__,_registry}.py | modelled (data directory a parameter; real numbers only) |
| kd/dataset/{_base,_info}.py | modelled (the interpolant of the spline sampler a parameter); not: plotting helpers, `_convert_data_dataframe` |
| kd/model/kd_sga.py, sga/adapter.py | modelled: keyword merging, adapter trimming; not: logging |
| kd/model/sga/sgapde/{tree,pde,solver,naming,context,equation,PDE_find}.py | modelled, the networks of context.py as functions; not: plotting, `PDE_find.print_pde` |
| kd/model/sga/sgapde/{config,metann}.py | modelled: problems, names, choice of data, training data; not: Adam |
| kd/model/sga/sgapde/visualizer.py, sga/main.py | not modelled (plots, script) |
| kd/model/dlga.py, kd_dlga.py, viz/dlga_eq2latex.py | modelled: genetic algorithm, fitness, translation, training-loop bookkeeping; network and autograd are parameters |
| kd/model/discover/dso/{prior,subroutines,memory}.py | modelled; not: language-model prior, memory's KDE/variance utilities |
| kd/model/discover/{library,program,execute,stridge,aggregator,ga_utils,searcher,state_manager,controller}.py | modelled: token tables, traversal, execution, cache, splitting, regression, constraints, sampling bookkeeping; torch modules and optimisers are parameters or absent |
| kd/model/discover/functions.py | modelled: operator tables, create_tokens, add_torch_tokens, protected division, inversion and powers over the rationals; exp, log, sqrt, sigmoid and harmonic values are parameters |
| kd/model/discover/task/pde/{pde,utils_fd}.py, adapter.py, viz/discover_eq2latex.py | modelled: rewards, derivatives, adapters, LaTeX assembly |
| kd/model/discover/task/pde/{data_load,dataset,utils_v1,utils_nn,NN,multi_task,wpde_pinn,utils_subgrid,pde_find}.py, dso/{train,tf_*,train_stats}.py, attention.py | not modelled (bundled experiment loaders, networks, legacy TensorFlow training) |
| kd/model/eqgpt/{continue_train_GPT_all,calculate_terms,gpt_model}.py, kd_eqgpt.py | modelled: sentence handling, masks, rewards, board, constructor, cases, surrogate training and grids, batches, the GPT's attention structure and loss; the weights and the surrogate networks are parameters |
| kd/model/eqgpt/read_dataset.py | modelled except the number-of-equations variant and the word count |
| kd/model/eqgpt/ (other files) | not modelled (training scripts, posterior PDE solvers) |
| kd/viz/{core,registry,_style,_contracts}.py | modelled: dispatch, registry, style, figure data and slicing; not: drawing |
| kd/viz/_adapters/*, discover_viz.py | modelled: the data of field, parity, residual, term, time-slice, reward and density figures, and where pictures are saved; not: drawing |
| kd/model/kd_pysr.py | modelled; PySR itself is a parameter |
| kd/viz/dlga_viz.py, equation_renderer.py (LaTeX to pixels), examples/ | not modelled (drawing) |
| kd/model/kd_discover.py, discover/config/__init__.py, discover/utils.py (`safe_merge_dicts`) | modelled: configuration merging, what importing data configures, sharing between estimators, rounds, seeding order; the search itself is a parameter there (modelled elsewhere) |
| kd/model/kd_discover_regression.py, discover/task/regression.py | modelled: validation, prediction, caching of scores, reward, text of the result; optimiser a parameter |
| kd/runner.py, kd/job.py, app.py | modelled: configuration, data source, result file under crashes, submission, polling, settings; not: figures, credentials, layout |
| kd/model/discover/{pinn,loss}.py, task/pde/{pde_pinn,utils_noise}.py | modelled: data arrangement, training loops, loss, residual, search points, parameters, stability test; the network, automatic differentiation, Adam and L-BFGS are parameters or absent; smoothing variants are not modelled |
| kd/utils/{utils_fd,solver,attrdict}.py | modelled |
| kd/utils/{utils_GA,logging,debug_utils}.py | not modelled (network layers, logging) |
| kd/model/discover/utils.py (quantile, entropy, error measures), dso/variance.py | modelled over the reals; not: plotting, file helpers, seeds of the libraries |

## Axioms of every claimed theorem

Output of `#print axioms` (namespaces dropped), grouped.

* **no axioms** (19): C43_first_step, C43_recurrent_counterexample, C37_single_point_counterexample, C40_legacy_partial, C33_lookup_counterexample, C33_override_counterexample, C33_unregister_counterexample, C73_torch, C73_exception_counterexample, C73_torch_counterexample, C87_returned_counterexample, C89_weights, C89_seed_counterexample, C120_refused, C158_invalid_counterexample, C158_counts_counterexample, C162_second_derivative_counterexample, C162_third_derivative_counterexample, C170_shipped

* **`propext`** (75): C04_arity3_counterexample, C12_nested_effector_counterexample, C12_effector_count_counterexample, C12_target_effector_counterexample, C12_lchild_rchild_raise, C43_policy_outputs_partial, C02_walk_arity3, C18_names, C46_stochastic_counterexample, C31_nan_counterexample, C56_none, C32_missing_attribute, C32_not_atomic_counterexample, C33_clear, C60_latex_unknown, C60_latex_names_partial, C60_latex_counterexample, C61_checkpoint_counterexample, C62_dataset_unchanged_partial, C39_filter_same_first, C65_dangling_counterexample, C65_embedding_counterexample, C65_arity3_counterexample, C68_new_evaluated, C81_division_counterexample, readings_render, C85_no_config, C85_python310_counterexample, C85_path_counterexample, C89_seed_partial, C89_seed_sparse_partial, C90_refused, C95_unknown, C97_label_partial, C97_job_named, C97_no_temp_file, C97_both_counterexample, C97_missing_counterexample, C97_upload_counterexample, C98_download_counterexample, C98_error_counterexample, C134_order, C138_delete, C144_alias_counterexample, C145_header_counterexample, C152_record, C157_selected, C161_lost_best_counterexample, C165_concrete, C166_percentage_counterexample, C167_first_partial, C167_first_grid_partial, C167_again_partial, C167_stale_counterexample, C167_axes_counterexample, C167_new_grid_partial, C167_incomplete, C170_only_eqgpt, C170_shipped_models, C171_tempdir, C171_dir_counterexample, C171_no_model_partial, C173_concrete, C173_empty_module, C196_five_counterexample, C199_handlers, C199_none, C199_printed_counterexample, C199_files, C200_unfitted, C204_restored_counterexample, C206_front_counterexample, C207_coords_given, C209_demo, C209_stale_counterexample

* **`Quot.sound`** (1): C73_torch_leak

* **`Quot.sound`, `propext`** (156): C01_finish_empty, C05_binary_counterexample, C08_episode_length, C12_repeat, C12_length, C02_preorder_rebuild, C03_execute_eval, C18_terms_partial, C18_signs_partial, C44_reconstruct, C44_split_reconstruct, C44_too_long, C45_mutate_single, C15_zero_counterexample, C16_width_counterexample, C19_depth_one_raises, C24_no_collision_partial, C47_rejected, C28_short, C30_support_partial, C30_never_readmitted, C30_rounds, C30_all_below_counterexample, C30_at_tolerance_counterexample, C31_best_partial, C37_edge_partial, C37_edge_length, C37_param_counterexample, C51_value_partial, C56_square_counterexample, C33_answer, C33_exact, C33_registered, C33_repeat, C33_eager_pure, C33_lookup_stable_partial, C57_backend, C58_configure, C58_style_applied, C34_length_counterexample, C34_add_distinct, C35_initial_counterexample, C59_fitness, C60_columns, C39_filter_same, C39_delete_duplicates, C63_distinct_kept, C68_once_partial, C68_remembered, C69_crossover, C72_construct, C73_warnings_partial, C76_laplace_3d, C82_sint_counterexample, C82_uyyt_counterexample, C82_sqrt_counterexample, C85_override, C85_default, C88_own_data, C88_regular_partial, C88_predict_partial, C88_regular_counterexample, C88_predict_counterexample, C88_start, C90_rowwise, C90_append, C90_inputs, C91_consistent_partial, C91_stays_partial, C91_best_constants, C91_report_fails_iff, C95_success_partial, C95_exit_zero, C96_same_settings_partial, C96_sample_counterexample, C98_shows_found, C98_second_counterexample, C99_parse, C99_stable, C107_table, C107_shipped, C117_density_partial, C117_counterexample, C117_density_negative, C120_fit_partial, C120_history, C121_rows, C129_period, C129_period_sound, C133_counterexample, C134_read_partial, C134_ignored, C134_leak, C134_counterexample, C134_unknown, C144_eq, C144_words, C145_table_partial, C146_accept_partial, C146_subclass_counterexample, C147_points_partial, C147_diagonal, C147_values_counterexample, C153_names_partial, C157_sampled, C157_whole, C157_batch, C158_reward_counterexample, C158_fails_iff, C161_better_partial, C162_supplement, C162_supplement_all, C163_unchanged, C163_expanded, C165_build, C165_consumed, C165_regular_partial, C165_failed_setup, C165_length, C170_offered, C170_nodup, C170_active, C170_selected, C171_figure, C171_message, C31_float, C177_first_discards, C181_axes, C181_grid, C195_figure, C195_short, C196_curves_partial, C196_history, C199_printed_partial, C200_loss, C206_own, C207_history, C207_reward, C207_history_demo, C207_terms, C207_terms_demo, C207_axes, C207_stacked_counterexample, C207_nan_counterexample, C209_clean, C209_determined, C209_load_partial, C209_source_kept, C211_position, C211_cut, C211_repeat_partial, C211_previous_counterexample, C211_observation, C211_parent, C211_ancestor_terminal_counterexample

* **`Classical.choice`, `Quot.sound`, `propext`** (847): C01_finish_wellformed, C01_finish_complete_unchanged, C01_finish_multi, C04_parent_sibling, C04_at_once, C05_ancestors_exact, C05_ancestors_partial, C06_relational, C06_descendant_unary, C06_descendant_partial, C06_program_with_length, C06_filler_counterexample, C06_descendant_counterexample, C07_no_nested_trig, C08_max_length, C08_min_length, C08_never_stuck, C08_max2_counterexample, C08_stuck_counterexample, C09_repeat, C09_max0_counterexample, C10_mentions_state, C10_single_token_counterexample, C11_no_inverse_pair, C12_relational, C12_trig, C12_trig_tree, C12_repeat_mask, C12_noInputs, C12_inverse, C12_descendant_partial, C13_recorded_partial, C13_network_input, C13_priors, C13_dangling_counterexample, C41_prior_at_once, C42_replay, C02_rebuild_preorder, C02_rebuild_fails_iff, C02_traversal_determines_tree, C02_walk, C03_value_iff, C03_derivative_axis, C03_numpy_never_raises, C18_sub_sub_counterexample, C18_sub_add_counterexample, C18_signs, C44_pad_finish, C45_mutate_term, C45_cross_over, C14_bookkeeping, C14_keeps_best_partial, C14_reading_partial, C14_rescored_counterexample, C14_rm_same_counterexample, C14_rm_same_refuses, C14_rm_same_replaces, C14_rm_same_otherwise, C15_recent, C15_recent_unbounded, C16_same_object_partial, C16_counts_partial, C46_lookup_partial, C17_best_is_max, C17_monotone, C17_best_expression, C17_raises_iff, C17_raises_counterexample, C17_first_best, C19_wellformed, C19_partition, built_tables_ok, C20_wellformed_partial, C20_keeps_shape_partial, built_tables_xden, C20_x_field_counterexample, C20_operator_pick_exists, C20_leaf_pick_exists, C20_hang_counterexample, C23_roundtrip, C23_parse_sound_partial, C23_roundtrip_single, C23_unknown_axes_counterexample, C24_refused, C24_total, C24_chain_counterexample, C29_tables_partial, C29_no_derivative_partial, C29_terms, C29_param_counterexample, C29_primary_axis, C29_primary_refused, C29_first_axis, C29_clash, C29_operators, C48_unique_reading, C48_ambiguous_rejected, C49_names_distinct, C49_data, C47_value, C21_aligned, C21_idempotent, C22_elitist, C22_never_raises, C22_start, C22_best, C22_usable, C28_first, C28_second, C28_linear, C36_extract_partial, C36_latex, C36_shown, C36_concise, C36_nan_counterexample, C37_delta, C37_interior, C40_inferred_partial, C40_explicit_counterexample, C50_text_determines_term, C50_text_determines_candidate, C50_search_terms, C50_search_candidates, C51_leaf_letters, C51_leaf_injective, C51_leibniz_partial, C51_subscript_partial, exCtx_readable, C51_derivative_counterexample, C51_power_counterexample, C52_lhs_partial, C52_label, C52_other_target_counterexample, C25_accepted_iff, C25_consistent, C25_agree_partial, C25_complex_counterexample, C26_range_partial, constructed_xt, C26_axis_order_counterexample, C27_random_partial, C27_ratio, C27_uniform_partial, C27_rejected, C27_float, C27_axis_order_counterexample, C27_uniform_repeats_counterexample, C53_datapoint_partial, C53_axis_order_counterexample, C53_axis_order_error_counterexample, C54_mesh_aligned, C54_boundaries, C54_xy_counterexample, C54_boundaries_nd, C55_index_derivative_partial, C55_index_derivative_t_partial, C55_unit_spacing_partial, C55_spacing_counterexample, C56_orientation_partial, C32_get, C32_set, C32_roundtrip_partial, C32_unknown, C32_unknown_raises, C32_shipped_wellformed, C32_underscore_counterexample, C32_shipped_counterexample, C33_answer_unique, C33_lazy, C33_unregister_partial, C33_shipped, C57_dispatch, C58_style_restored_partial, C58_backend_counterexample, C34_legal_partial, C34_generations_counterexample, C34_base_odd_counterexample, C35_monotone_partial, C59_result_belongs, C59_residual, C60_text, C60_terms, C60_latex_factors, C60_latex_text, C60_latex_sorted, C60_unknown_counterexample, C60_latex_constant, C61_aligned, C61_split, C61_checkpoint_partial, C62_dataset_counterexample, C38_pareto, C38_distinct, C38_represented, C63_sound, C63_represented_partial, C63_loses_other, C63_not_shortest, C63_not_transitive, C64_complete, C64_exact, C64_unweighted, C65_network_input_partial, C65_input_iff_partial, C66_no_bad_value, C66_value_iff, C67_right_operand, C67_left_operand, C67_left_strict, C67_below_sums, C67_below_nonlinear, C67_laplace, C68_pruned_counterexample, C68_initial_counterexample, C69_mutation, C70_columns, C70_valid_iff, C70_best, C70_sizes_partial, C70_weak_form_partial, C70_constant_counterexample, C70_weak_form_counterexample, C70_weak_form_error_counterexample, C70_weak_form_error, C70_reasons, C71_accepted_iff, C71_state_partial, C71_spatial, C71_spatial_placeholder, C71_mul_counterexample, C71_diff_counterexample, C72_range, C72_monotone, C72_valid_beats_invalid_partial, C72_units, C72_success, C72_metrics, C72_correlation, C72_many_terms_counterexample, C74_term, C74_expression_partial, C74_invalid_counterexample, C75_sympy, C75_coefficient, C75_dlga, C75_discover_partial, C75_constant_counterexample, C75_refused, C75_unit, C75_sign, C76_first_1d, C76_second_1d, C76_third_1d, C76_fourth_1d_partial, C76_fourth_counterexample, C76_first_3d, C76_second_3d, C76_first_2d_partial, C76_second_2d_partial, C76_first_2d_interior, C76_periodic_counterexample, C76_coordinate_counterexample, C76_coordinate_1d, C76_uneven_counterexample, C77_values_nd, C77_derivative_nd, C77_storage_order, C77_legacy, constructed_nd, C78_accepted_nd_partial, C78_accepted_legacy, C78_tolerance_counterexample, C78_sparse_nonfinite_counterexample, C79_measured_nd_partial, C79_colloc_nd, C79_star_nd, C79_measured_legacy, C79_star_legacy, C79_colloc_legacy, C79_one_point, C79_cut_params_counterexample, firstDraws_valid, C80_board_partial, C80_best_partial, C80_size_counterexample, C80_nan_counterexample, C81_first, C81_shown, C81_idempotent, C81_nothing_lost_partial, firsts_spec, C82_meaning_partial, C82_sampled_defined, C82_nested_counterexample, C82_square_counterexample, C83_columns, C83_entries, C83_reward_partial, C83_at_most_one, C83_forbidden, C83_unmentioned, C83_nan_counterexample, C83_unmentioned_all, C83_plain_demo, C83_infinite, C83_merged, C84_sentence_partial, C84_evaluated_partial, C84_mask_shrinks, C84_nan_masked, C84_all_masked_counterexample, C84_known_word, C85_accepted_iff, C85_wellformed, C85_path_partial, C86_no_trace_partial, C86_function_set, C86_network, C86_raw_fit_counterexample, C86_out_path_counterexample, C86_refused, C87_carried_partial, C87_best_of_all, C91_stale_counterexample, C92_range, C92_choice, C92_one_iff, C92_monotone, C92_parsimony, C92_units_partial, C92_long_counterexample, C92_small_targets_counterexample, C93_named_partial, C93_named_shipped_partial, C93_flux_counterexample, C93_swapped_counterexample, C94_roundtrip_partial, C94_exact_partial, operators_readable, C94_constants_named, C94_small_counterexample, C94_mixed_counterexample, C94_hard_counterexample, C95_complete, C95_torn_counterexample, C95_stale_counterexample, C95_demoted_counterexample, C98_status, C98_polling_partial, C98_text, C100_files_partial, C100_mat_partial, C100_single_partial, C100_reshape, C100_refused, C100_square_counterexample, C101_grid, C102_names, C102_unknown, C102_shipped_arrays_partial, C102_none_counterexample, C103_same_partial, C103_turned_counterexample, C104_epi_partial, C104_ignored, C104_rejected, C104_uneven_counterexample, C105_other_partial, C105_own, C105_shared_counterexample, C106_mat_partial, C106_npy, C106_refused, C106_turned_counterexample, C107_offered, C108_layout, C108_refused, C108_valid, C108_operators, C108_max_counterexample, C109_distinct_partial, C109_text, C109_names_counterexample, C109_comma_counterexample, C110_same_shape, C110_protected, C110_values, C110_torch_values_partial, C110_real_values, C110_real_bounds, C110_sigmoid_counterexample, C110_sign_counterexample, C111_torch, C111_torch_library, C111_switch_partial, C111_switch_counterexample, C112_residual, C112_parity, C112_parity_example, C112_field, C113_small, C113_slice, C113_empty, C113_example, C114_sga, C114_dlga_partial, C114_label_counterexample, C115_field, C115_no_lhs, C115_parity_partial, C115_residual_counterexample, C115_example, C116_parity, C116_terms_partial, C116_example, C116_counterexample, C116_constant, C116_warning, C117_best, C117_monotone, C117_density_auto, C118_laplacian_line, C118_term, C118_field, C118_second_partial, C118_counterexample, C118_time_counterexample, C118_three, C118_two_counterexample, C118_laplacian, C118_quotient_counterexample, C118_higher, C118_arithmetic, C119_saved, C119_dlga_partial, C119_counterexample, C119_dlga_moved, C120_kwargs, C120_unfitted, C120_parity, C120_parity_given, C120_latex, C120_counterexample, C121_merged, C121_all_samples_partial, C121_scale, C121_counterexample, C122_pretrain_partial, C122_load, C122_counterexample, C123_loss_partial, C123_round, C123_last, C123_unbound_counterexample, C123_counterexample, C123_nan, C124_residual_partial, C124_const_counterexample, C125_points_partial, C125_quantile, C125_outside, C125_remaining, C125_extreme_counterexample, C125_one_counterexample, C126_constant_partial, C126_small_counterexample, C127_vote_partial, C127_error, C127_recovers, C127_reported, C127_nan, C127_duplicate_counterexample, C127_distinct_kept, C127_empty_resample, C128_create_partial, C128_counterexample, C129_cases_partial, C129_failures, C129_counterexample, C130_split, C130_best_partial, C130_counterexample, C131_grid, C131_positions_partial, C131_counterexample, C132_batch, C133_same, C133_number, C133_orders, C133_end_partial, C135_vocabulary, C136_first, C136_second, C136_fourth_partial, C136_short, C136_third_counterexample, C136_counterexample, C137_diff, C137_exact, C137_fourth_partial, C137_fourth_counterexample, C137_int_counterexample, C137_alias_counterexample, C138_history_partial, C138_counterexample, C139_fit_partial, C139_gradients, C139_high, C139_statistics_counterexample, C139_origin_counterexample, C140_axes, C140_plain_partial, C140_values_counterexample, C140_stop_counterexample, C141_setup_partial, C141_source, C141_reuse_counterexample, C142_lhs, C142_space, C142_cubic_partial, C142_edge_counterexample, C142_variables, C142_works_iff, C143_names, C143_data, C143_label, C143_error_partial, C143_error_counterexample, C143_named_counterexample, C144_from_dict, C144_copy, C144_update_partial, C144_atomic_counterexample, C144_keywords_counterexample, C144_method_counterexample, C145_choice, C145_formats, C148_causal, C148_length, C148_padding_counterexample, C149_loss, C150_uniform, C150_after_partial, C150_before_counterexample, C151_exact_partial, C151_error_partial, C151_residual_partial, C151_fit_counterexample, C153_tautology_counterexample, C154_quantile_partial, C154_sum_counterexample, C154_weights, C155_shannon, C155_range, C155_zero, C155_names, C156_r2, C156_l2, C156_scale, C156_eval, C157_stored, C157_sample_total, C157_best, C158_copy_partial, C159_split, C160_value, C160_names, C160_text, C161_fails_iff, C161_record, C162_complete, C162_directions_partial, C163_value, C163_reads_partial, C163_sum_display, C163_sum_counterexample, C163_concrete, C164_distribution, C164_likelihood_partial, C164_finite_iff, C164_padding_counterexample, C164_entropy, C164_sequence_entropy, C164_gradient, C164_loss, C164_concrete, C165_second_build, C165_reimport_counterexample, C165_sparse_counterexample, C165_sparse_fit, C165_history, C166_works_iff, C166_counts_partial, C166_report_partial, C166_names, C166_default_counterexample, C166_report_empty, C168_generators_untouched, C168_reproducible, C168_errors, C168_data, C168_empty, C169_never_counterexample, C169_error_counterexample, C169_eqgpt_partial, C169_with_module_partial, C169_unknown, C170_discover_counterexample, C170_models_partial, C172_where, C172_all_counterexample, C172_unknown, C172_content_partial, C172_type_counterexample, C172_twice_counterexample, C173_text, C174_row_obeys, C174_reported, C174_nothing, C174_total, C174_objects, C174_memory, C174_concrete, C175_exact_fit, C175_exact_reward, C175_recovery, C175_invalid, C175_terms, C176_run, C176_shown, C176_concrete, C177_error, C177_residuals, C177_size, C177_exact_least_partial, C177_discarded, C177_ties_counterexample, C177_concrete, C178_rows, C178_coordinates_partial, C178_library_partial, C178_one_coordinate_counterexample, C178_three_coordinates_counterexample, C178_base, C178_recovers, C178_hypotheses, C179_best, C179_total, C179_run, C179_text, C179_recovers, C179_concrete, C180_report_partial, C180_masked, C180_candidates, C180_shown, topkOf_ok, C180_concrete, C180_trained, C181_figures_partial, C181_equation, C181_order_counterexample, C181_hypotheses, kept_search, C182_equations_partial, C182_network, C182_loss, C182_invalid_counterexample, C182_concrete, C182_hypotheses, C183_comparison_partial, C183_slices, C183_comparison_one, C183_slices_one, C183_grids_counterexample, C183_hypotheses, C184_shown, C184_residual_partial, C184_stale_counterexample, C184_hypotheses, C184_field, C184_field_points, C184_zero_counterexample, C184_bins, C184_bins_counterexample, C184_panels, C184_transposed_counterexample, C184_scatter_counterexample, C185_training_partial, C185_fails_iff, C185_training_fails_iff, C185_name_counterexample, C185_dimension_counterexample, C185_error_counterexample, C185_hypotheses, C185_error, C185_type, C186_sample, C186_box, C186_result, C186_noise_free, C186_concrete, C186_columns, C187_result, C187_returns_partial, C187_runs, C187_recovery, C187_concrete, C187_penalty_counterexample, C188_answer, C188_same, C188_exact_partial, C188_length_counterexample, C188_disabled_counterexample, C189_residual, C189_parity, C189_field, C189_warning, C189_trained, C189_demo, C190_advection_partial, C190_rows, C190_left_counterexample, C190_derivatives_partial, C190_uxx_counterexample, C190_next_step, C190_third_derivatives, C190_third_step, C190_third_rhs, C191_range, C191_monotone, C191_shipped, C191_demo, C191_condition_counterexample, C192_shifted_partial, C192_shift_counterexample, C192_end_counterexample, C192_weights, C192_weights_demo, C193_parity, C193_parity_drawn, C193_relations, C193_major, C193_slices_partial, C193_one_generation_counterexample, C193_slice_counterexample, C193_demo, C193_constant_counterexample, C193_skipped, C193_negative, C194_block, C194_other, C194_whole_iff, C194_small_partial, C194_tensor, C194_never_counterexample, C194_shipped, C194_demo, C195_identity, C195_tree, C195_again, C195_process, C195_arity, C196_fails_iff, C196_entries, C196_final, C196_skipped_counterexample, C196_density, C197_rows, C197_exact, C197_recovers_partial, C197_gauss, C197_never_counterexample, C197_grid, C198_value_partial, C198_local, C198_parameter_counterexample, C198_concrete, C199_accepts, C199_options, C199_adapter_partial, C199_subclass_counterexample, C199_draws, C200_fit, C200_figures_partial, C200_refit_counterexample, C200_failed, C200_network, C201_first_partial, C201_stale, C201_history_counterexample, C201_refused, C201_demo, C202_terms, C202_terms_missing, C202_residuals, C202_residual_sizes, C202_histogram, C202_demo, C203_axes_partial, C203_renamed, C203_unique, C203_function, C203_derivative, C203_parameter_counterexample, C203_axes_counterexample, C204_files_partial, C204_jobs_partial, C204_none, C204_alongside_counterexample, C205_which, C205_curves, C205_rhs, C205_images, C205_places_partial, C205_scale_counterexample, C205_time_counterexample, C205_residual_counterexample, C205_zero, C206_honest_partial, C206_decides, C206_fields_partial, C207_slices_partial, C207_slices_demo, C208_counts, C208_below, C208_once_partial, C208_level, C208_refused, C208_twice_counterexample, C210_stored, C210_again, C210_given_partial, C210_demo, C210_dropped_counterexample, C210_no_table, C210_no_names, C211_length, C211_demo, C211_ancestor, C211_scan_demo, C212_weights, C212_decode, C212_answer_partial, C212_demo, C212_start_counterexample
