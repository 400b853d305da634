# Formal model of DataCanvasIO/YLearn in Lean 4

## Method

Every modelled Python function becomes a total Lean function (`lean/Verif/Model/*`), with exceptions as
values, Python sets as lists or Finsets whose order never matters (or is quantified over), and a comment
citing the file and lines it models. Textbook notions (directed walk, d-connection, interventional
distribution, back-door criterion, cumulative statistics, ...) live in `lean/Verif/Spec/*` and mention no
model function. Property theorems live in `lean/Verif/Props/*`, with a concrete witness of the hypotheses
beside each. Where the code violates a property, the negation is proved on a concrete witness and the
positive theorem is restricted and called `..._partial`.

## Plan per property

| id | what is modelled | how it is proved |
|----|------------------|------------------|
| C01 | causation dict, observed_dag as keyed edge list, nx.ancestors as BFS closure | closure = Relation.TransGen by invariant on the worklist |
| C02 | Kahn's algorithm of nx.topological_sort | invariant: emitted prefix closed under parents; stuck set has a cycle |
| C03 | adjacency matrix scan | the scan emits first orientation of each two-way pair |
| C04 | nx.connected_components | closure = equivalence generated by arcs |
| C05 | every edit operation on the (causation, dag) pair | invariant over op lists; negative witnesses for `new=True` keys, one-way `add_edge`, in-place `add_nodes` |
| C06, C07 | remove_nodes, build_sub_graph, remove_in/outgoing_edges | membership characterisations |
| C08 | explicit_unob_var_dag over String names | acyclicity by lifting walks; clash witness `U0` |
| C09 | nx.d_separated 2.x pruning algorithm | pruned graph = ancestral graph minus out-edges of z; component = active trail |
| C10, C15, C20, C22 | finite discrete Bayesian networks over the explicit DAG | sum-product algebra over an arbitrary field |
| C11-C16 | get_backdoor_set, is_valid_backdoor_set | search over powerset + C09 |
| C17-C19 | path enumeration, has_collider, front-door | induction on paths |
| C21-C23 | id as recursion with lexicographic measure | well-founded recursion, Q-factor algebra |
| C24 | get_iv, is_valid_iv | trek characterisation |
| C25 | powerset via combinations | induction |
| C26-C29 | trim_cycle, matrix2dict, matrix2array | measure = number of edges; DFS closure |
| C30-C34 | uplift cumulators over an ordered field | induction over sorted rows |
| C35-C37 | PermutedLearner with abstract base learners | pair enumeration, schedule permutation |
| C38-C44 | meta learners, DR, DML with abstract base learners | algebra |
| C45 | _partition_estimators | arithmetic |
| C46-C55 | Why helpers, list utilities, encoders | list lemmas |
| C56, C57 | SLearner/TLearner/DoubleML/ApproxBound objects as values that a call returns changed | the encoders kept in the object are followed through fit/estimate histories; counter-histories by evaluation |
| C58 | DoubleML with exact nuisance models | normal equations of the second stage over a field |
| C59-C65 | `Why`: identifiers, treatment choice, causal_effect, whatif, target_outcome, refits | membership characterisations of the role lists; histories of fits |
| C66-C69 | `ApproxBound` fit/estimate with memorising models | a finite population with counterfactual outcomes (`Spec`-style definition in the Props file); bounds by convexity, sharpness by constructing the population |
| C70, C71 | structure graphs and blankets of the Bayesian network | walk characterisations; C71 by C09/C10 |
| C72-C77 | `BNModel`: sampling, `do`, predict/sample/estimate, category codes, collectors | structural equations solved along the topological order; histories of calls; heap model of the in-place tensor update |
| C78 | AUUC/Qini scores | trapezoid/mean algebra |
| C79, C80 | split criteria (CMSE, MSE, honest, GRF) with their incremental updates | invariant `CritInv` over every sequence of calls |
| C81-C83 | depth-first builder and best splitter | refinement of the stack loop to a recursive tree `T` (`build_eq`), then induction on `T` |
| C84-C86 | `CausalTree` | C81 instantiated with the honest/plain criteria |
| C87-C89 | best-first builder and `GrfTree` | invariant `Inv` of the frontier; C83 for the chosen split |
| C90 | offsets of the C++ workspace | arithmetic on offsets; exact bound |
| C91-C93 | `BaseCausalForest` | weights as a sum over leaves; matrix algebra |
| C94 | introsort, heapsort, three-way partition on arrays | loop invariants with fuel shown to suffice; multiset preservation |
| C95 | the drawing loop with cached constant features | refinement of `buildD` to the builder of C81 |
| C96-C98 | `CausalModel.identify/estimate/identify_estimate` as an object | composition of C11-C22 |
| C99-C101 | `PolicyTree`, `PolicyInterpreter` | C81-C83, C87, C88 instantiated with the policy criteria |
| C102-C104 | `NP2SLS` | least squares specified by its normal equations (residuals orthogonal to every affine function of the regressors); the second stage's error is orthogonal to its regressors when instruments are valid, hence exactness on identified contrasts; contrasts by algebra; failing calls by evaluation |
| C107 | `DagNet` (network, penalty, weights), `h_func` of the other classes | series of the matrix exponential; walks and powers of non-negative matrices |
| C108 | `_rho_h_update` and the epoch loop, optimiser = arbitrary function | induction over fuel and epochs |
| C109 | thresholding, `_to_dag` and the answers of the discovery classes; `Dynotears.forward` | C26/C27 for the trimmed matrix; counterexamples |
| C110 | `get_params`, `set_params`, `_make_estimator` on a heap of estimators, recursion limit as fuel | induction on the fuel; the dictionary is the concatenation of the chunks of the names |
| C111 | the exceptions of the same, heap kept on exceptions | exact effect of the call; counterexamples |
| C112 | `DataFrameMapper` (`Model/SkFrame.lean`): features, the columns selected so far, `fit`, `transform`, `fit_transform`, names; transformers are arbitrary state machines | induction over the feature list with the selected labels generalised; refutations by concrete frames |
| C113 | `DataCleaner` (`Model/SkFrame.lean`): rows without label, the three rules and their remembered decisions; cell conversions are arbitrary functions of a column | membership characterisations of each rule, then of their composition; `Consistent` is the invariant of a fitted cleaner |
| C114 | the reporting part of `FeatureImportancesSelectionTransformer.fit` | list indexing; the counterexample runs the model of the preparation |
| C115 | `compute_feature_importances` (a fold over the nodes), normalisation, the forest's mean over its split trees (Model/Importance) | invariant of the fold; both builders give trees in which every other node is a child exactly once (`Proper`), hence the gains telescope; for policy trees each gain is cut total minus best total ≥ 0; concrete trees refute the sign for CausalTree and GrfTree |
| C116 | per-tree ordinal encoding, treat/control codes, sub-samples, trees of Model/Tree, accumulation under a lock (Model/CTForest) | encoding is injective, so explicit arms are the raw arms; defaults are the two smallest values (order of `np.unique`); fold over any permutation = mean; concrete forest for the refutation |
| C117 | `_cal_x_prime`, second stage and `estimate` of `CausalForest` over an arbitrary first stage (Model/CausalForest) | `np.delete` = levels other than the control in order; algebra of residuals summing to 0; composition with C92, C93 |
| C106 | settings of `PolicyTree` | case analysis of the checks; what reaches splitter and builder bounds every node (C82, C83, C87) |
| C105 | `RLoss` | residuals under exact nuisance models, then algebra of mean squares; refutations by evaluation |
| C118 | Model/WhyEffect: individual_causal_effect, discrete (label lookup of pandas, codes) and continuous (numpy broadcasting of DoubleML.estimate) | label lookup lemma for distinct labels, map over rows; broadcasting computed symbolically |
| C119 | Model/WhyEffect: arms of causal_effect for a continuous treatment, self.treat as state, sequences of calls | case analysis on the arms; answer independent of the stored arm; exact outer product otherwise |
| C120 | Model/WhyEffect.summary over the reals | folds for min/max, sums of squares |
| C121 | Model/WhyEffect.costEffect and its call sites | map lemmas, witnesses |
| C122 | effect table of policy_interpreter (Model/WhyPolicy on top of Model/Permuted) | codes of combinations enumerate the product; C37_columns; labels by injectivity of joining |
| C123 | uplift frame and AUUC score (Model/WhyPolicy) | encoding is injective on known values; C78 |
| C124 | choice of the estimator and factory checks | case analysis |
| C125 | effect_nji as a function of shape and row-major data, after squeeze | exact characterisation of the shapes for which every entry sits at its place; refutation for separate treatments |
| C126 | T/X learner with classifiers: classes_, predict_proba, numpy broadcasting of rows | probability of an outcome defined by its position among the classes; equality when both arms have the same outcomes, witnesses otherwise |
| C127 | XLearner._fit_separate_treat over the cartesian product of levels | mapE over arms; AttributeError for discrete outcomes |
| C128 | dictionary of roles handed to CausalGraph (Model/WhyGraph) | membership characterisation against a small spec of expected links; refutations |
| C129 | _identify_ci_with_causal_model on top of matrix2dict, get_iv, identify (Model/WhyGraph) | parents of the closure = ancestors; a set with all outside parents and no effects is admissible (general lemma); C28, C24, C14 machinery |
| C130 | CEInterpreter fit/interpret/predict (Model/CEInterp), tree walk of Model/Tree and Model/Policy | node statistics by equivalence of decision path and reachability in proper trees; induction from leaves to root for calibration; refutation of predict on frames by concrete frames |
| C131 | Dagma/Golem objectives over ℝ: mMatrix, score, hVal, gH, gObj, likelihood (Model/Dagma) | M-matrix theory in Lib/MMatrix (semipositivity, principal minors by induction), Jacobi's formula for the derivatives |
| C132 | Dagma.minimize with backtracking, retry loop and stages of train, self.s as state (Model/Dagma) | fuel bounds from halving lr; after finitely many retries s exceeds the row sums, region lemma; concrete 1×1 run for the history finding |
| C133 | generators of exp_dataset/gen.py with the draws as arguments (Model/Gen) | permutation matrices computed, rank argument for acyclicity, induction over the topological order; (I - W) invertible by the determinant of acyclic matrices |
| C134 | count_accuracy over finite sets of index pairs (Model/Gen) | partition of the reported edges; bijection between reversed edges and vertex pairs |
| C135 | DeepIV.fit: control flow, one-hot encoding, datasets of both training loops, sampled rows, mixture prediction, batches | case analysis of every guard; index arithmetic on flatMap blocks; the first-maximum lemma for argmax |
| C136 | DeepIV.estimate/_prepare4est/effect_nji, mixture density network, loss | list algebra over rationals; exp/log estimates over the reals for the loss |
| C137 | with_pyro_ps, fit/_get_stub/update state of SviBayesianNetwork, process-wide store | induction over histories; noninterference by a two-run invariant |
| C138 | PgmProxy, GCastleProxy, IdentifierWithLearner, _identify_ci_dfs on labelled frames | position/label correspondence, walks by induction; counterexamples evaluated |
| C139 | causal_matrix_ cache of IdentifierWithDiscovery under Why.fit | case analysis of the state machine |
| C140 | `id` (model.py:125-243), diagrams, discrete models, identifiability | every failing call yields a hedge of the original query (invariant over the recursion); two sign-network models separate it; eval determined by P(observed); consequences for back-door, front-door and disjoint arcs |
| C141 | DoubleML fit and estimate with a least-squares final model; partially linear data | Normal equations of the final model against the partially linear model; exact error identity, then Cauchy-type bound with list sums |
| C142 | identify, estimate, TLearner/SLearner/XLearner/DoublyRobust on population data of a discrete causal model | Counting lemmas turn cell means into conditional probabilities; back-door adjustment (C15) turns their average into the interventional mean |
| C143 | PropensityScore and InversePbWeighting: constructor, fit/predict_proba for one row, the score of a row with eps | stratify the sum by adjustment values (sum_by_key), exact bias of one stratum, causal value through the adjustment formula with overlap for the two arms only (Props/EndToEnd) |
| C144 | get_iv (C24) and NP2SLS.fit/estimate (C102) together; structural equations over the explicit diagram, linear (uncorrelated noise) or arbitrary (independent noise, any bases) | variables are determined by the noise of their ancestors (induction along the graph); instrument and the part of the outcome not caused by the treatment share no noise; covariance algebra; OLS exactness |
| C145 | cells of a column through clean_data, fit_transform and transform: types int8..int64, float32/64, object; conversions of Python and numpy as parameters (Model/Cells.lean) | case analysis over the type of the column, induction over its cells; concrete witnesses for what is refuted |
| C146 | Why.score, _score_rloss on top of the RLoss model (Model/WhyScore.lean); fitting and uplift scores as parameters | loop over the treatments as a map, arms by their codes |
| C147 | Why.fit and the discrete causal effects with the default estimator, end to end (Model/WhyFit.lean, Props/WhyFit.lean) | C39, C35, C62 composed over codes; cells of the population are the interventional means (C142) |
| C148 | Golem's likelihood, the default scaling and the training loops of GolemDiscovery and DygolemCausalDiscovery (Model/GolemFit, Model/Dagma) | density of the linear Gaussian SEM by change of variables; profile likelihood by log x <= x - 1; unique true minimiser by the eigenvalues of the Gram matrix and a sink argument; training by induction over epochs |
| C149 | linear structural equations over the explicit diagram (sample covariances), DoubleML.fit/estimate of C58 | linear Markov property by splitting noise into the d-connected part and the rest; back-door cut; Frisch-Waugh normal equations; concrete diagram with latent arc |
| C150 | fit, the effect table, the policy tree and decide of Why.policy_interpreter chained, in every causal model of a diagram | composition of C147 (arms are interventional means), C122 (table), C99 (leaf-wise optimum); value of a policy by summing over the adjustment values; no-covariate failure by computation |
| C151 | the objective, scaling and trained parameters of CausalDiscovery (Model/NoTearsFit) | completing squares for two columns; for d columns reduction to C148_truth on centred data; intervals for the untrained last layer; affine invariance of the scalers |
| C152 | `Linear`, `MLP`, `NiCategorical`, `MiCategorical`, `MiNormal` as functions of weights in the support of their priors (Model/BNNodes) | softmax bounds by convexity over the simplex; exact set of learnable roots; MLP collapses to Linear because ELU is the identity on non-negative inputs; affine functions for numerical nodes |
| C153 | names of Pyro sites as character lists, hand-written and automatic guides, class cache (Model/BNSites) | injectivity of `a__b` for names without a double underscore; permutation of guide and model sites; induction over histories of class requests |
| C154 | `notears_linear` with loss, penalty, gradients, bounds, both loops and threshold (Model/Toy); the threshold step of `CausalDiscovery` (Model/NoTears) | termwise differentiation of trace exp; positive and negative parts; the loop as an instance of C108; minimal closed walks give t^(2k)/(k-1)! as a lower bound of the penalty, circulant matrices as witnesses |
| C155 | the annotations of _export.py (boxes, arrows, words, fill colours) for trees as in C99-C101; rounding abstract | induction over the recursion of _make_tree/recurse for the exact set of annotations; a separate relation for reading a picture; order arguments for colours; the palette by distinctness of 360 hues |
| C156 | the mixture density network over the reals, the log density of torch's mixture, the noise of the sampler, GaussianProb (Model/Mdn.lean) | densities via Mathlib's Gaussian; law of the sampler by Fubini over the component and push-forward of standard normals; product densities by the uniqueness of product measures; moments and marginals from the law |
| C157 | the training loss of DeepIV's outcome network as a function of the network: one draw per row (continuous), mixed prediction (discrete) (Model/DeepIVLoss.lean) | expected loss over independent draws by product measures; quadratic in the multiple, second moments, positivity of the density (C156); discrete: orthogonality of the residual |
| C158 | frames (names, rows as functions), column arguments, state of the object, the cores of S/T/X | case analysis of fit; table of named cells; reduction to C39-C41; concrete witnesses for the refuted parts |
| C159 | explicit dag, ancestors, check_ancestors_chain with fuel, loop over nodes, data frame by columns | ancestor counts decrease; classification of every call; concrete witnesses |
| C160 | NaiveGrf: _build_tree, _split, _traverse, _prediction (Model/NaiveGrf.lean) over an ordered field | threshold cover by midpoints, induction over fuel for leaves, height and totality; weights by comparison with the leaf's uniform weights; witnesses for the refuted parts |
| C161 | the data generators of exp_data.py with random draws as parameters (Model/ExpData.lean) | row-wise structural equations by ring; train/validation as a permutation; one-hot sum by induction; witnesses for the refuted parts |
| C162 | the first stage with a classifier: columns of predict_proba, numpy assignment, consecutive folds (Model/Propensity.lean) | folds as a group function (kfold_groups), loop equals foldl exactly if all folds fit, then C43's fold lemma; sorted data by counting the groups |
| C163 | Why.fit lines 278-285, Why._preprocess, general_preprocessor on the DataFrameMapper model; pandas' assignment of several columns by position (Model/WhyPre) | the fitted groups computed for any frame; columns sorted by type are a permutation; reading the assigned frame by label; concrete exchange |
| C164 | Default arms of all estimators with discrete treatments | Models of the estimators; the encoder of the data gives the smallest value position 0 and the next one position 1, hence filling in the argument changes nothing; several treatments: first two entries of the cartesian product |
| C165 | the factories of _factory.py, general_estimator, register (Model/Factory) | case analysis over factories and arguments; registration by induction; findings as concrete calls for all environments |
| C166 | constructors of all estimators, Python's binding of arguments (Model/Init) | binding proved equal to a relational specification for every signature, by induction; constructors by computation for all values |
| C167 | Tree.apply / Tree.decision_path of _tree.pyx, dense and CSR, with buffers and scratch arrays as bounded arrays (Model/TreeQuery) | walks proved equal to the abstract walk by induction on fuel; buffer contents by induction over rows; tree invariants from C82/C88; stale marks by an invariant over rows |
| C168 | _sample and _split of _plot.py with pandas' qcut in exact arithmetic (Model/UpliftPlot) | integer arithmetic of the positions; permutation invariance and order of the bars for all curves |
| C169 | logging.py: counters per token, stack search | state machine over histories; counter = number of earlier calls with the same outer line, by induction on the history |
| C170 | logging.py: levels, handlers, set_level | the same machine; frame lemma for own levels; table of names |
| C171 | _tic_tok.py: decorator, formatting, report | heap of iterators; induction over arguments; tally of a history by reverse induction |
| C172 | _common.py: set_random_state and its call sites | arbitrary computations over two abstract global streams; histories of user draws and calls |
| C173 | TransformerPipeline and _call_fit: classes of transformers with any fit / fit_transform / transform, a heap of learned states | induction on the steps; invariant: distinct objects keep what they learned; prefix lemma for the parameter names; concrete classes for the two findings |
| C174 | WeightedPQueue, WeightedMedianCalculator and MAE: records as a list, k / total / partial sum as in the code, reads outside of the records are failures | invariant (partial sum, minimal k) preserved by push, remove and pop; the cut gives lower and upper median; optimality of the median for absolute deviations; induction on histories of the criterion |
| C175 | the four algorithms of `_random.pyx` over the list of the generator's answers | induction over the loops; bijection of draws and ordered samples (pool); counting draws per set by induction, the last number in or out (reservoir) |
| C176 | weakest link pruning with its incremental records (`_tree.pyx`) | the smallest cheapest subtree by recursion is invariant under cutting a weakest link of at most alpha; induction over the loop |
| C177 | randomSplit: RandomSplitter.node_split with the drawn features and random numbers as arguments | invariant of the loop over the features (RGood): the criterion is reset to the node, the best record is an admissible drawn cut with its score, and the samples are in its order if it was the last feature; two-pointer partition from TreeSplit |
| C178 | walk, partialDependence: Tree.compute_partial_dependence with both stacks and their capacity | invariant of the stack: the output still to come is the sum over the stack of weight times the recursive average; the nodes below the stack bound both the steps and its length |
| C179 | gini, entropy, updateCounts, the default proxy and improvement, as a Criterion of Model/Tree | double sums by induction over the samples; concavity (squares for Gini, Mathlib's concaveOn_negMulLog for the entropy); soundness of the update as in C79 |
| C180 | momentsOf, mse, mseChildren, mseProxy, FriedmanMSE, as Criterion of Model/Tree | sums by induction over the samples; the improvement times its constants is the proxy less a constant of the node |

## Trusted base

* **Lean 4.33.0's kernel.** No `sorry`, no `native_decide`/`bv_decide`, no axioms of our own.
* **Axioms.** Every theorem named in MANIFEST.json depends on a subset of `propext`, `Classical.choice`, `Quot.sound`
  (the gate prints them per theorem). `decide +kernel` is kernel evaluation and adds no axiom.
* **Mathlib** (imported module by module) for lists, finsets, fields, orders, matrices and tactics; it is checked by the
  same kernel.
* **Fidelity of the model.** The code is never run. Each model definition cites the lines it models; the following is
  *assumed*, not proved.

### What is idealised everywhere

* Floating point numbers are elements of an (ordered) field, so there is no rounding, NaN or infinity. Rounding effects,
  in particular of sums in another order, are outside every claim. Integer counters (`int32`, `SIZE_t`) are unbounded.
* Python sets are lists or finsets; where an iteration order can be observed, the order is a universally quantified
  parameter (`ord`).
* Exceptions are values (`Except`); only the class of the exception is modelled. Memory exhaustion, interrupts, logging,
  progress bars and warnings are left out.
* Random numbers are an arbitrary sequence/draw; theorems hold for every draw (with the documented contract of the draw,
  e.g. "without replacement", as an explicit hypothesis).
* Fitted machine-learning models (`sklearn`, `torch`) are arbitrary deterministic functions of their training data, or are
  restricted by an explicit hypothesis ("memorising", "exact"), each with a witness.

### Libraries whose behaviour is part of the model (read from documentation/knowledge, sources not available)

* networkx 2.x: `ancestors`, `descendants`, `topological_sort`, `connected_components`, `d_separated`,
  `all_simple_paths`, `all_shortest_paths` (non-negative weights), `is_directed_acyclic_graph`, `has_path`, `MultiGraph`
  key handling. Each is modelled as an algorithm, in `Model/Nx.lean`.
* numpy/pandas: `argmax` (first maximum), `searchsorted`, `unique`, fancy indexing, `concatenate`, `linalg.inv` (assumed to
  invert invertible matrices), `lstsq`; `DataFrame.loc/drop/groupby` on the columns involved.
* sklearn: `KFold`/`StratifiedKFold` give a partition of the rows, `train_test_split` an arbitrary partition,
  `OrdinalEncoder`, `LabelEncoder`, `OneHotEncoder` with the documented coding, `clone` a fresh unfitted copy.
* pyro/torch: `condition`, `do`, `plate`, `sample` handlers with the documented semantics; SVI training gives an arbitrary
  parameter table.
* C++/Eigen: `std::push_heap/pop_heap` (assumed to pop a maximal record), `JacobiSVD` solvers (arbitrary functions).

### What is modelled (by module)

| module | code |
|---|---|
| Model/Nx, CausalGraph, Prob, Backdoor, Frontdoor, Id, IV, CausalModel | ylearn/causal_model/{graph,model,prob,utils}.py |
| Model/Discovery | ylearn/causal_discovery/{base,dag}.py: trim_cycle, matrix2dict, matrix2array |
| Model/Uplift | ylearn/uplift |
| Model/Permuted, MetaLearner, DoublyRobust, DoubleML, CrossFit, Bound | ylearn/estimator_model: the estimators of the same names and utils.py |
| Model/Criterion, Tree, Introsort, FeatureDraw, BestFirst, GrfMemory, Forest | ylearn/estimator_model/_tree, _generalized_forest, causal_tree.py and ylearn/sklearn_ex/cloned/tree |
| Model/TwoStage | ylearn/estimator_model/iv.py (`NP2SLS`) |
| Model/RLoss | ylearn/estimator_model/effect_score.py |
| Model/Policy | ylearn/policy, ylearn/effect_interpreter/policy_interpreter.py |
| Model/BN | ylearn/bayesian |
| Model/Why, SkEx, Utils | ylearn/api/_why.py, ylearn/api/_identifier.py, ylearn/sklearn_ex, ylearn/utils |

### What is not modelled

Training loops and network architectures (DeepIV, mixture density networks, NOTEARS/Golem optimisation, the structural
learners wrapping `causallearn`/`gcastle`/`dowhy`), plotting, reports, text output, dask support, file and data set
helpers, `_naive_forest`, pickling and parallel back ends beyond "jobs finish in any order". `setup.py`, the examples and the
notebooks contain no semantics of their own.
