{"id": "C01", "title": "ancestors/descendents are the exact reflexive closure", "statement": "CausalGraph.ancestors(x) (descendents(x)) returns exactly the nodes of x together with every node from which some node of x can be reached (that can be reached from some node of x) along one or more observed edges of any length; latent arcs never contribute.", "quantifier": "every causation dict (cyclic ones included) and every set x of names, whether or not they occur in the graph", "why_tests_cant": "paths of unbounded length in every graph shape; a test enumerates a handful of graphs", "anchors": ["ylearn/causal_model/graph.py: CausalGraph.ancestors, descendents, observed_dag", "ylearn/causal_model/utils.py: ancestors_of_iter, descendents_of_iter"]}
{"id": "C02", "title": "is_dag is exact and topo_order is a topological order", "statement": "is_dag is True exactly when no directed observed walk returns to its start; when it is True topo_order lists every node of the observed graph exactly once with every parent before its child, and when it is False the iteration fails.", "quantifier": "every causation dict", "why_tests_cant": "acyclicity is a statement about all walks of all lengths", "anchors": ["ylearn/causal_model/graph.py: is_dag, topo_order"]}
{"id": "C03", "title": "latent_confounding_arcs reports exactly the declared arcs", "statement": "For an acyclic causation and any list of declared latent arcs between distinct nodes, latent_confounding_arcs lists each declared unordered pair exactly once and nothing else.", "quantifier": "every acyclic causation, every list of declared arcs (repeats and both orientations allowed)", "why_tests_cant": "the report goes through an adjacency matrix and node order; all combinations of arcs, order and coincidence with observed edges are unbounded", "anchors": ["ylearn/causal_model/graph.py: CausalGraph.__init__, latent_confounding_arcs"]}
{"id": "C04", "title": "c_components is the partition into latent-arc connectivity classes", "statement": "c_components yields pairwise disjoint non-empty sets covering the graph's nodes, and two nodes lie in one set exactly when a chain of latent arcs links them.", "quantifier": "every causal graph", "why_tests_cant": "chains of unbounded length", "anchors": ["ylearn/causal_model/graph.py: c_components"]}
{"id": "C05", "title": "causation and dag stay in step under every history of edits", "statement": "After any sequence of successful add_nodes/add_edges_from/add_edge/remove_nodes/remove_edge/remove_edges_from calls the parents stored in causation and the observed edges of dag describe the same relation, and latent arcs added are reported while those removed are not.", "quantifier": "every history of public edit operations from a freshly built graph", "why_tests_cant": "histories of unbounded length", "anchors": ["ylearn/causal_model/graph.py: add_nodes, add_edges_from, add_edge, remove_nodes, remove_edge, remove_edges_from"]}
{"id": "C06", "title": "remove_nodes / build_sub_graph give the induced subgraph", "statement": "build_sub_graph(S) returns the graph on S whose observed edges and latent arcs are exactly those of the original with both ends in S.", "quantifier": "every causal graph and subset S of its nodes", "why_tests_cant": "all graphs, all subsets", "anchors": ["ylearn/causal_model/graph.py: remove_nodes, build_sub_graph"]}
{"id": "C07", "title": "graph surgery removes exactly the requested edges", "statement": "remove_incoming_edges(x) removes exactly the observed edges into x and the latent arcs touching x; remove_outgoing_edges(x) removes exactly the observed edges out of x and keeps every latent arc; new=True gives the result of the in-place call and leaves the original graph unchanged.", "quantifier": "every causal graph without repeated parents and every set x of its nodes", "why_tests_cant": "all graphs and all sets of nodes", "anchors": ["ylearn/causal_model/graph.py: remove_incoming_edges, remove_outgoing_edges, remove_edges_from"]}
{"id": "C08", "title": "the explicit latent graph is a faithful DAG", "statement": "explicit_unob_var_dag of an acyclic graph is acyclic, keeps every observed edge, and adds for each latent arc one fresh parentless node whose children are exactly the two ends.", "quantifier": "every acyclic causal graph with latent arcs", "why_tests_cant": "every graph and every choice of node names", "anchors": ["ylearn/causal_model/graph.py: explicit_unob_var_dag"]}
{"id": "C09", "title": "is_d_separated answers the textbook path criterion", "statement": "is_d_separated(x,y,z) is True exactly when every path between x and y in the DAG with explicit latent variables is blocked by z (some non-collider in z, or a collider with no descendant in z).", "quantifier": "every acyclic graph, all pairwise disjoint node sets x,y,z", "why_tests_cant": "all paths in all graphs", "anchors": ["ylearn/causal_model/graph.py: is_d_separated", "networkx.algorithms.d_separation.d_separated (2.x)"]}
{"id": "C10", "title": "a d-separation verdict implies conditional independence", "statement": "If is_d_separated(x,y,z) is True then x and y are independent given z in every distribution that factorises along the graph.", "quantifier": "every DAG and every discrete Bayesian network on it", "why_tests_cant": "all distributions over all graphs", "anchors": ["ylearn/causal_model/graph.py: is_d_separated"]}
{"id": "C100", "title": "PolicyTree splits where the total effect gains most, and stops only for the documented reasons", "statement": "Every inner node of a fitted PolicyTree is an admissible cut (min_samples_leaf, min_weight_fraction_leaf) with the largest total effect among all admissible cuts along the covariates drawn there, it gains at least min_impurity_decrease; every leaf is a leaf because of a limit, for lack of an admissible cut, or because the best cut gains less than min_impurity_decrease; there are at most max_leaf_nodes leaves.", "quantifier": "all training sets, nonnegative weights, settings, draws and nodes of the tree", "why_tests_cant": "optimality over all cuts at every node of every tree; tests check predictions on one data set", "anchors": ["ylearn/policy/_tree/tree_criterion.pyx:PRegCriteria", "ylearn/sklearn_ex/cloned/tree/_splitter.pyx:BestSplitter.node_split", "ylearn/sklearn_ex/cloned/tree/_tree.pyx:DepthFirstTreeBuilder", "ylearn/policy/policy_model.py:PolicyTree.fit"]}
{"id": "C101", "title": "PolicyInterpreter explanations are correct and sufficient", "statement": "For every row the explanation lists exactly the inner nodes the row passes through, each with the row's own value and a test the row passes; any row passing the same tests gets the same leaf and recommendation; interpret, predict_ind and decide agree, and the reported value is the mean effect of the recommended treatment in the leaf.", "quantifier": "all fitted policy trees with two or more treatments and all rows", "why_tests_cant": "sufficiency of an explanation quantifies over all other rows", "anchors": ["ylearn/effect_interpreter/policy_interpreter.py:PolicyInterpreter.interpret", "ylearn/effect_interpreter/policy_interpreter.py:PolicyInterpreter.decide", "ylearn/sklearn_ex/cloned/tree/_tree.pyx:Tree.decision_path"]}
{"id": "C102", "title": "NP2SLS recovers the structural effect with valid instruments", "statement": "If the outcome is an affine function of the (basis of the) treatment, the adjustments and a disturbance that is uncorrelated with instruments and adjustments - the treatment may depend on the disturbance - and both stages are least squares fits, then for every contrast that the second stage's regressors identify NP2SLS.estimate returns the structural effect in every row; no effect modification by covariates.", "quantifier": "all sample sizes, bases, data, contrasts and query rows", "why_tests_cant": "the equality must hold for every data set and disturbance; tests compare estimates within a tolerance on one simulated data set", "anchors": ["ylearn/estimator_model/iv.py:NP2SLS.fit", "ylearn/estimator_model/iv.py:NP2SLS.estimate"]}
{"id": "C103", "title": "NP2SLS effects are contrasts", "statement": "For every fitted NP2SLS and all values it can be asked about, estimate is zero for equal values, changes sign with the direction and adds up along intermediate values; with an affine second stage the adjustments of the query rows play no role.", "quantifier": "all fitted models, values and query rows", "why_tests_cant": "a statement about every pair of arguments and every second stage model", "anchors": ["ylearn/estimator_model/iv.py:NP2SLS.estimate"]}
{"id": "C104", "title": "Which NP2SLS calls answer", "statement": "NP2SLS.fit accepts exactly the documented combinations of covariates and bases, estimate returns the documented quantities (individual effects, averages, counterfactual predictions) and effect_nji the effects of all treatment combinations against the first.", "quantifier": "all arguments, data and base models", "why_tests_cant": "the failing calls fail for every data set; tests only use the working ones", "anchors": ["ylearn/estimator_model/iv.py:NP2SLS.fit", "ylearn/estimator_model/iv.py:NP2SLS.estimate", "ylearn/estimator_model/iv.py:NP2SLS.effect_nji"]}
{"id": "C105", "title": "RLoss ranks estimators by their distance from the true effect", "statement": "With a first stage that predicts the conditional treatment and outcome exactly, RLoss.score of an estimator is the mean square of the noise minus its effect error times the treatment residual: never negative, zero without noise exactly for estimators that agree with the true effect wherever the treatment residual is not zero, and no worse for an estimator that is nowhere further from the truth.", "quantifier": "all sample sizes, data, effects, noises, propensities and scored estimators", "why_tests_cant": "an identity for all data and all pairs of estimators", "anchors": ["ylearn/estimator_model/effect_score.py:RLoss.fit", "ylearn/estimator_model/effect_score.py:RLoss.score"]}
{"id": "C106", "title": "The settings of PolicyTree mean what is documented", "statement": "PolicyTree.fit accepts exactly the documented settings (with matching lengths of effects, covariates and weights), and in every fitted tree each inner node had at least min_samples_split training rows, both sides of its cut have at least min_samples_leaf rows and min_weight_fraction_leaf of the weight, its covariate is one of the max_features drawn there, and no row needs more than max_depth questions; PolicyInterpreter.decide names the recommended treatment of every row and fails exactly when a recommendation has no name.", "quantifier": "all settings, training sets, weights, draws and query rows", "why_tests_cant": "all combinations of integer and fractional settings with all data sets", "anchors": ["ylearn/policy/policy_model.py:PolicyTree.fit", "ylearn/effect_interpreter/policy_interpreter.py:PolicyInterpreter.decide"]}
{"id": "C107", "title": "The acyclicity penalty and the weights of causal discovery mean what they say", "statement": "For every reconstruction network of CausalDiscovery the penalty h_func() is never negative and is zero exactly if the graph of the reported weights get_W() has no directed cycle; a zero weight from i to j means that the reconstruction of column j does not depend on column i, so a network with penalty zero reconstructs each variable from variables of lower rank only; without hidden layers the weights are the absolute regression coefficients. The penalty of Golem/Dynotears likewise.", "quantifier": "all networks: any number of variables, hidden layers, real weights, any activation function, all rows of data", "why_tests_cant": "A statement about all real weight matrices and the infinite series of the matrix exponential; tests see finitely many floating point matrices.", "anchors": ["ylearn/causal_discovery/_discovery.py DagNet.h_func, DagNet.get_W, DagNet.forward, L.forward, Golem.h_func", "ylearn/causal_discovery/_dydiscovery.py Dynotears.h_func"]}
{"id": "C108", "title": "The training of causal discovery ends for a reason the user can trust", "statement": "For any model, optimiser and data, CausalDiscovery's training loop ends after at most epoch + log10(rho_max) (rounded up) optimiser runs; the penalty it stopped on is that of the weights it leaves; and it stopped because the penalty is within h_tol, or rho_max was reached, or a weight is NaN, or all epochs were used, each of which (after the first) has at least halved the penalty (quartered for DyCausalDiscovery). Every value of rho_max is accepted.", "quantifier": "all optimisers (as arbitrary state transformers), penalties, tolerances, limits and numbers of epochs", "why_tests_cant": "The loop depends on the behaviour of an optimiser; only a proof covers every one.", "anchors": ["ylearn/causal_discovery/_discovery.py CausalDiscovery._rho_h_update, CausalDiscovery.__call__", "ylearn/causal_discovery/_dydiscovery.py DyCausalDiscovery._rho_h_update"]}
{"id": "C109", "title": "Discovery classes return an acyclic graph of the strong links", "statement": "For every learned weight matrix, CausalDiscovery, GolemDiscovery and DagmaDiscovery return an acyclic graph whose edges stand for weights of at least the threshold and point in the stronger direction, and everything above the threshold if that is acyclic; time-series models use the matrix of each lag with the values of that lag.", "quantifier": "all weight matrices, thresholds, numbers of variables and lags", "why_tests_cant": "All matrices, including ties and cycles of any length.", "anchors": ["ylearn/causal_discovery/_discovery.py CausalDiscovery.__call__, GolemDiscovery.__call__, DagmaDiscovery.__call__, DagmaDiscovery._to_dag", "ylearn/causal_discovery/_dydiscovery.py Dynotears.forward"]}
{"id": "C11", "title": "get_backdoor_set adjust='all' lists exactly the admissible sets", "statement": "get_backdoor_set(adjust='all') lists every set, and only sets, that contain no treatment, outcome, or descendant of a treatment and that d-separate treatment from outcome once the treatment's outgoing edges are deleted.", "quantifier": "every acyclic graph, treatments, outcomes", "why_tests_cant": "the search is over all subsets of all graphs", "anchors": ["ylearn/causal_model/model.py: CausalModel.get_backdoor_set", "ylearn/causal_model/utils.py: powerset"]}
{"id": "C110", "title": "Reading and setting parameters", "statement": "get_params() of an estimator returns exactly the parameters reachable through the declared names, at every depth, each once, with its current value; set_params(**get_params()) changes nothing; set_params(path=value) changes exactly the attribute the path means; a call with many names, in any order, changes exactly the attributes they mean; a nested estimator replaced in the same call receives its own nested settings; a forest gives every random_state of its base estimator's copy a draw of its own and leaves the rest.", "quantifier": "every heap of estimators (shared ones included), nesting depth, parameter list, value and draw sequence; names without __ and without a trailing _", "why_tests_cant": "the nesting depth and the sharing of estimators are unbounded; tests look at one nesting", "anchors": ["ylearn/estimator_model/base_models.py:_get_param_names", "ylearn/estimator_model/base_models.py:get_params", "ylearn/estimator_model/base_models.py:set_params", "ylearn/estimator_model/_generalized_forest/_base_forest.py:_make_estimator"]}
{"id": "C111", "title": "Wrong parameters are refused", "statement": "A name that is not a parameter raises ValueError, a nested name for a value without parameters raises AttributeError, and then no setting has been changed; every estimator's parameters can be read.", "quantifier": "every estimator, parameter list and value", "why_tests_cant": "the failing name may stand anywhere in the call, at any depth", "anchors": ["ylearn/estimator_model/base_models.py:get_params", "ylearn/estimator_model/base_models.py:set_params", "ylearn/estimator_model/meta_learner.py:SLearner.__init__", "ylearn/estimator_model/causal_forest.py:CausalForest.__init__"]}
{"id": "C112", "title": "The frame mapper gives each input column to the first feature that asks for it", "statement": "DataFrameMapper.fit_transform(X) and fit(X) followed by transform(X) agree for transformers whose own fit_transform agrees with fit followed by transform; a column goes to the first feature that asks for it and to no other; with default=None every column of the data is in the answer exactly once; output names are the input labels when the number of columns is kept by more than one column.", "quantifier": "every frame with different labels, every list of features (label, list, tuple or callable), every default, every family of transformers", "why_tests_cant": "There are infinitely many feature lists and frames; the agreement between fit_transform and fit;transform is about every one of them", "anchors": ["ylearn/sklearn_ex/_dataframe_mapper.py:DataFrameMapper.fit,transform,fit_transform,_get_names"]}
{"id": "C113", "title": "The data cleaner keeps exactly the columns its switches allow and applies the same choice to new data", "statement": "fit_transform of a new DataCleaner keeps exactly the columns that are not in drop_columns and are reserved or not condemned by an enabled rule (duplicate of an earlier column, id-like, constant), judged on the rows that have a label; transform gives exactly the remembered columns in the remembered order on any data that has them and raises KeyError otherwise; rows without label are dropped from data and label alike; fitting again behaves like fitting anew.", "quantifier": "every frame, every label column with NaN anywhere, every setting of the switches, every later frame", "why_tests_cant": "The rule is about all columns of all frames and about a later frame that is unrelated to the first", "anchors": ["ylearn/sklearn_ex/_data_cleaner.py:DataCleaner.clean_data,fit_transform,transform,append_drop_columns"]}
{"id": "C114", "title": "feature_importances_ of the selection transformer are aligned with feature_names_in_", "statement": "After FeatureImportancesSelectionTransformer.fit, selected_features_ are labels of the prepared data at the selected positions, feature_importances_[i] is the importance of feature_names_in_[i] (0 if the cleaner dropped it), and transform(X) finds the selected columns in X.", "quantifier": "every list of input and prepared labels, every importance vector, every selection", "why_tests_cant": "Alignment must hold for every frame; a test frame whose columns all have one type never reorders", "anchors": ["ylearn/sklearn_ex/_transformer.py:FeatureImportancesSelectionTransformer.fit,transform", "ylearn/sklearn_ex/_transformer.py:general_preprocessor"]}
{"id": "C115", "title": "Feature importances mean what they say", "statement": "compute_feature_importances / feature_importances_: before normalisation the importance of a feature is the weighted impurity taken away by the splits on it per unit of weight at the root, and the importances add up to the root's weighted impurity less that of the leaves; normalised importances sum to 1 when the total is positive. For a PolicyTree with policy_reg they are nonnegative and add up to what the tree's leaf-wise best treatments gain over the best single treatment. A forest averages its split trees and scales to 1. (Refuted: CausalTree and GrfTree importances can be negative and unnormalised; CTCausalForest.feature_importances_ always raises.)", "quantifier": "all trees grown by either builder from any data, weights, features drawn and number of features; all forests", "why_tests_cant": "the sum runs over trees of unbounded size and the identity needs that every node but the root is a child exactly once", "anchors": ["ylearn/sklearn_ex/cloned/tree/_tree.pyx:compute_feature_importances", "ylearn/estimator_model/_generalized_forest/_base_forest.py:feature_importances_", "ylearn/policy/policy_model.py:feature_importances_", "ylearn/estimator_model/causal_tree.py:feature_importance"]}
{"id": "C116", "title": "CTCausalForest averages trees that compare the same arms", "statement": "After CTCausalForest.fit the forest has n_estimators trees (kept ones first), each the CausalTree of its own sub-sample; estimate(data) is the mean of the trees' predictions for each row whatever order the threads run in. With explicit treat/control that occur in every sub-sample every tree compares exactly the rows of these two treatments. (Refuted: without them every tree re-encodes the treatment on its sub-sample and compares the two smallest values it happens to see, so the forest averages different contrasts; a value missing from one sub-sample is a ValueError; estimate() and apply() always raise.)", "quantifier": "all data sets, sub-samples, thread schedules, settings, treatment columns", "why_tests_cant": "depends on the random sub-samples and on thread schedules", "anchors": ["ylearn/estimator_model/causal_tree.py:CTCausalForest", "ylearn/estimator_model/causal_tree.py:_accumulate_prediction", "ylearn/estimator_model/utils.py:get_treat_control", "ylearn/estimator_model/_generalized_forest/_base_forest.py:_fit_with_array"]}
{"id": "C117", "title": "The columns of a CausalForest estimate are contrasts against the control", "statement": "CausalForest with a discrete treatment is fitted to the residuals of all levels but the control (given, or the first), in order, without losing information; for outcomes driven by level effects tau the local regression of every query is solved by tau_k - tau_control. (Refuted: the reported effects are shrunk by 1 - 1/m; with a covariate_transformer estimate(data) skips the transformer, so it contradicts estimate().)", "quantifier": "all data, first-stage predictions, level effects, controls, weights of the training rows", "why_tests_cant": "identities over all data and all levels; tests use one dataset without transformer", "anchors": ["ylearn/estimator_model/causal_forest.py:_cal_x_prime", "ylearn/estimator_model/causal_forest.py:_fit_2nd_stage", "ylearn/estimator_model/causal_forest.py:estimate", "ylearn/estimator_model/double_ml.py:fit"]}
{"id": "C118", "title": "individual_causal_effect answers row by row", "statement": "For discrete treatments individual_causal_effect reports, for every row in order and every treatment, the row's own value, the control and the estimator's effect of moving that row from the control to its value (0 where they are equal), the same number causal_effect reports for that comparison; the default control is the first class. For continuous treatments it reports one number per row, the slope times the distance from the control.", "quantifier": "all estimators, classes, rows, index labels, numbers of treatments, controls", "why_tests_cant": "the answer depends on index labels and on numpy broadcasting; a test with one row or unique labels passes", "anchors": ["api/_why.py:individual_causal_effect", "api/_why.py:_individual_causal_effect_discrete", "api/_why.py:_individual_causal_effect_continuous", "estimator_model/double_ml.py:DoubleML.estimate"]}
{"id": "C119", "title": "causal_effect of a continuous treatment", "statement": "With both arms, causal_effect reports for every row the slope at the row times the difference of the arms; with only treat the control is 0, with only control the treated value is 1, with neither one unit; the answer does not depend on earlier calls; the treatment may be given by name.", "quantifier": "all slopes, rows, arms (numbers and arrays), histories of causal_effect, individual_causal_effect and whatif", "why_tests_cant": "an unbounded history of calls; the state is an attribute of the estimator", "anchors": ["api/_why.py:_causal_effect_continuous", "estimator_model/double_ml.py:DoubleML.estimate", "estimator_model/utils.py:get_tr_ctrl"]}
{"id": "C12", "title": "adjust='minimal' returns a smallest admissible set", "statement": "get_backdoor_set(adjust='minimal') returns one admissible set and no admissible set has fewer elements.", "quantifier": "every acyclic graph, treatments, outcomes", "why_tests_cant": "minimality quantifies over all subsets", "anchors": ["ylearn/causal_model/model.py: CausalModel.get_backdoor_set", "ylearn/causal_model/utils.py: powerset"]}
{"id": "C120", "title": "The summary of causal_effect describes the effects", "statement": "With quantity='ATE' mean, min, max and std are the average, the smallest, the largest and the standard deviation of the row effects: min and max are attained and bound all rows, min <= mean <= max, std >= 0 and std = 0 exactly for constant effects; the mean is linear in the effects; no rows raise ValueError.", "quantifier": "all lists of effects", "why_tests_cant": "all lists of real numbers", "anchors": ["api/_why.py:_causal_effect_discrete", "api/_why.py:_causal_effect_continuous"]}
{"id": "C121", "title": "A cost function is applied to every reported effect", "statement": "With fn_cost every effect reported by causal_effect, individual_causal_effect and whatif is replaced by the cost function of the row and the effect, and nothing else changes.", "quantifier": "all cost functions, rows, treatments, arms", "why_tests_cant": "all cost functions and data", "anchors": ["api/utils.py:cost_effect", "api/_why.py:_map_effect", "api/_why.py:_causal_effect_continuous", "api/_why.py:_whatif_continuous"]}
{"id": "C122", "title": "The effect table behind policy_interpreter", "statement": "With one or two discrete treatments the table has one column per combination of classes, labelled by the combination; the control's column is zero and every other column holds the effects the fitted estimator reports for that combination against the control; without control the first class of every treatment is used; more than two treatments raise ValueError; different combinations have different labels.", "quantifier": "all fitted permuted estimators, class lists, controls and row counts", "why_tests_cant": "all class lists and all models; a test with two numeric classes cannot see shared labels or swapped columns", "anchors": ["api/_why.py:_effect_array", "api/_why.py:policy_interpreter", "estimator_model/_permuted.py:effect_nji"]}
{"id": "C123", "title": "uplift_model and score(scorer='auuc') evaluate exactly the two arms", "statement": "The uplift frame holds exactly the rows whose treatments have the treated or the control values, in order, marked by arm, scored by the effect the estimator reports for these arms; without arms the last class is compared with the first; the AUUC score is the normalised mean of the gain curve of these rows.", "quantifier": "all estimators, class lists, arms and data", "why_tests_cant": "all data sets and all models", "anchors": ["api/_why.py:uplift_model", "api/_why.py:score", "api/_why.py:_score_auuc_qini"]}
{"id": "C124", "title": "The automatically chosen estimator accepts the data", "statement": "With estimator='auto' Why chooses an estimator whose factory accepts the data; a continuous treatment is refused by the factories for discrete treatments; the default number of folds is 1, 3 or 5, never fewer for more data.", "quantifier": "all combinations of covariates, instruments, treatment and outcome types, all data sizes", "why_tests_cant": "the combinations interact; the docs list only some", "anchors": ["api/_why.py:_get_default_estimator", "api/_why.py:_create_estimator", "estimator_model/_factory.py"]}
{"id": "C125", "title": "effect_nji returns one column per treatment with a zero at the control", "statement": "effect_nji of the meta learners, DoubleML and DoublyRobust returns for every row, outcome and treatment the effect of that treatment against the control, in an array of shape (rows, outcomes, treatments), with zero for the control.", "quantifier": "every number of rows, outcomes and treatments and every effect", "why_tests_cant": "all shapes", "anchors": ["ylearn/estimator_model/meta_learner.py: SLearner.effect_nji, TLearner.effect_nji, XLearner.effect_nji", "ylearn/estimator_model/double_ml.py: DoubleML.effect_nji", "ylearn/estimator_model/doubly_robust.py: DoublyRobust.effect_nji"]}
{"id": "C126", "title": "Meta learners with discrete outcomes report differences of probabilities of the same outcome", "statement": "With a classifier as base model (proba_output=True), the effect of TLearner and XLearner on a target outcome is the difference of the probabilities the two arm models give to that outcome; the effects over all outcomes add up to zero.", "quantifier": "all data sets, arms, target outcomes and classifiers", "why_tests_cant": "all classifiers and label sets", "anchors": ["ylearn/estimator_model/meta_learner.py: TLearner.estimate, XLearner.estimate, XLearner._fit_combined_treat"]}
{"id": "C127", "title": "XLearner with separate treatments", "statement": "XLearner fitted with combined_treatment=False gives for every non-control treatment vector the weighted mean of the two second-stage models of that vector against the control.", "quantifier": "all data sets in which every vector of observed values occurs at least twice, all base learners", "why_tests_cant": "all data, all learners", "anchors": ["ylearn/estimator_model/meta_learner.py: XLearner._fit_separate_treat, XLearner._prepare_separate_treat"]}
{"id": "C128", "title": "Why.causal_graph shows the identified roles", "statement": "The graph returned by Why.causal_graph() contains the treatments as causes of the outcome, adjustments and covariates as causes of both and instruments as causes of the treatments, or the discovered graph if causal discovery was used.", "quantifier": "all combinations of roles, with and without discovery", "why_tests_cant": "ranges over all role assignments; no test looks at the direction of the links", "anchors": ["ylearn/api/_why.py: Why.causal_graph", "ylearn/causal_discovery/_base.py: BaseDiscovery.matrix2dict", "ylearn/causal_model/graph.py: CausalGraph"]}
{"id": "C129", "title": "Roles found by discovery are valid for adjustment", "statement": "The covariates Why derives from a discovered graph satisfy the back-door criterion for treatments and outcome in that graph, and instruments of the graph are reported as such.", "quantifier": "all acyclic discovered graphs, treatments and outcomes, all discovery methods", "why_tests_cant": "all graphs", "anchors": ["ylearn/api/_identifier.py: IdentifierWithDiscovery._identify_ci_with_causal_model, _identify_ci_dfs", "ylearn/causal_discovery/_base.py: BaseDiscovery.matrix2dict"]}
{"id": "C13", "title": "get_backdoor_set fails exactly when there is nothing to return", "statement": "get_backdoor_set(adjust in {all, minimal}) raises IdentificationError only if no admissible set exists, and returns an admissible set whenever one exists.", "quantifier": "every acyclic graph, treatments, outcomes", "why_tests_cant": "non-existence over all subsets", "anchors": ["ylearn/causal_model/model.py: CausalModel.get_backdoor_set"]}
{"id": "C130", "title": "The effect interpreter explains every row correctly and its node statistics are those of the rows", "statement": "CEInterpreter.fit requires a fitted estimator with covariates present in the data; node_dict_ then records for every node of the tree the mean and the standard deviation of the estimated effects of exactly the training rows passing through it, so that the root has the average effect, a node's mean is the row-weighted mean of its children's, a prediction is the recorded mean of its leaf and predictions over the training data average to the average effect. interpret reports for every row only tests the row passes, names exactly the inner nodes it passes through, and rows passing the same tests get the same prediction; for a data frame it selects the covariates by name. predict/decide should do the same for a data frame.", "quantifier": "all data frames, estimators, transformers, regression trees grown by a sound tree learner, effects of any dimension, and rows to interpret", "why_tests_cant": "the statements quantify over every tree, every data set and every row; a test can check a few rows of a few trees", "anchors": ["ylearn/effect_interpreter/ce_interpreter.py: CEInterpreter.fit, interpret, predict, decide, _check_features, _transform_data", "ylearn/estimator_model/utils.py: convert2array"]}
{"id": "C131", "title": "What the objectives of Dagma and Golem measure", "statement": "In the region where sI - W*W (entrywise square) has an inverse without negative entries, the DAGMA penalty -log det(sI - W*W) + d log s is never negative and is zero exactly for the weight matrices of graphs without a directed cycle; every acyclic matrix is in the region. The gradients the code computes (G_loss, G_h) are the derivatives of the loss and of that penalty in every direction, the loss is the mean squared error of X ~ XW (not centred), and the direction minimize follows is the derivative of mu(score + lambda|W|) + penalty. The value `_h` returns is 2 d log s minus the penalty: it is largest for acyclic matrices, so the objective whose change stops minimize rewards cycles. The log-determinant of Golem vanishes for acyclic weights; GolemDiscovery ignores equal_variances.", "quantifier": "all numbers of variables and rows, all data, all weight matrices, all directions and all s", "why_tests_cant": "the statements are about real functions on a continuum of matrices (values, signs, derivatives); tests check a few matrices with a tolerance", "anchors": ["ylearn/causal_discovery/_discovery.py: Dagma._score, Dagma._h, Dagma._func, Dagma.minimize, Golem._compute_likelihood, GolemDiscovery.__call__"]}
{"id": "C132", "title": "The training of DagmaDiscovery ends and depends on the object's history", "statement": "minimize ends for every data set, learning rate and number of iterations unless a singular matrix is inverted, and reports failure only if the weights it starts from are outside the region (left unchanged) or s is at most 0.9. Therefore the retry loop of train, which repeats a stage until it succeeds, ends. self.s afterwards is the (padded) list with each entry increased by 0.1 per retry of the stage. Calling the object again on the same data should give the same result, and the arguments of the call should matter: neither holds.", "quantifier": "all data, settings, stage lists, learning rates and starting weights; every number of retries", "why_tests_cant": "an unbounded retry loop around a nonlinear iteration over real matrices", "anchors": ["ylearn/causal_discovery/_discovery.py: Dagma.minimize, Dagma._adam_update, DagmaDiscovery.train, DagmaDiscovery.__call__"]}
{"id": "C133", "title": "The synthetic generators produce DAGs and data that solve their structural equations", "statement": "simulate_dag('ER') never trips its assertion, whatever is drawn, and orients each edge of the drawn graph exactly once; simulate_parameter gives exactly the edges of the graph weights from the chosen ranges; simulate_linear_sem and simulate_nonlinear_sem return data that solve the structural equations with the final columns, for every topological order the graph library may return (for additive noise the data do not depend on the order); population data have the covariance of the model; each row of the time series generator solves x = xB + sum_k lag_k A_k + sum_k z_k. simulate_er_dag makes a DAG: does not hold.", "quantifier": "all sizes, graphs, permutations, weights, noise draws and topological orders", "why_tests_cant": "random generators; a test sees a few seeds and one ordering", "anchors": ["ylearn/exp_dataset/gen.py: simulate_dag, simulate_parameter, simulate_linear_sem, simulate_nonlinear_sem, simulate_er_dag, simulate_linear_sem_with_A"]}
{"id": "C134", "title": "count_accuracy measures what its names say", "statement": "For a true graph without opposite edges and an estimate with entries 0, 1 and -1 (an undirected edge, listed once): every reported edge is right (an undirected one if its ends are joined), reversed or false, fdr is one minus the share of right edges, tpr the share of true edges found, both between 0 and 1; shd is the number of vertex pairs on which the two disagree, an undirected edge agreeing with either direction; for 0/1 estimates this is the structural Hamming distance (number of vertex pairs joined differently), hence a metric: zero exactly for equal graphs, symmetric, triangle inequality. fpr is a rate between 0 and 1: does not hold.", "quantifier": "all graphs of all sizes", "why_tests_cant": "metric axioms quantify over all pairs and triples of graphs", "anchors": ["ylearn/exp_dataset/gen.py: count_accuracy"]}
{"id": "C135", "title": "DeepIV.fit trains its two networks on the right rows", "statement": "fit succeeds exactly for the calls listed (an instrument and an adjustment, no user-supplied outcome network, hidden sizes as lists of at most three, configurations for both networks or none, at least one draw for a continuous treatment, no discrete instrument with sampled continuous treatment); the treatment network sees every row once with its own instrument, adjustment and treatment; the outcome network sees every row once, with the treatment drawn (or its probabilities) given the row's own instrument and adjustment; the prediction compared with the outcome is the mean over the treatment probabilities of the same row; each epoch's batches are the rows in order, each once. Every reasonable call works, sample_n multiplies the samples, all discrete treatment columns are used: do not hold.", "quantifier": "all data, network classes, configurations, batch sizes and numbers of draws", "why_tests_cant": "neural training is random and slow; tests run one configuration and cannot see which rows the loops used", "anchors": ["ylearn/estimator_model/deepiv.py: DeepIV.fit, _gen_x_model, _gen_y_model, MDNWrapper._sample, NetWrapper.fit", "ylearn/estimator_model/_nn.py: BatchData", "ylearn/estimator_model/utils.py: shapes"]}
{"id": "C136", "title": "DeepIV.estimate returns the average effect", "statement": "For a discrete treatment and continuous outcome: the mean over the rows of the predicted outcome under category `treat` minus that under category 0, if there are more rows than `treat`; the mixture density network is a mixture (positive weights summing to one, bounded positive scales, positive density); before fit every estimate is refused. For a continuous treatment, with `control`, for quantity CATE, for marginal effects, for discrete outcomes, for effect_nji, for frames with mixed dtypes and for the training loss, the documented behaviour does not hold.", "quantifier": "all fitted networks, data, treat and control values, quantities", "why_tests_cant": "an estimate has no ground truth to compare with", "anchors": ["ylearn/estimator_model/deepiv.py: DeepIV.estimate, _prepare4est, effect_nji, MDNWrapper.loss_fn, MixtureDensityNetwork.forward, NetWrapper.predict", "ylearn/estimator_model/_factory.py: DeepIVWrapper._f64to32"]}
{"id": "C137", "title": "Bayesian networks do not disturb each other through Pyro's global parameter store", "statement": "With the default resume_param_state, after any sequence of fit/predict/sample calls on any networks, including calls that raise, Pyro's global store is what it was before; a method runs with exactly the parameters its own network learned (or with an empty store); a method that needs a fitted network refuses otherwise and changes nothing; a failing call leaves every network as it was; and the answers and states of a group of networks are those of the history with all other networks' calls removed, whatever the global store contains. Refuted: a second fit starts from the parameters of the first one, and without resume_param_state networks share the store.", "quantifier": "all histories of calls on all networks, all method bodies (arbitrary functions on the store), all contents of the store", "why_tests_cant": "histories of calls on several objects sharing global state; failures at any point", "anchors": ["ylearn/bayesian/_network.py: with_pyro_ps, _with_params, SviBayesianNetwork"]}
{"id": "C138", "title": "Discovery proxies and identifiers relay the learner's graph", "statement": "For a labelled matrix with the same labels on both axes the dictionary lists for every variable exactly its causes (transitively); the pgmpy proxy returns a row and a column for every data column, with nonzero entries exactly at the learned edges, refuses a learner that invents variables, and its dictionary lists the causes in the learned graph; for arrays the order is that of the array's columns; the gCastle proxy and a user's learner returning an array keep positions; other shapes and types are refused. Refuted: for frames the pgmpy proxy may reorder the columns; a threshold is an error in one proxy and ignored otherwise; a user's learner returning a frame with differently ordered rows is accepted and read partly by labels, partly by positions.", "quantifier": "all data columns, all learned graphs, all matrices, all thresholds", "why_tests_cant": "must hold for every learned graph and column order", "anchors": ["ylearn/causal_discovery/_proxy_pgm.py: PgmProxy.__call__", "ylearn/causal_discovery/_proxy_gcastle.py: GCastleProxy.__call__", "ylearn/api/_identifier.py: IdentifierWithLearner._discovery_causation, IdentifierWithDiscovery._identify_ci_dfs", "ylearn/causal_discovery/_base.py: matrix2dict"]}
{"id": "C139", "title": "An identifier answers for the data it is given", "statement": "Why with a named discovery method identifies from the data passed to fit; an identifier object identifies from the data passed whenever the treatment is identified too. Refuted: with a given treatment, an identifier object used before answers from the first data set.", "quantifier": "all discovery functions, all sequences of two fits", "why_tests_cant": "history dependence of a cached attribute", "anchors": ["ylearn/api/_identifier.py: IdentifierWithDiscovery.identify_treatment, identify_aci", "ylearn/api/_why.py: Why.identify, _create_identifier"]}
{"id": "C14", "title": "adjust='simple' returns an admissible set", "statement": "get_backdoor_set(adjust='simple'), the parents of the treatment, satisfies the back-door criterion.", "quantifier": "every acyclic graph", "why_tests_cant": "all graphs", "anchors": ["ylearn/causal_model/model.py: CausalModel.get_backdoor_set"]}
{"id": "C140", "title": "id refuses exactly the effects that are not identifiable", "statement": "If CausalModel.id(y, x) raises IdentificationError, the effect really is not identifiable: two causal models of the same diagram exist that give every observation the same positive probability but have different P(y | do(x)). Consequently id never raises IdentificationError when the effect has a back-door set of observed variables, or when get_frontdoor_set answers; on an identifiable effect it returns an expression in observed variables (or, as a defect, raises ValueError when an outcome loses all its edges in a subgraph). On diagrams in which no variable is on two latent arcs it raises IdentificationError if and only if the effect is not identifiable.", "quantifier": "all acyclic diagrams with declared names and any latent arcs, all disjoint treatment and outcome sets, all discrete models", "why_tests_cant": "Non-identifiability is a statement about all models of a graph; a test can only compare the answer on a graph whose status is already known.", "anchors": ["ylearn/causal_model/model.py:CausalModel.id", "ylearn/causal_model/graph.py:CausalGraph.c_components", "ylearn/causal_model/graph.py:CausalGraph.ancestors"]}
{"id": "C141", "title": "DoubleML's error is the product of its two nuisance errors", "statement": "On data whose noise is orthogonal to functions of treatment and covariates, with a partially linear outcome y = theta(v).x + g(w) + noise and E[x|w] = m(w), DoubleML.fit + estimate with a least-squares final model has an exact error identity: the error of the estimated effect is driven only by products of the treatment model's error with the outcome model's (residual) error. If the treatment model is correct, estimate returns the true effect with any outcome model; with a constant effect the error times the residual treatment variance is bounded by the product of the two error bounds (Neyman orthogonality). A correct outcome model alone is not enough.", "quantifier": "all data sets, all treatment dimensions, all first-stage learners, every least-squares final model, any number of folds", "why_tests_cant": "Orthogonality is a statement about all data sets and all wrong nuisance models; a test can only try one learner on one sample.", "anchors": ["ylearn/estimator_model/double_ml.py:DoubleML.fit", "ylearn/estimator_model/double_ml.py:DoubleML._fit_1st_stage", "ylearn/estimator_model/double_ml.py:DoubleML._fit_2nd_stage", "ylearn/estimator_model/double_ml.py:DoubleML._cal_x_prime", "ylearn/estimator_model/double_ml.py:DoubleML.estimate"]}
{"id": "C142", "title": "identify + estimate returns the causal effect", "statement": "Running CausalModel.identify(T, y, ('backdoor','all' or 'minimal')) and then estimate with an unfitted TLearner, SLearner or XLearner whose base models are exact (predict the mean outcome of the training rows with the same features), on population data of any causal model of the diagram (latent variables included) with overlap, gives an estimator whose average over the rows is E[y|do(t)] - E[y|do(c)] and whose answer for a row is the effect among individuals with the same adjustment values. DoublyRobust has the right average for any outcome model if the propensity is exact.", "quantifier": "all diagrams with latent arcs, all discrete models with overlap, all populations, any number of treatments, any pair of treatment vectors, any column order, all exact base models", "why_tests_cant": "The statement ranges over all causal models and all diagrams; a test compares one estimate with one known effect up to noise.", "anchors": ["ylearn/causal_model/model.py:CausalModel.identify", "ylearn/causal_model/model.py:CausalModel.estimate", "ylearn/causal_model/model.py:CausalModel.get_backdoor_set", "ylearn/estimator_model/meta_learner.py:TLearner", "ylearn/estimator_model/meta_learner.py:SLearner", "ylearn/estimator_model/meta_learner.py:XLearner", "ylearn/estimator_model/doubly_robust.py:DoublyRobust"]}
{"id": "C143", "title": "Inverse probability weighting averages to the causal effect up to eps", "statement": "For a 0/1 treatment, an adjustment set satisfying the back-door criterion and a classifier that returns the exact treatment frequencies, the mean of the numbers InversePbWeighting prepares is the average causal effect up to a constant times the eps it adds; with eps = 0 it is the difference of the arm means averaged over the strata.", "quantifier": "all data sets with a 0/1 treatment, all classifiers with exact propensities, all eps, all causal models of a diagram with overlap and all populations of them", "why_tests_cant": "The claim is about every joint distribution; a test checks one data set.", "anchors": ["ylearn/estimator_model/propensity_score.py:InversePbWeighting._prepare4est", "ylearn/estimator_model/propensity_score.py:PropensityScore.predict_proba", "ylearn/estimator_model/propensity_score.py:PropensityScore.__init__"]}
{"id": "C144", "title": "Instruments from get_iv and two-stage least squares give the causal effect", "statement": "For every causal diagram with latent confounders, every linear causal model of it with uncorrelated noise and every sample of it in which an instrument reported by get_iv is correlated with the treatment, NP2SLS with linear bases fitted on these instruments answers, for every query row and every pair of treatment values, exactly the change of the outcome caused by the intervention. The same holds with arbitrary (non-linear) mechanisms and arbitrary bases when the noise terms of disjoint groups of variables are independent, the covariate basis is constant, the effect of the treatment is the same for every individual and lies in the span of the treatment basis, and the instrument basis can tell the functions of the treatment basis apart.", "quantifier": "all diagrams, treatments and outcomes, all instrument lists taken from get_iv, all linear causal models with latent variables, all samples with uncorrelated noise, all pairs of values; all mechanisms, all treatment and instrument bases of fixed width", "why_tests_cant": "It connects a graph search with a regression; it must hold for every graph and every linear model, and no test can generate all of them.", "anchors": ["ylearn/causal_model/model.py:CausalModel.get_iv", "ylearn/estimator_model/iv.py:NP2SLS.fit", "ylearn/estimator_model/iv.py:NP2SLS.estimate"]}
{"id": "C145", "title": "The data cleaner keeps numbers, and treats later data as it treated the data of the fit", "statement": "fit_transform of a DataCleaner keeps the number, or the missing value, of every row of a numeric column (as far as doubles, or with reduce_mem_usage singles, hold the numbers), turns an object column into numbers exactly if all its texts read as numbers, and otherwise turns all its cells into texts; transform of the same data gives the same cells; a column that was text stays text in later data; a column that was numeric stays numeric, with the same numbers.", "quantifier": "every column of every type, every option, every conversion of texts, every later column", "why_tests_cant": "Loss of numbers depends on values no test data contain, and consistency is about all later frames", "anchors": ["ylearn/sklearn_ex/_data_cleaner.py:_CleanerHelper.reduce_mem_usage,correct_object_dtype,_correct_object_dtype_as", "ylearn/sklearn_ex/_data_cleaner.py:DataCleaner.clean_data,fit_transform,transform"]}
{"id": "C146", "title": "Why.score averages, over the treatments, the score of each treatment's own estimator for the arms named", "statement": "Why.score(test_data, treat, control, target_outcome, scorer) is, for the R-loss, the average over the fitted treatments of the score of that treatment's estimator under a scorer fitted for that treatment, with the codes of the arms named for it; it is never negative; 'auuc' and 'qini' give the score of the uplift model; an unknown scorer is refused; the target outcome is respected.", "quantifier": "every fitted object, every choice of arms, every scorer name, every scorer and estimator", "why_tests_cant": "The average is over arbitrary many treatments and arbitrary scorers", "anchors": ["ylearn/api/_why.py:Why.score,_score_rloss,_create_scorers,_score_auuc_qini", "ylearn/estimator_model/effect_score.py:RLoss.fit"]}
{"id": "C147", "title": "Why answers the causal effect", "statement": "After Why.fit on discrete treatments (no instruments, continuous outcome) with adjustment and covariates that satisfy the back-door criterion for a treatment (or for a pair of treatments), on data whose frequencies are those of a causal model, with exact base models and a preprocessor that keeps different rows apart, every comparison of two different values of the treatment returns for each individual the effect for individuals with the same adjustment values and on average the average causal effect; causal_effect() has exactly one column per treatment and compared value, the smallest value being the default control. fit succeeds if all combinations of observed values of every two treatments occur at least twice, and fails if one of them does not occur.", "quantifier": "every diagram, causal model, population, treatments, adjustment set, values, preprocessing, base model that averages", "why_tests_cant": "the answer is a counterfactual quantity of an unknown model; tests see a few samples", "anchors": ["ylearn/api/_why.py:Why.fit", "ylearn/api/_why.py:Why._map_effect", "ylearn/api/_why.py:Why._causal_effect_discrete", "ylearn/estimator_model/_permuted.py:PermutedLearner", "ylearn/estimator_model/_factory.py:TLearnerFactory"]}
{"id": "C148", "title": "Golem minimises the likelihood of the linear Gaussian model", "statement": "The likelihood term that GolemDiscovery minimises is, up to a constant, the negative log-likelihood of x = xW + noise with Gaussian noise, minimised over the variances; so its minimisers are exactly the maximum likelihood estimates. If the data come from an acyclic W with uncorrelated noise of equal variance, the true W is the unique minimiser among acyclic weights. Not true: that this survives the default scaling (MinMaxScaler turns x->y into y->x, and gives independent variables an edge because it does not centre); that few epochs still see the data (each epoch makes a new Adam, so a weight moves less than lr per epoch and epoch*lr <= threshold gives the empty graph for all data); that DygolemCausalDiscovery(equal_variances=False) uses one variance per variable, or that its return_dict has an effect.", "quantifier": "all sample sizes and numbers of variables, all data, all nonsingular weights, all variances, all gradients and numbers of epochs", "why_tests_cant": "a test evaluates the score at a few matrices; optimality and uniqueness are claims about all matrices of weights and all variances", "anchors": ["ylearn/causal_discovery/_discovery.py:Golem._compute_likelihood", "ylearn/causal_discovery/_discovery.py:GolemDiscovery.__call__", "ylearn/causal_discovery/_discovery.py:GolemDiscovery._update", "ylearn/causal_discovery/_dydiscovery.py:DygolemCausalDiscovery"]}
{"id": "C149", "title": "Back-door adjustment followed by DoubleML returns the causal effect in linear models", "statement": "If the data follow a linear causal model of the diagram (latent variables included, noise terms uncorrelated in the sample) and S is an adjustment set answered by get_backdoor_set for one treatment and one outcome (adjust='all', 'minimal', or 'simple' when no latent arc touches the treatment), then DoubleML fitted with adjustment S, linear regressions and a constant covariate basis answers exactly by how much the outcome of an individual changes when the treatment is set to a instead of a', provided S does not determine the treatment linearly. Leaving S out gives a wrong answer.", "quantifier": "all acyclic diagrams with latent arcs, all coefficients, all sample sizes and samples, all linear outcome models, all treatment values, all orders of set iteration", "why_tests_cant": "a test fits a few simulated samples; the claim ranges over all diagrams, coefficients and samples, and needs the Markov property of d-separation", "anchors": ["ylearn/causal_model/model.py:CausalModel.get_backdoor_set", "ylearn/estimator_model/double_ml.py:DoubleML.fit", "ylearn/estimator_model/double_ml.py:DoubleML.estimate"]}
{"id": "C15", "title": "the back-door expression equals the interventional distribution", "statement": "The expression returned by get_backdoor_set, sum over Z of P(y|x,Z)P(Z), equals P(y | do(x)) in every positive model of the graph.", "quantifier": "every acyclic graph, every discrete structural model with the graph (latents included), all values", "why_tests_cant": "all distributions", "anchors": ["ylearn/causal_model/model.py: CausalModel.get_backdoor_set", "ylearn/causal_model/prob.py"]}
{"id": "C150", "title": "The policy of Why.policy_interpreter is causally the best its tree allows", "statement": "Fit Why on a population with discrete treatments and exact base models and call policy_interpreter on the same data with one or two treatments for which adjustment and covariates satisfy the back-door criterion (all combinations of classes overlapping with them), any known control or none, any documented tree settings, and a preprocessor that leaves the columns in their original order (all numeric, or all categorical). It returns, and decide answers for every row the label of a combination of treatment values such that, in every causal model of the diagram: on the individuals of the row's leaf no other combination has a larger total mean outcome under the intervention; no policy that treats the individuals of a leaf alike has a larger causal value (the average over the covariates of the mean outcome under do(treatments = policy's answer)); and treating everybody alike is never better. The control only serves as reference: the claim does not depend on it. Default treatments are the first two, more than two raise ValueError. (Refuted: with numeric and categorical covariates mixed so that the preprocessor reorders them, decide reads other values than the tree was grown on and the advice can be the worst one; and a fitted object with adjustment variables but no covariates raises AttributeError in policy_interpreter.)", "quantifier": "all causal models of the diagram, all populations, treatments, class lists, controls, tree settings, preprocessors that keep distinct rows apart and exact base models", "why_tests_cant": "the claim compares the recommended policy with all leaf-wise policies in all causal models; no test data set can show the causal value of a policy", "anchors": ["ylearn/api/_why.py:Why.policy_interpreter", "ylearn/api/_why.py:Why._effect_array", "ylearn/api/_wrapper.py:WrappedPolicyInterpreter", "ylearn/effect_interpreter/policy_interpreter.py:PolicyInterpreter.fit", "ylearn/policy/policy_model.py:PolicyTree.predict_ind"]}
{"id": "C151", "title": "What CausalDiscovery minimises: units, the direction of an edge, hidden layers", "statement": "With every built-in scaling (True, 'auto' - the default -, 'minmax', 'std', 'standard') the answer of CausalDiscovery does not depend on the units and zero points of the columns; None/False leave the data alone, an object with fit_transform is used, anything else raises ValueError. The objective is squared error plus ridge plus a penalty that vanishes exactly on acyclic networks. Unscaled and without ridge, data from acyclic linear equations with uncorrelated equal-variance noise have the true weights as the only best acyclic solution. For two correlated columns the best edge points from the (scaled) column of smaller variance to that of larger variance, whichever is the cause, with the ridge regression coefficient as strength; 'std' leaves the direction open; the default min-max scaling can reverse the true direction; without scaling the direction depends on the units. With hidden layers only the first layer is trained: the last layer keeps its random initial values, so the reconstruction stays in a fixed interval and data outside it cannot be fitted.", "quantifier": "all tables with at least one row, all numbers of columns (two for the direction), all ridges, rho, alpha, optimisers, thresholds, epochs, initial networks, activation functions with values in [0, 1]", "why_tests_cant": "the claims are about exact minimisers over all networks and about every possible training run; a test sees single runs of an iterative optimiser", "anchors": ["ylearn/causal_discovery/_discovery.py: CausalDiscovery._get_scaler, _squared_loss, _rho_h_update, __call__", "ylearn/causal_discovery/_discovery.py: DagNet, A, L"]}
{"id": "C152", "title": "What a node of a Bayesian network can learn", "statement": "The probabilities of a categorical node are positive with sum one. A categorical node without parents with K classes always gives each class a probability between 1/(e+K-1) and e/(e+K-1), and exactly the distributions with bounded log-ratios can be learned. With parents whose codes sum to S the bounds are 1/(e^S+K-1) and e^S/(e^S+K-1), attained; so if all parents take their first class the node is uniform over its classes, whatever the data. The MLP variant represents nothing more. The effect of a two-valued treatment on a class of an outcome with the treatment as only parent lies between 1/(e+K-1)-1/K and e/(e+K-1)-1/K: an exact copy of the treatment gets an effect below 0.232 instead of 1. Numerical nodes can represent exactly the affine functions of their parents' values.", "quantifier": "all numbers of parents and classes, all weights in the support of their priors (whatever the data and the training), all values of the parents, all depths and widths of the MLP", "why_tests_cant": "the bounds hold for every data set and every training run; a test sees one trained network", "anchors": ["ylearn/bayesian/_modules.py: Linear, MLP, NiCategorical, MiCategorical, MiNormal", "ylearn/bayesian/_network.py: BayesianModel, SviBayesianNetwork._fit"]}
{"id": "C153", "title": "Sites, guides and node classes of a Bayesian network", "statement": "The hand-written guide samples exactly the latent sites of the model, each as often as the model does. If node names differ and contain no two underscores in a row, all sites have different names, and the two automatic guides divide the latent sites among them, each in exactly one. If no name contains an underscore, weights of categorical nodes are learned as points and those of numerical nodes as normal distributions. The class for Mod[Fn, options] is the one made for the first request with the same class names.", "quantifier": "all graphs, all node names, all mixtures of categorical and numerical nodes with or without parents, Linear and MLP with any layers, with or without bias, all sequences of requests for classes", "why_tests_cant": "the claims are about all names and graphs and all histories of the class cache; tests use a handful of names without underscores", "anchors": ["ylearn/bayesian/_modules.py: N, Linear, MLP, _MiModuleMeta, NiCategorical, NiNormal, MiCategorical, MiNormal", "ylearn/bayesian/_network.py: BayesianModel.model, node_functions, guide; SviBayesianNetwork._fit"]}
{"id": "C154", "title": "NOTEARS: gradients, doubled variables, and when a threshold leaves no cycle", "statement": "In notears_linear the gradient passed to the optimiser is the derivative of the objective, for all three losses, including the matrix-exponential penalty. The doubled variables within their bounds represent exactly the problem 'loss + penalties + lambda1 times sum of absolute weights' over matrices without self-loops. For every optimiser the search ends; the result is a solution of the optimiser cut at the threshold, and the search ended because the penalty is within the tolerance, the limit rho_max was reached, or after max_iter iterations each dividing the penalty by four. If the penalty is at most tol and tol < t^(2k)/(k-1)! for every k up to the number of variables, the weights of at least t in absolute value have no directed cycle; CausalDiscovery then returns exactly the weights that reach the threshold. With the default settings (1e-8, 0.3) this holds for up to five variables.", "quantifier": "all data, losses, penalties, weights and directions; all optimisers; all numbers of variables; all tolerances and thresholds", "why_tests_cant": "derivatives, equivalence of optimisation problems and absence of cycles are claims about all real matrices; tests evaluate single runs", "anchors": ["ylearn/causal_discovery/toy.py: notears_linear, _loss, _h, _adj, _func", "ylearn/causal_discovery/_discovery.py: CausalDiscovery.__call__, DagNet.h_func, get_W"]}
{"id": "C155", "title": "Pictures of trees: boxes, yes/no arrows, colours", "statement": "PolicyInterpreter.plot and CEInterpreter.plot draw exactly one kind of box for each node within max_depth, under its parent, with 'yes' beside the arrow to the left child and 'no' beside the arrow to the right one, and '(...)' for each node just below max_depth. Following the arrows of the full picture by the conditions in the boxes leads every row to the leaf the tree assigns to it, and only there. In the tree of effects every node has a colour: blue for a positive mean effect, orange for a negative one, white for zero, more intense the larger the effect; every channel is between 0 and 255. In the tree of a policy a node with one best treatment has the colour of that treatment (different for up to 360 treatments), a node without differences is white; the colour of a leaf agrees with the recommendation.", "quantifier": "all trees whose children come after their parents (all fitted trees), all rows, all max_depth, all node values, all numbers of treatments, every rounding to a nearest integer", "why_tests_cant": "a picture is correct if it is for every tree and every row; tests look at a few pictures at most", "anchors": ["ylearn/effect_interpreter/_export.py: _TreeExporter.get_color, _make_tree, recurse, export; _CateTreeExporter.get_fill_color; _PolicyTreeMPLExporter.get_fill_color, node_replacement_text; _color_brew", "ylearn/effect_interpreter/policy_interpreter.py: plot", "ylearn/effect_interpreter/ce_interpreter.py: plot"]}
{"id": "C156", "title": "The mixture density network is a probability model, and its sampler follows it", "statement": "For every choice of network weights, every number of components and every dimension, with or without a discrete instrument: the mixing coefficients the network returns are positive and sum to one (and are the softmax of the logits), the scales are positive and lie between exp(-stab_bound) and exp(stab_bound); predict_prob is a positive function with integral one, namely the density of the mixture of normals with those weights, means and scales; a draw of the sampler lies in any event with exactly the probability that predict_prob assigns to it; the expected value of a draw is the weighted mean of the component means; the density is bounded by (exp(stab_bound)/sqrt(2 pi))^out_d, so the loss of a batch is bounded below uniformly in the weights; draw t for row i is row t*b+i of what _sample returns; GaussianProb.mixture_density is the density of each coordinate of a draw; the documented variance is the third output.", "quantifier": "all network weights, inputs, component numbers, dimensions, non-negative bounds, events (measurable sets) and batches", "why_tests_cant": "A test evaluates the density at a few points and draws a few samples; normalisation and agreement of the sampler with the density quantify over all measurable events, and the bound over all weights.", "anchors": ["ylearn/estimator_model/deepiv.py: MixtureDensityNetwork.forward, MDNWrapper.mg, loss_fn, predict_log_prob, predict_prob, predict_cdf, _sample", "ylearn/estimator_model/_nn.py: GaussianProb"]}
{"id": "C157", "title": "What the outcome network of DeepIV learns", "statement": "Suppose the instrument is valid (what is left of the outcome after the structural function's mean given instrument and adjustment is unrelated to every function of instrument and adjustment) and the treatment network is exact. Discrete treatment: a network equal to the structural function minimises the training loss of DeepIV.fit; the minimisers are exactly the networks with the same mean in every row, and if the treatment probabilities of the rows determine the treatment values (relevant instrument), every minimiser equals the structural function. Continuous treatment: the same should hold for the expected training loss.", "quantifier": "all treatment networks (weights), all training rows, all structural functions (square integrable), all outcome networks, all multiples and all affine functions", "why_tests_cant": "Training is random and approximate; a test sees one trained network. What training aims at is a statement about all functions the network could become.", "anchors": ["ylearn/estimator_model/deepiv.py: DeepIV.fit, NetWrapper.fit, MDNWrapper._sample"]}
{"id": "C158", "title": "SLearner, TLearner and XLearner use exactly the named columns", "statement": "fit(data, outcome, treatment, adjustment, covariate, treat, control) of the three meta learners trains on exactly the named columns of the frame: row by row the features are the adjustment columns followed by the covariate columns, the arms are the rows whose treatment columns hold the requested values, and the target is the outcome column; estimate(data) evaluates the trained models on the named feature columns of the given frame and needs no other column, and estimate() equals estimate(training data). Missing columns give KeyError, no adjustment and no covariate gives AssertionError. Hence column names and order, further columns, the split between adjustment and covariate, a single name given as string or list, (for T and X) the labels of the arms and, for order-insensitive base models, the order of the rows do not matter. Refuted parts: the outcome itself is accepted as an adjustment variable, and a call of fit that raises KeyError changes later estimates of an already fitted object.", "quantifier": "all frames, column arguments, arms, base models, earlier states of the object", "why_tests_cant": "the claims relate all pairs of frames and all base models, and all states an object may be in when fit raises", "anchors": ["ylearn/estimator_model/meta_learner.py: SLearner.fit, TLearner.fit, XLearner.fit, _prepare4est, estimate", "ylearn/estimator_model/base_models.py: BaseEstModel.fit", "ylearn/estimator_model/utils.py: convert2array, get_wv"]}
{"id": "C159", "title": "estimate_hidden_cofounder either does nothing or raises", "statement": "CausalModel.estimate_hidden_cofounder is meant to estimate hidden confounders step by step. For every acyclic diagram: it returns normally exactly if there is no observed node with a single hidden ancestor that influences none of the node's observed ancestors, and then nothing has changed; otherwise it raises, in every case, at the first such node, after storing at most one residual column in the data, and the graph is never changed. check_ancestors_chain terminates and decides whether the hidden node is an ancestor.", "quantifier": "all diagrams, all data frames, all regression routines, all iteration orders of sets", "why_tests_cant": "the claim is about every graph and every data frame; no test of the routine exists", "anchors": ["ylearn/causal_model/model.py: CausalModel.estimate_hidden_cofounder", "ylearn/causal_model/utils.py: check_ancestors_chain", "ylearn/causal_model/graph.py: explicit_unob_var_dag"]}
{"id": "C16", "title": "is_valid_backdoor_set accepts only admissible sets", "statement": "is_valid_backdoor_set(set_, t, y) is True exactly if set_ satisfies the back-door criterion relative to (t,y).", "quantifier": "every acyclic graph, sets", "why_tests_cant": "all graphs and sets", "anchors": ["ylearn/causal_model/model.py: CausalModel.is_valid_backdoor_set"]}
{"id": "C160", "title": "The pure Python forest: splits, leaves and weights", "statement": "In `NaiveGrf` every node is split at the covariate and threshold that is best among all covariates and all thresholds with rows on both sides; a grown tree's leaves hold the training rows that go the same way, with their number and their mean outcome, within `max_depth`; growing ends with a tree; the weights a tree gives to its training rows for a query are one over the number of rows in the query's leaf for these rows and 0 for the others, so they sum to 1.", "quantifier": "all training data, settings, trees and queries", "why_tests_cant": "A test compares the estimates on a few data sets; that every split is optimal, that growing ends for every data set and that the weights are those of the leaf needs the loop for all inputs.", "anchors": ["ylearn/estimator_model/_naive_forest/_grf_tree.py: _build_tree, _split, _proxy_impurity_improvement, _traverse", "ylearn/estimator_model/_naive_forest/_grf.py: _prediction, _compute_alpha", "ylearn/estimator_model/_naive_forest/utils.py"]}
{"id": "C161", "title": "Generated data sets have the stated effects", "statement": "The data generators return a training and a validation set that together are the generated rows, in each row of which the outcome is the treatment times the effect written in that row, plus a function of the confounders, plus bounded noise; the returned effects are those of the training rows; in the discrete data sets two arms' outcomes for the same row differ by the difference of the given effects; in the coupon data the effects of the coupon are constant.", "quantifier": "all draws of the random generators, sizes, coefficients, shuffles", "why_tests_cant": "A test sees the draws of the fixed seeds; that every row satisfies the structural equation holds for all draws.", "anchors": ["ylearn/exp_dataset/exp_data.py: build_data_frame, single_binary_treatment, single_continuous_treatment, multi_continuous_treatment, meaningless_discrete_dataset_, meaningless_discrete_dataset, coupon_dataset"]}
{"id": "C162", "title": "Propensities of the first stage belong to the arm of their column", "statement": "In DoubleML with a discrete treatment and in DoublyRobust, the first stage gives every row, for every arm, the probability of that arm predicted by a classifier trained without the row's group (cf_fold > 1) or on all rows; it works whenever every arm has rows, and also for a discrete outcome with proba_output=True.", "quantifier": "all data, numbers of arms and folds, classifiers", "why_tests_cant": "A test uses shuffled data where every block contains all arms; the claim is about every order of the rows.", "anchors": ["ylearn/estimator_model/double_ml.py: DoubleML.fit, _cross_fit", "ylearn/estimator_model/doubly_robust.py: DoublyRobust.fit, _cross_fit"]}
{"id": "C163", "title": "Why preprocesses every column under its own name", "statement": "After Why.fit, and in every later call with test data, the column of each adjustment, covariate and instrument variable holds the preprocessed values of that variable; all other columns stay as they are; fit accepts any mixture of text, truth-value and number columns and refuses other types.", "quantifier": "all frames, all lists of columns, all column types, all fitted transformers with one output column per input column", "why_tests_cant": "Which columns exchange their names depends on the types and the order of the columns; a test with numbers only never shows it.", "anchors": ["ylearn/api/_why.py: Why.fit, Why._preprocess, Why.policy_interpreter", "ylearn/sklearn_ex/_transformer.py: general_preprocessor", "ylearn/sklearn_ex/_dataframe_mapper.py: DataFrameMapper", "ylearn/api/_wrapper.py"]}
{"id": "C164", "title": "An omitted arm is the first or second treatment value", "statement": "For every estimator with discrete treatments (SLearner, TLearner, XLearner, also with a discrete outcome, DoublyRobust, DoubleML, ApproxBound) leaving out `control` has the same effect as writing the smallest treatment value of the training data, and leaving out `treat` the same as writing the second smallest one; each argument may be omitted on its own. With several treatments the arms are the same combinations for all estimators.", "quantifier": "all data sets, base models, folds, further arguments, one or several treatments", "why_tests_cant": "The equality of two ways to call must hold for all data and all models plugged in; tests use the default on a few data sets with 0/1 treatments.", "anchors": ["ylearn/estimator_model/utils.py: get_tr_ctrl, cartesian", "ylearn/estimator_model/meta_learner.py: SLearner, TLearner, XLearner", "ylearn/estimator_model/doubly_robust.py: DoublyRobust.fit", "ylearn/estimator_model/double_ml.py: DoubleML.estimate", "ylearn/estimator_model/approximation_bound.py: ApproxBound._prepare4est"]}
{"id": "C165", "title": "The factories build estimators whose models fit the tasks", "statement": "For every estimator factory and every call: a model made from a name classifies iff its target is discrete and regresses otherwise, the estimator is told whether treatment and outcome are discrete, a factory with default arguments accepts exactly the problems its estimator is for, seeds are passed on, a model object is copied, an unknown name is refused, and every registered name denotes one factory.", "quantifier": "all factories, all model arguments (names, objects, none), all tasks, all installed libraries, all seeds, all registrations", "why_tests_cant": "There are twelve factories with free choices of models, tasks and installed libraries; the combinations cannot be enumerated by tests.", "anchors": ["ylearn/estimator_model/_factory.py:BaseEstimatorFactory", "ylearn/estimator_model/_factory.py:register", "ylearn/sklearn_ex/_transformer.py:general_estimator"]}
{"id": "C166", "title": "An estimator keeps the settings it is created with and is not fitted before fit", "statement": "For every estimator class and all constructor arguments: seed, discreteness flags and categories are stored as given (a missing seed is 2022), the estimator counts as not fitted until fit has run, and base models without a seed get the seed of the estimator.", "quantifier": "all estimator classes, all values of the arguments, positional or by name", "why_tests_cant": "The settings are any Python values, and the binding rule must hold for every signature and call.", "anchors": ["ylearn/estimator_model/base_models.py:BaseEstModel.__init__", "ylearn/estimator_model/iv.py:NP2SLS.__init__", "ylearn/estimator_model/double_ml.py:DoubleML.__init__", "ylearn/estimator_model/_generalized_forest/_base_forest.py:BaseCausalForest.__init__", "ylearn/estimator_model/_permuted.py:PermutedLearner.__init__"]}
{"id": "C167", "title": "apply and decision_path of grown trees are exact and memory safe, for dense and sparse data", "statement": "For every tree fit builds (depth-first or best-first) and every data: apply returns the leaf of each row, decision_path returns the indicator matrix of exactly the nodes each row passes through, no read or write leaves its array, every walk ends, and a CSR matrix gives the same result as the dense matrix.", "quantifier": "all training data, criteria, parameters and draws, all query matrices, all contents of uninitialised memory", "why_tests_cant": "The buffer of decision_path is sized by max_depth and the walks use raw pointers; an overflow or a leak between rows of a sparse matrix shows only for some trees and data.", "anchors": ["ylearn/sklearn_ex/cloned/tree/_tree.pyx:Tree.apply", "ylearn/sklearn_ex/cloned/tree/_tree.pyx:Tree.decision_path", "ylearn/estimator_model/causal_tree.py:CausalTree.decision_path", "ylearn/estimator_model/_generalized_forest/tree/_grf_tree.py:GrfTree.apply", "ylearn/policy/policy_model.py:PolicyTree.decision_path"]}
{"id": "C168", "title": "The uplift plots show the curves", "statement": "For every curve: plot_gain and plot_qini draw n_sample points of the curve, evenly spread from the first to the last; plot_cumlift draws the mean lift of successive parts of the population.", "quantifier": "all curves, all n_sample and n_bins", "why_tests_cant": "The positions come from integer rounding of a division of the length; whether a picture can mislead is a statement about all curves.", "anchors": ["ylearn/uplift/_plot.py:_sample", "ylearn/uplift/_plot.py:_split", "ylearn/uplift/_plot.py:plot_cumlift", "ylearn/uplift/_plot.py:plot_gain"]}
{"id": "C169", "title": "Counting log calls print when they should", "statement": "In every history of calls, `log_every_n(level, msg, n)` prints at the 1st, (n+1)st, (2n+1)st … call and `log_first_n(level, msg, n)` at the first n calls, counted per line of the calling code (as the docstrings say), when the level is enabled; the record carries the line of the call.", "quantifier": "all histories of set_level, setLevel, log, named, fatal, log_every_n and log_first_n calls on any loggers from any call stacks, all levels and n", "why_tests_cant": "depends on every history of earlier calls of the process and on the call stacks they were made from", "anchors": ["ylearn/utils/logging.py: log_every_n, log_first_n, _get_next_log_count_per_token, _get_file_and_line, _get_caller"]}
{"id": "C17", "title": "get_backdoor_path lists exactly the back-door paths", "statement": "get_backdoor_path(t,y) lists exactly the simple undirected paths from t to y of more than two nodes whose first edge points into t.", "quantifier": "every causal graph, t, y", "why_tests_cant": "all paths", "anchors": ["ylearn/causal_model/model.py: CausalModel.get_backdoor_path"]}
{"id": "C170", "title": "Log level, streams and call sites", "statement": "In every history a message is printed exactly once if its level is at least the one of the last successful set_level (or of the start), on stdout below WARN and on stderr from WARN on, with the file and line of the call; set_level acts at once on all loggers; a failed set_level changes nothing; the logging methods return normally.", "quantifier": "all histories of logging calls, levels, names and environments", "why_tests_cant": "ranges over all histories and all strings", "anchors": ["ylearn/utils/logging.py: CustomizedLogger, set_level, to_level, _init_log_level, _logger_find_caller"]}
{"id": "C171", "title": "The timing decorator is transparent and its report counts", "statement": "A function decorated with tic_toc / tit returns or raises what the function itself does, with the same effects; decorating twice is decorating once; below the level in force the function itself is returned; the report has for each timed function the number of its calls, the sum of their times and the average.", "quantifier": "all functions, arguments, states, levels and histories of timed calls", "why_tests_cant": "ranges over all functions and argument values and all histories", "anchors": ["ylearn/utils/_tic_tok.py: tic_toc, tit, _tic_toc_decorate, _format_value, report"]}
{"id": "C172", "title": "Seeded calls are reproducible", "statement": "A call with a random_state gives the same result whatever random numbers were drawn before, by the user's code or by other calls: Why.fit, the causal discovery classes, the sampling, prediction, estimation and training methods of a Bayesian network, DeepIV.fit; estimate_raw with a seed gives a treatment compared with itself the effect 0.", "quantifier": "all seeds (integers, RandomState objects, numpy integers, none), all histories of draws and calls, all computations of the call", "why_tests_cant": "ranges over all histories of the process's global random streams", "anchors": ["ylearn/utils/_common.py: set_random_state", "ylearn/api/_why.py: Why.fit", "ylearn/bayesian/_network.py: sample, predict, predict_raw, estimate, estimate_raw", "ylearn/causal_discovery: __call__", "ylearn/estimator_model/deepiv.py: DeepIV.fit"]}
{"id": "C173", "title": "A pipeline of transformers treats new data as it treated the training data", "statement": "TransformerPipeline.fit trains each step on the training data as the earlier steps transform it, transform(Z) sends Z through the same learned steps, fit_transform(X, y) is fit followed by transform(X), and fit parameters named step__param reach exactly that step.", "quantifier": "all pipelines, steps, data, targets, parameters and earlier states of the step objects", "why_tests_cant": "ranges over all classes of steps and all their behaviours, including exceptions", "anchors": ["ylearn/sklearn_ex/_dataframe_mapper.py: _call_fit, TransformerPipeline"]}
{"id": "C174", "title": "The running weighted median is the weighted median, and MAE measures absolute deviations", "statement": "After every history of insertions, removals and resets the median kept for the absolute error criterion is the weighted median of the samples it holds, and no memory outside of the records is read; for every sequence of resets and updates of the split position the impurities of the node and of the two children are the least (weighted) mean absolute deviations of exactly their samples from a constant.", "quantifier": "all histories of push/remove/pop, all values, weights, orders of samples and split positions", "why_tests_cant": "ranges over all histories of an incrementally updated data structure", "anchors": ["ylearn/sklearn_ex/cloned/tree/_utils.pyx: WeightedPQueue, WeightedMedianCalculator", "ylearn/sklearn_ex/cloned/tree/_criterion.pyx: MAE"]}
{"id": "C175", "title": "Sampling without replacement gives distinct numbers, and treats all samples alike", "statement": "For every population size, sample size, method and answers of the random generator: a result has the requested number of distinct numbers of the population, and sizes that cannot be met or an unknown method are refused; the pool and the reservoir method always end; every ordered sample comes from exactly one sequence of answers for the pool method, and every set of the requested size from equally many sequences for the reservoir method; the method asked for is the one that runs.", "quantifier": "all population and sample sizes, methods and sequences of random numbers", "why_tests_cant": "a statement on all sequences of random numbers and on exact frequencies", "anchors": ["ylearn/sklearn_ex/cloned/utils/_random.pyx: sample_without_replacement"]}
{"id": "C176", "title": "Cost complexity pruning finds the cheapest subtree", "statement": "For every grown tree and every ccp_alpha: the pruned tree has the least cost (impurity of the leaves plus ccp_alpha times their number) of all trees that pruning can give, and is contained in every other one that is as cheap; a larger ccp_alpha prunes further; if no split makes the impurity larger, the pruning path ascends from 0 and the full tree to the root alone, each entry being the alpha and the impurity of a subtree that is cheapest for it.", "quantifier": "all trees, weights, impurities and alphas", "why_tests_cant": "a minimum over exponentially many subtrees, reached by a greedy algorithm with incrementally updated records", "anchors": ["ylearn/sklearn_ex/cloned/tree/_tree.pyx: _cost_complexity_prune, _build_pruned_tree_ccp, ccp_pruning_path"]}
{"id": "C177", "title": "The random splitter takes the best of the random cuts it has drawn", "statement": "With splitter='random', each drawn feature that varies is cut once, between its least value and its greatest, and both sides get samples whatever the random number. A node is left unsplit only if none of these cuts is admissible (min_samples_leaf, min_weight_fraction_leaf); otherwise the split is the admissible cut with the best score, and its position, the order of the samples, the impurities and the improvement belong to that cut, whichever feature was drawn last.", "quantifier": "all samples, features drawn, random numbers, parameters and criteria whose update is sound", "why_tests_cant": "the threshold is random and the samples are reordered once for each feature; the result must fit the best feature although the arrays hold the order of the last one", "anchors": ["ylearn/sklearn_ex/cloned/tree/_splitter.pyx: RandomSplitter.node_split", "ylearn/estimator_model/causal_tree.py: CausalTree(splitter='random')"]}
{"id": "C178", "title": "Partial dependence averages the tree over the features that are not given", "statement": "Tree.compute_partial_dependence gives, at each grid point, the prediction of the tree averaged over the features that are not targets, with the training samples of each branch as weights. With all features as targets it is the prediction; with none of them it is the average prediction over the training samples; it never leaves the range of the leaf values, its check of the total weight never fails and its stacks are never too short.", "quantifier": "all trees, targets, grid points and initial outputs", "why_tests_cant": "an explicit stack with weights changed in place, on trees of any shape", "anchors": ["ylearn/sklearn_ex/cloned/tree/_tree.pyx: Tree.compute_partial_dependence"]}
{"id": "C179", "title": "What the classification criteria measure", "statement": "The Gini index of a node is the chance that two samples drawn from it by weight are of different classes (averaged over the outputs). Gini index and entropy are never negative and 0 exactly at the nodes of one class; no split ever makes them worse, so a reported improvement is never negative; and the proxy with which the splitter compares cuts ranks them exactly as the improvement does. Their incrementally updated class weights are those of the two sides.", "quantifier": "all samples, classes, outputs, positive weights and cuts", "why_tests_cant": "a claim on every distribution of classes, and on sums that are updated in place along any sequence of positions", "anchors": ["ylearn/sklearn_ex/cloned/tree/_criterion.pyx: Criterion.proxy_impurity_improvement, Criterion.impurity_improvement, ClassificationCriterion, Gini, Entropy"]}
{"id": "C18", "title": "has_collider reports exactly the paths with a collider", "statement": "has_collider(path) is True exactly if some interior node of the path has both adjacent edges pointing into it.", "quantifier": "every acyclic graph and every path in it with at least three nodes", "why_tests_cant": "all paths of all lengths", "anchors": ["ylearn/causal_model/model.py: CausalModel.has_collider"]}
{"id": "C180", "title": "What the regression criteria measure", "statement": "The mean squared error of a node, and of the two sides of a cut, is the weighted variance of the outcomes in it (averaged over the outcomes), and its value is their weighted mean. No split makes it worse, and the proxy with which the splitter compares cuts ranks them exactly as the improvement does. FriedmanMSE with one outcome reports Friedman's formula (35), which is the improvement of the mean squared error times the weight of the training data.", "quantifier": "all samples, outcomes, positive weights of the two sides and cuts", "why_tests_cant": "identities on sums that are updated in place, with a sum of squares that is only known for the whole node", "anchors": ["ylearn/sklearn_ex/cloned/tree/_criterion.pyx: RegressionCriterion, MSE, FriedmanMSE"]}
{"id": "C19", "title": "is_frontdoor_set checks the front-door criterion", "statement": "is_frontdoor_set(set_,t,y) accepts only sets that intercept all directed paths from t to y, have no unblocked back-door path from t, and whose back-door paths to y are blocked by t; get_frontdoor_set only returns accepted sets, the smallest for 'minimal', and leaves the caller's arguments unchanged.", "quantifier": "every acyclic graph", "why_tests_cant": "all graphs and subsets", "anchors": ["ylearn/causal_model/model.py: CausalModel.is_frontdoor_set, get_frontdoor_set"]}
{"id": "C20", "title": "the front-door expression equals the interventional distribution", "statement": "For a set satisfying the front-door criterion sum_M P(M|x) sum_x' P(y|x',M)P(x') equals P(y|do(x)).", "quantifier": "every positive model of every graph", "why_tests_cant": "all distributions", "anchors": ["ylearn/causal_model/model.py: CausalModel.get_frontdoor_set"]}
{"id": "C21", "title": "id terminates", "statement": "CausalModel.id(y,x) reaches a result or an exception after finitely many recursive calls.", "quantifier": "every acyclic graph all of whose variables are keys of the causation, and all x,y (an undeclared variable makes the recursion endless: recorded as a counterexample)", "why_tests_cant": "recursion depth is unbounded over graphs", "anchors": ["ylearn/causal_model/model.py: CausalModel.id"]}
{"id": "C22", "title": "the expression returned by id equals P(y|do(x))", "statement": "Whenever id(y,x) returns an expression its value equals the interventional distribution in every positive model of the graph.", "quantifier": "every acyclic semi-Markovian graph, all x,y, all models", "why_tests_cant": "all graphs and all distributions", "anchors": ["ylearn/causal_model/model.py: CausalModel.id"]}
{"id": "C23", "title": "without latent arcs every effect is identified", "statement": "If the graph has no latent arcs id never raises IdentificationError and never crashes.", "quantifier": "every acyclic graph without arcs all of whose variables are keys of the causation, all disjoint sets of variables x,y", "why_tests_cant": "all graphs", "anchors": ["ylearn/causal_model/model.py: CausalModel.id"]}
{"id": "C24", "title": "get_iv / is_valid_iv return valid instruments", "statement": "Every variable reported by get_iv or accepted by is_valid_iv is relevant to the treatment and d-separated from the outcome once edges into/out of the treatment are cut (exclusion and unconfoundedness).", "quantifier": "every acyclic graph with arcs, t, y", "why_tests_cant": "all graphs", "anchors": ["ylearn/causal_model/model.py: CausalModel.get_iv, is_valid_iv"]}
{"id": "C25", "title": "powerset enumerates every subset once, smallest first", "statement": "powerset(s) contains each subset of s exactly once, in non-decreasing size, 2^n of them.", "quantifier": "every finite iterable without repeats", "why_tests_cant": "all sizes", "anchors": ["ylearn/causal_model/utils.py: powerset"]}
{"id": "C26", "title": "trim_cycle terminates with an acyclic graph", "statement": "trim_cycle returns after finitely many edge deletions and the result has no directed cycle.", "quantifier": "every weighted matrix without self-loops", "why_tests_cant": "every matrix of every size", "anchors": ["ylearn/causal_discovery/_base.py: BaseDiscovery.trim_cycle"]}
{"id": "C27", "title": "trim_cycle only deletes, and keeps acyclic inputs", "statement": "The result of trim_cycle agrees with the input except for entries set to zero, and an acyclic input comes back unchanged.", "quantifier": "every weighted matrix", "why_tests_cant": "every matrix", "anchors": ["ylearn/causal_discovery/_base.py: BaseDiscovery.trim_cycle"]}
{"id": "C28", "title": "matrix2dict lists exactly the causes of each variable", "statement": "matrix2dict maps each variable to exactly the variables with a directed non-zero path to it, within the requested depth.", "quantifier": "every matrix, every depth", "why_tests_cant": "all matrices, all depths", "anchors": ["ylearn/causal_discovery/_base.py: BaseDiscovery.matrix2dict"]}
{"id": "C29", "title": "matrix2array orients each link by the larger weight", "statement": "matrix2array lists every linked pair once, oriented along the stronger of the two directed weights, with that weight.", "quantifier": "every square matrix", "why_tests_cant": "all matrices", "anchors": ["ylearn/causal_discovery/_base.py: BaseDiscovery.matrix2array"]}
{"id": "C30", "title": "uplift curves are the textbook cumulative statistics", "statement": "get_cumlift, get_gain and get_qini at population k equal the stated statistic of the k highest scored rows (difference of arm means, that times k, y_tr - y_ct*n_tr/n_ct), with zero at k=0.", "quantifier": "every outcome, treatment flag and score column of any length", "why_tests_cant": "all data sets", "anchors": ["ylearn/uplift/_metric.py"]}
{"id": "C31", "title": "the last point of the curves does not depend on the model", "statement": "At k=n gain equals n times the overall difference of means and qini equals the overall qini statistic, whatever the scores; thus all model columns share their final value.", "quantifier": "every data set and every scoring", "why_tests_cant": "all scorings", "anchors": ["ylearn/uplift/_metric.py: get_gain, get_qini"]}
{"id": "C32", "title": "normalised curves end at plus or minus one", "statement": "With normalize=True the last row of gain and qini curves has absolute value one.", "quantifier": "every data set with non-zero final value", "why_tests_cant": "all data", "anchors": ["ylearn/uplift/_metric.py: get_gain, get_qini"]}
{"id": "C33", "title": "the reported top point is the maximiser", "statement": "gain_top_point/qini_top_point return the population at which the curve is maximal, with the score of that row.", "quantifier": "every data set", "why_tests_cant": "all data", "anchors": ["ylearn/uplift/_metric.py"]}
{"id": "C34", "title": "uplift metrics depend on the scores only through their ranking", "statement": "Replacing a score column by any strictly increasing transform leaves every curve and area unchanged.", "quantifier": "every data set without ties and every strictly increasing transform", "why_tests_cant": "all transforms", "anchors": ["ylearn/uplift/_metric.py"]}
{"id": "C35", "title": "PermutedLearner answers every ordered pair consistently", "statement": "After fit with k treatment values effect(treat=a,control=b) is available for every ordered pair, and swapping treat and control negates the estimate.", "quantifier": "every list of treatment values, every pair", "why_tests_cant": "all label sets", "anchors": ["ylearn/estimator_model/_permuted.py"]}
{"id": "C36", "title": "parallel fitting equals sequential fitting", "statement": "The learners stored by a parallel fit are those of a sequential fit in the same positions whatever order the workers finish in.", "quantifier": "every completion order", "why_tests_cant": "all schedules", "anchors": ["ylearn/estimator_model/_permuted.py: PermutedLearner._fit_parallel"]}
{"id": "C37", "title": "effect_nji has a zero column for the control value", "statement": "effect_nji returns one effect per treatment value and that of the control value is zero.", "quantifier": "every treatment list and control", "why_tests_cant": "all", "anchors": ["ylearn/estimator_model/_permuted.py, meta_learner.py"]}
{"id": "C38", "title": "combined treatment encoding is a bijection", "statement": "With combined treatments distinct treatment vectors get distinct codes 0..k-1, and every observed vector has one.", "quantifier": "every list of per-treatment categories", "why_tests_cant": "all category lists", "anchors": ["ylearn/estimator_model/meta_learner.py", "ylearn/estimator_model/utils.py: cartesian"]}
{"id": "C39", "title": "TLearner trains each arm only on its own rows and is antisymmetric", "statement": "TLearner.fit succeeds for arms that each occur in at least two rows; the effect it then estimates depends only on treated and control rows, equals the difference of the two fitted predictors, and swapping arms negates it. An arm with a single row is refused.", "quantifier": "every data set and every base learner", "why_tests_cant": "all data, all learners", "anchors": ["ylearn/estimator_model/meta_learner.py: TLearner"]}
{"id": "C40", "title": "SLearner effect is the difference of predictions at treat and control", "statement": "SLearner.estimate equals f(w,treat)-f(w,control) for the single fitted model; swapping negates it; equal arms give zero.", "quantifier": "every fitted model", "why_tests_cant": "all models", "anchors": ["ylearn/estimator_model/meta_learner.py: SLearner"]}
{"id": "C41", "title": "XLearner estimate lies between its two arm estimates", "statement": "With a propensity weight in [0,1] XLearner.estimate lies between the two second-stage predictions.", "quantifier": "every fitted model", "why_tests_cant": "all", "anchors": ["ylearn/estimator_model/meta_learner.py: XLearner"]}
{"id": "C42", "title": "the doubly robust score is unbiased if either nuisance is right", "statement": "With exact propensities the averaged DoublyRobust pseudo-outcome equals the true mean potential outcome for any outcome model, and with an exact outcome model for any propensities.", "quantifier": "every finite population and nuisance model", "why_tests_cant": "all models", "anchors": ["ylearn/estimator_model/doubly_robust.py"]}
{"id": "C43", "title": "cross fitting never predicts a row with a model trained on it", "statement": "With cf_fold>1 each row's nuisance prediction comes from exactly one model, which was not fitted on that row; all rows are covered.", "quantifier": "every number of rows and folds", "why_tests_cant": "all sizes", "anchors": ["ylearn/estimator_model/double_ml.py: _cross_fit", "ylearn/estimator_model/doubly_robust.py: _cross_fit"]}
{"id": "C44", "title": "DoubleML effects are linear in the treatment contrast", "statement": "DoubleML.estimate for (treat, control) is zero for equal arms, antisymmetric, and additive along chains of arms.", "quantifier": "every fitted model", "why_tests_cant": "all", "anchors": ["ylearn/estimator_model/double_ml.py"]}
{"id": "C45", "title": "forest job partition covers every tree once", "statement": "_partition_estimators splits n trees into contiguous non-overlapping batches covering all of them, sizes differing by at most one.", "quantifier": "all n, n_jobs", "why_tests_cant": "all sizes", "anchors": ["ylearn/estimator_model/utils.py: _partition_estimators"]}
{"id": "C46", "title": "Why never lists a column in two roles", "statement": "The adjustment, covariate and instrument lists produced by identification contain no treatment, no outcome and no column twice.", "quantifier": "every data frame and identifier answer", "why_tests_cant": "all inputs", "anchors": ["ylearn/api/_why.py", "ylearn/api/_identifier.py"]}
{"id": "C47", "title": "safe_treat_control_list returns one value per treatment", "statement": "Treat/control arguments of Why (None, a single value, a list, or for several comparisons a nested list) are either refused with an error or expanded to rows with exactly one value per treatment, keeping the given values and their order.", "quantifier": "every argument", "why_tests_cant": "all", "anchors": ["ylearn/api/utils.py"]}
{"id": "C48", "title": "treat/control selection and encoding are consistent", "statement": "select_by_treat_control keeps exactly the rows equal to treat or to control in all treatment columns; encode_treat_control is inverse to decoding for known values.", "quantifier": "every frame and value", "why_tests_cant": "all", "anchors": ["ylearn/api/utils.py"]}
{"id": "C49", "title": "to_list/join_list normalise arguments", "statement": "to_list is idempotent and join_list(a,b,...) concatenates the non-None arguments without loss or reorder.", "quantifier": "every argument", "why_tests_cant": "all", "anchors": ["ylearn/utils/_common.py"]}
{"id": "C50", "title": "SafeOrdinalEncoder round-trips known values and maps unknown ones to one code", "statement": "inverse_transform(transform(v)) = v for fitted v; unseen v gets code len(categories), which decodes to the default value.", "quantifier": "every category list", "why_tests_cant": "all values", "anchors": ["ylearn/sklearn_ex/_transformer.py"]}
{"id": "C52", "title": "feature selection keeps exactly the requested number of top features", "statement": "_select_feature_by_importance with number=k keeps k features none of which is less important than a dropped one.", "quantifier": "every importance vector", "why_tests_cant": "all vectors", "anchors": ["ylearn/sklearn_ex/_transformer.py"]}
{"id": "C53", "title": "unfitted objects refuse to answer", "statement": "Using an unfitted Why/estimator raises an error rather than answering.", "quantifier": "every call history", "why_tests_cant": "all histories", "anchors": ["ylearn/api/_why.py", "ylearn/utils/_common.py: check_fitted"]}
{"id": "C55", "title": "to_snake_case / to_camel_case are deterministic and idempotent", "statement": "to_snake_case(to_snake_case(s)) = to_snake_case(s).", "quantifier": "every string", "why_tests_cant": "all strings", "anchors": ["ylearn/utils/_common.py"]}
{"id": "C56", "title": "estimate is a pure query", "statement": "Calling estimate on a fitted estimator does not change the answers of later calls: any sequence of calls with the same arguments on the same data returns the same result each time.", "quantifier": "every fitted estimator and every call history", "why_tests_cant": "all histories of calls and all label sets", "anchors": ["ylearn/estimator_model/meta_learner.py: SLearner._prepare_combined_treat", "ylearn/estimator_model/double_ml.py: DoubleML.estimate"]}
{"id": "C57", "title": "fitting again forgets earlier data", "statement": "After a second fit the estimates are those of a new estimator fitted on the second data set only.", "quantifier": "every pair of data sets and every base learner", "why_tests_cant": "all histories of fit calls", "anchors": ["ylearn/estimator_model/meta_learner.py: _comp_transformer of SLearner, TLearner, XLearner"]}
{"id": "C58", "title": "DoubleML is exact on noise-free partially linear data", "statement": "If the outcome is an affine-in-covariates effect of the treatment plus an arbitrary function of the other variables, without noise, the first-stage models return the matching conditional means and the second-stage model fits exactly when an exact fit exists, then estimate returns the true effect between any two arms (or per unit of a continuous treatment) at every covariate vector, whatever the number of folds, provided the residualised design identifies it.", "quantifier": "all data sets, effect functions, nuisance functions, treatment probabilities, numbers of folds, arms and covariate vectors", "why_tests_cant": "a test checks particular data and models approximately; the claim is an identity over all noise-free data sets and models", "anchors": ["ylearn/estimator_model/double_ml.py: DoubleML.fit, _cal_x_prime, _prepare4est, estimate", "ylearn/estimator_model/utils.py: nd_kron"]}
{"id": "C59", "title": "Discovery-based roles follow the discovered graph", "statement": "Given a discovered weight matrix, the covariates chosen by Why are exactly the ancestors of the outcome other than treatments, and the instruments exactly the ancestors of a treatment that are not ancestors of the outcome.", "quantifier": "every weight matrix, outcome and treatment list", "why_tests_cant": "reachability over all graphs", "anchors": ["ylearn/api/_identifier.py: _identify_ci_dfs, _identify_ci_straight_forward"]}
{"id": "C60", "title": "Automatic treatment choice takes the most important columns", "statement": "When the treatment is not given, Why picks treatments in order of decreasing feature importance.", "quantifier": "every importance vector and column order", "why_tests_cant": "all importance vectors", "anchors": ["ylearn/api/_identifier.py: DefaultIdentifier.identify_treatment", "ylearn/sklearn_ex/_transformer.py: FeatureImportancesSelectionTransformer"]}
{"id": "C61", "title": "Chosen treatments have one kind and respect the limit", "statement": "Automatically chosen treatments are all of the same kind (discrete or continuous, the requested one if given), come in candidate order, are as many as possible, and never more than the count limit.", "quantifier": "every list of candidates, kinds and limits", "why_tests_cant": "all candidate lists", "anchors": ["ylearn/api/utils.py: align_task_to_first, select_by_task"]}
{"id": "C62", "title": "causal_effect makes every comparison exactly once", "statement": "For discrete treatments causal_effect compares every class of every treatment (or, combined, every combination of classes) other than the control with the control exactly once; with given treat and control exactly that comparison; an unknown control is refused; the needed estimator exists for every single treatment and every ordered pair.", "quantifier": "all treatments, class lists, treat and control values", "why_tests_cant": "all class lists", "anchors": ["ylearn/api/_why.py: _permute_treat_control_sequential, _permute_treat_control_combined, _get_estimator, fit"]}
{"id": "C63", "title": "whatif is consistent row by row", "statement": "whatif returns for each row, in order, the observed outcome plus the effect of moving that row from the observed to the new treatment value; with new values equal to the observed ones it returns the observed outcomes.", "quantifier": "all test data, new values, estimators and cost functions", "why_tests_cant": "all data sets and groupings", "anchors": ["ylearn/api/_why.py: whatif, _whatif_discrete"]}
{"id": "C64", "title": "target_outcome means the same everywhere", "statement": "The target_outcome argument of causal_effect, individual_causal_effect, uplift_model and policy_interpreter denotes a value of the outcome, and all of them ask the estimator about that class.", "quantifier": "all class lists and target values", "why_tests_cant": "all label sets", "anchors": ["ylearn/api/_why.py: _map_effect, _inverse_transform_outcome"]}
{"id": "C65", "title": "A refitted Why behaves like a new one", "statement": "After fitting the same Why object again, its settings and roles are those a new object with the same constructor arguments gets from the last data; explicit settings never change; a failed fit leaves the previous answers.", "quantifier": "all histories of fits, failing or not", "why_tests_cant": "all histories", "anchors": ["ylearn/api/_why.py: fit, identify"]}
{"id": "C66", "title": "ApproxBound brackets the true effect and cannot be improved", "statement": "With exact propensities and outcome means and a correct range of the outcome, the pair returned by ApproxBound.estimate for no-assump contains the true average effect of every stratum, for non-negative/non-positive likewise under the named assumption, and no narrower interval is valid for the same observations.", "quantifier": "all finite populations with potential outcomes, numbers of treatments and arms, with or without covariates, and all arms", "why_tests_cant": "ranges over all populations and counterfactual outcomes, which no test can observe", "anchors": ["ylearn/estimator_model/approximation_bound.py: ApproxBound.fit, estimate, _prepare4est"]}
{"id": "C67", "title": "The no-assumption interval always contains zero", "statement": "As documented, the interval returned by ApproxBound.estimate with assump=no-assump always contains 0; its width is (2-p_t-p_0)(y_upper-y_lower).", "quantifier": "all data sets, arms, default or given outcome ranges", "why_tests_cant": "all data and models", "anchors": ["ylearn/estimator_model/approximation_bound.py: ApproxBound.estimate"]}
{"id": "C68", "title": "assump=optimal returns valid bounds", "statement": "Under optimal treatment selection ApproxBound.estimate(assump='optimal') returns a lower and an upper bound of the effect.", "quantifier": "all finite populations in which everybody received a best arm", "why_tests_cant": "counterfactual outcomes are unobservable", "anchors": ["ylearn/estimator_model/approximation_bound.py: ApproxBound._prepare4est"]}
{"id": "C69", "title": "ApproxBound gives the same answer for the training data passed explicitly", "statement": "estimate(data=training data) equals estimate().", "quantifier": "all data sets, base models, arms, ranges and assumptions", "why_tests_cant": "all data sets and label sets", "anchors": ["ylearn/estimator_model/approximation_bound.py: ApproxBound._prepare4est"]}
{"id": "C70", "title": "Structure graphs of Bayesian networks and their blankets are exact", "statement": "DAG(graph) accepts exactly the graphs that have no directed cycle and are in one piece (ValueError otherwise) and keeps their nodes and edges; get_parents, get_children, get_upstream_blanket, get_downstream_blanket, get_markov_blanket and get_blanket return exactly the sets named, each node once, in increasing or (on request) topological order.", "quantifier": "all finite graphs, all lists of nodes, all option values", "why_tests_cant": "all graphs of any size", "anchors": ["ylearn/bayesian/_dag.py: DiGraph, DAG"]}
{"id": "C71", "title": "The Markov blanket shields and is minimal", "statement": "Given get_markov_blanket(nodes, return_self=False), the nodes are independent of all remaining nodes in every Bayesian network on the graph; without any one member of the blanket they are no longer d-separated from it.", "quantifier": "all accepted structures, all node lists, all discrete Bayesian networks on them", "why_tests_cant": "independence in every distribution cannot be sampled", "anchors": ["ylearn/bayesian/_dag.py: DiGraph.get_markov_blanket"]}
{"id": "C72", "title": "Sampling solves the structural equations", "statement": "BayesianModel.model(data, nodes) raises no KeyError for nodes of the graph, returns each requested node exactly once in topological order, and the values are the unique solution of the structural equations on the requested nodes and their ancestors up to the given columns; asking for fewer nodes does not change their values when observations are honoured.", "quantifier": "all structures, data columns, node functions (including noise), requested nodes", "why_tests_cant": "all graphs and all node functions", "anchors": ["ylearn/bayesian/_network.py: BayesianModel.model, find_missing_inputs"]}
{"id": "C73", "title": "Interventions accumulate and predict/sample honour exactly them", "statement": "After any history of successful fit/do/predict/sample/estimate calls, predict and sample condition the model on exactly the interventions asked for (later settings win); do(inplace=False) leaves the original unchanged; do succeeds exactly when the intervention is non-empty and all intervened nodes are columns; the default blanket never makes do divide by zero on a proper part of the nodes.", "quantifier": "all histories of calls, all intervention values", "why_tests_cant": "unbounded histories of calls", "anchors": ["ylearn/bayesian/_network.py: SviBayesianNetwork.do, BayesianNetwork.sample, predict, _get_stub"]}
{"id": "C74", "title": "Reading calls and failed calls leave the network object as it was", "statement": "predict, sample and estimate do not change what later calls compute; a do that raises leaves the object unchanged; fitting again gives the same object as fitting a new one.", "quantifier": "all histories of calls", "why_tests_cant": "unbounded histories of calls", "anchors": ["ylearn/bayesian/_network.py: BayesianNetwork.sample, predict, estimate, fit; SviBayesianNetwork.do"]}
{"id": "C75", "title": "Category codes round-trip", "statement": "For the distinct values of a column, encode numbers the classes 0..n-1 in increasing order and decode inverts it; a value that is not a class is refused.", "quantifier": "all lists of distinct values", "why_tests_cant": "all value sets", "anchors": ["ylearn/bayesian/_base.py: CategoryNodeState"]}
{"id": "C76", "title": "BayesianNetwork.estimate is the mean contrast of interventional worlds", "statement": "estimate(data, treatment, outcome) returns the mean outcome over worlds with the treatments set to treat minus the mean over worlds with control, the other given columns being held.", "quantifier": "all structures, node functions, noises, data columns, treatment and control values", "why_tests_cant": "all graphs, columns and generating functions", "anchors": ["ylearn/bayesian/_network.py: BayesianNetwork.estimate"]}
{"id": "C77", "title": "Sample collectors average the draws", "statement": "A collected numerical outcome is the mean of the values of the draws and the draws are not modified.", "quantifier": "all sequences of draws, fresh or shared tensors", "why_tests_cant": "any number of draws and any sharing between them", "anchors": ["ylearn/bayesian/_collectors.py: NumberSampleCollector"]}
{"id": "C78", "title": "AUUC and Qini scores are mean heights of the curves", "statement": "No value of an uplift curve is missing; auuc_score is the mean of the n+1 points of the gain curve (normalised: divided by the absolute gain of treating everybody), so it lies between the lowest and highest point; qini_score is the mean distance from the RANDOM column; a model whose curve is nowhere below another one's gets at least its scores (strictly more if it is higher somewhere); the random scorings themselves have Qini scores adding up to zero.", "quantifier": "every data frame with both arms, every score column, any number of random columns", "why_tests_cant": "the claim is about all data sets and all numbers of random columns; tests check a few numbers", "anchors": ["ylearn/uplift/_metric.py: auuc_score, qini_score, CumulateBase.cumulate"]}
{"id": "C79", "title": "Incremental split statistics are exact", "statement": "After any sequence of legal calls the splitter makes at one node (re-sorting the node's samples by a feature, resetting from either side, moving the split position forward by any amount), the causal tree's split criterion holds exactly the counts, outcome sums and sums of squares of treated and control samples on each side, and the forest's criterion holds exactly the weight and weighted pseudo-outcome sums, as if recomputed from scratch.", "quantifier": "all sample sequences, node boundaries, sequences of criterion calls of any length", "why_tests_cant": "The update works on the shorter side and has two code paths; a test sees a few positions, not all histories.", "anchors": ["ylearn/estimator_model/_tree/tree_criterion.pyx:HonestCMSE", "ylearn/estimator_model/_tree/tree_criterion_lib.cpp:on_update", "ylearn/estimator_model/_generalized_forest/tree/_criterion.pyx:GrfTreeCriterion.update"]}
{"id": "C80", "title": "What the causal split criteria measure", "statement": "The value of a causal tree node with both arms is the difference in mean outcomes up to a relative error eps/arm size; the proxy that ranks candidate splits orders them exactly as the impurity improvement does; the impurity of a node is at least alpha minus the squared effect; in the generalized forest the proxy equals the improvement and maximising it is weighted least squares on the pseudo outcomes.", "quantifier": "all samples, arms, candidate positions and call histories", "why_tests_cant": "Ordering and least-squares equivalences range over all real data sets and all split positions.", "anchors": ["ylearn/estimator_model/_tree/tree_criterion.pyx:node_value", "ylearn/estimator_model/_tree/tree_criterion.pyx:proxy_impurity_improvement", "ylearn/estimator_model/_generalized_forest/tree/_criterion.pyx:proxy_impurity_improvement"]}
{"id": "C81", "title": "A tree prediction is the value of the training samples in the same leaf", "statement": "For every training set, every query and whatever features the random state draws, the prediction of a grown tree at the query is the criterion's node value computed from exactly the (nonzero-weight) training samples that apply() sends to the same leaf as the query.", "quantifier": "all training sets, weights, parameters, feature draws, sorting routines that sort, float midpoints between their arguments, and queries", "why_tests_cant": "The builder works in place on one array with an explicit stack and patches child pointers; agreement with apply() must hold for every data set and draw.", "anchors": ["ylearn/sklearn_ex/cloned/tree/_tree.pyx:DepthFirstTreeBuilder.build", "ylearn/sklearn_ex/cloned/tree/_tree.pyx:Tree.apply", "ylearn/sklearn_ex/cloned/tree/_splitter.pyx:BestSplitter.node_split"]}
{"id": "C82", "title": "Tree limits hold and the reported shape is exact", "statement": "In every grown tree each leaf (of a tree with a split) holds at least min_samples_leaf and at least one training sample, stores their number, get_depth() is exactly the longest path (at most max_depth) and there is one more leaf than there are splits.", "quantifier": "all training sets, parameters, draws and queries", "why_tests_cant": "Limits must survive every sequence of splits; a test sees some trees.", "anchors": ["ylearn/sklearn_ex/cloned/tree/_tree.pyx:DepthFirstTreeBuilder.build", "ylearn/estimator_model/causal_tree.py:CausalTree.get_depth", "ylearn/estimator_model/causal_tree.py:CausalTree.get_n_leaves"]}
{"id": "C83", "title": "Every split is the best admissible one", "statement": "Every inner node cuts the training samples that reach it by an admissible cut whose score is the highest among all admissible cuts along the features drawn at that node; a leaf below the depth limit is a leaf only for a documented reason.", "quantifier": "all training sets, nodes, drawn features and thresholds", "why_tests_cant": "Maximality ranges over all thresholds at all nodes of all trees.", "anchors": ["ylearn/sklearn_ex/cloned/tree/_splitter.pyx:BestSplitter.node_split"]}
{"id": "C84", "title": "CausalTree predictions are treatment effects", "statement": "The effect CausalTree reports depends on the outcomes of both arms and is the difference of their means in the leaf.", "quantifier": "all data sets and queries", "why_tests_cant": "Needs all data sets: the dependence on control rows is a statement about every pair of data sets.", "anchors": ["ylearn/estimator_model/causal_tree.py:CausalTree._fit_with_array", "ylearn/sklearn_ex/cloned/tree/_splitter.pyx:Splitter.init"]}
{"id": "C85", "title": "Honest trees estimate with held-out samples", "statement": "With honest estimation, which leaf a query ends in depends on the training half only, and in a leaf with held-out samples of both arms the prediction is exactly the difference of the held-out mean outcomes of the two arms.", "quantifier": "all data sets, splits into halves, draws and queries", "why_tests_cant": "Honesty is an independence statement over all held-out samples.", "anchors": ["ylearn/estimator_model/causal_tree.py:CausalTree._assign_honest_values"]}
{"id": "C86", "title": "CausalTree.estimate and its options behave as documented", "statement": "estimate() returns one effect per row, averages for ATE/CATE, honest_subsample_num accepts None, fractions and integers, and a minimal leaf weight only restricts splits.", "quantifier": "all fitted trees, data, quantities and option values", "why_tests_cant": "A statement about every fitted tree and option value.", "anchors": ["ylearn/estimator_model/causal_tree.py:CausalTree.estimate", "ylearn/estimator_model/causal_tree.py:CausalTree._get_honest_samples_num"]}
{"id": "C87", "title": "A forest tree predicts the mean outcome of the samples in the leaf", "statement": "For every data set, every feature drawing and all settings, GrfTree.fit terminates and predict(v) is the mean outcome of exactly the training samples whose covariates lead to the same leaf as v; every leaf of a split tree holds at least min_samples_leaf samples and at least one; no path is longer than the reported depth, which is at most max_depth.", "quantifier": "all data sets, settings, feature draws, solver results, heap orders and queries", "why_tests_cant": "The tree is grown best first with a priority queue over arbitrary data; a test sees one tree.", "anchors": ["estimator_model/_generalized_forest/tree/_grf_tree.py: GrfTree.fit, predict", "sklearn_ex/cloned/tree/_tree.pyx: BestFirstTreeBuilder", "estimator_model/_generalized_forest/tree/_criterion.pyx"]}
{"id": "C88", "title": "max_leaf_nodes and best-first growth", "statement": "GrfTree has at most max_leaf_nodes leaves (unlimited for None); it stops earlier only if no leaf can be split; and whenever a node was expanded before a leaf that was already there, no admissible cut of that leaf has a higher score.", "quantifier": "all data sets, settings, draws, heap tie breaks and pairs of nodes", "why_tests_cant": "Optimality of the expansion order is a statement about all pairs of nodes of all trees.", "anchors": ["estimator_model/_generalized_forest/tree/_grf_tree.py: GrfTree", "sklearn_ex/cloned/tree/_tree.pyx: BestFirstTreeBuilder"]}
{"id": "C89", "title": "What the splits of a forest tree optimise", "statement": "Every split of a GrfTree is the best cut, along the features drawn, of the pseudo outcomes of the node; samples with the same treatment everywhere give no effect to split on (depth at most 1); the tree respects sample_weight; and adding a constant to all outcomes does not change the splits.", "quantifier": "all data sets, settings, nodes, features and thresholds", "why_tests_cant": "Optimality against all cuts, invariance under all shifts.", "anchors": ["estimator_model/_generalized_forest/tree/_util_lib.cpp: init_criterion", "estimator_model/_generalized_forest/tree/_criterion.pyx", "estimator_model/_generalized_forest/tree/_grf_tree.py"]}
{"id": "C90", "title": "Memory safety of the forest's criterion", "statement": "For every node, the C++ initialisation of the criterion reads and writes only the workspace it allocated, and uses the coefficients its solver computed.", "quantifier": "all node sizes, numbers of treatments and outcomes", "why_tests_cant": "An out-of-bounds write of a few doubles usually goes unnoticed in a test; the sizes are unbounded.", "anchors": ["estimator_model/_generalized_forest/tree/_util_lib.cpp: init_criterion, eigen_solve"]}
{"id": "C91", "title": "The forest's weights are a distribution over comparable training rows", "statement": "For every forest and query the weights given to the training rows are not negative and sum to 1; a tree contributes equal weights for exactly the rows it was labelled with that share the leaf of the query.", "quantifier": "all data sets, sub-samples, settings, trees and queries", "why_tests_cant": "The weights depend on every tree and every sub-sample; a test sees one forest.", "anchors": ["estimator_model/_generalized_forest/_base_forest.py: _prediction, _fit, _compute_alpha"]}
{"id": "C92", "title": "The forest's estimate is a local regression", "statement": "For every forest and query, estimate solves the locally weighted (ridge) regression of outcome on treatment: it never fails on a singular matrix, is linear in the outcome, does not depend on the origin of treatment or outcome, and recovers the coefficients of outcomes that are linear in the treatment.", "quantifier": "all weights, treatments, outcomes and dimensions", "why_tests_cant": "Algebraic identities over all data.", "anchors": ["estimator_model/_generalized_forest/_base_forest.py: _compute_aug, __do_prepare4est", "estimator_model/utils.py: inverse_grad"]}
{"id": "C93", "title": "Fitting and querying a forest", "statement": "fit succeeds exactly for valid settings and leaves n_estimators trees, each from its own sub-sample, kept trees first; honest trees are grown and labelled with disjoint parts of the documented sizes; estimate(data) returns one effect per row, independently of batch boundaries and of the other rows.", "quantifier": "all settings, draws, data sizes and batch sizes", "why_tests_cant": "Batch boundaries, sizes and combinations of settings are unbounded.", "anchors": ["estimator_model/_generalized_forest/_base_forest.py: BaseCausalForest.fit, _get_sub_samples_num, _get_honest_samples_num, estimate, _prepare4est"]}
{"id": "C94", "title": "The splitter's sort sorts", "statement": "For every list of samples, every feature and every recursion limit, the introsort of the tree splitter returns the same samples, each exactly once, in ascending order of the feature; the midpoint threshold lies between the two neighbouring values.", "quantifier": "all lists, keys and recursion depth limits (including the switch to heapsort)", "why_tests_cant": "Sorting correctness for every input length, tie pattern and depth limit; a test exercises the heapsort branch only on adversarial inputs.", "anchors": ["sklearn_ex/cloned/tree/_splitter.pyx: sort, introsort, median3, heapsort, sift_down, BestSplitter.node_split"]}
{"id": "C95", "title": "Which features a node looks at", "statement": "For every data set, max_features, random seed and shape of the tree: at every node the splitter looks at no feature twice, at one feature that varies whenever there is one, at no more than max(1, max_features) varying features, and at all varying features when max_features is the number of features; so with the default max_features the split of every inner node is the best over all features and does not depend on the random draws, and features cached as constant for an ancestor are constant for the node.", "quantifier": "all data sets, criteria, random number sequences, max_features and trees", "why_tests_cant": "The arrays of features and constant features are shared and rearranged by all nodes; whether a cached constant is valid depends on the whole history of the depth-first traversal.", "anchors": ["sklearn_ex/cloned/tree/_splitter.pyx: BestSplitter.node_split", "sklearn_ex/cloned/tree/_tree.pyx: DepthFirstTreeBuilder.build"]}
{"id": "C96", "title": "identify returns exactly the estimands of the individual methods, and they agree", "statement": "Whatever CausalModel.identify(treatment, outcome, method) returns is, entry by entry, what id, get_backdoor_set and get_frontdoor_set return for the same graph and arguments, exactly the parts asked for are present, the graph is unchanged and the result is recorded; on a diagram where no variable is an end of two latent arcs all returned estimands equal P(outcome | do(treatment)) in every discrete model with positive observational probabilities, so they agree with each other.", "quantifier": "all graphs, treatments, outcomes, methods, set orders, discrete models", "why_tests_cant": "the estimands must have the same value in every probability model of every graph; tests compare a few strings", "anchors": ["ylearn/causal_model/model.py:CausalModel.identify", "ylearn/causal_model/model.py:CausalModel.id", "ylearn/causal_model/model.py:CausalModel.get_backdoor_set", "ylearn/causal_model/model.py:CausalModel.get_frontdoor_set"]}
{"id": "C97", "title": "estimate only uses valid adjustment sets", "statement": "If CausalModel.estimate returns, the adjustment set and covariates it hands to the estimator block all back-door paths from the treatment to the outcome it estimates for.", "quantifier": "all graphs, histories of identify calls, arguments and data columns", "why_tests_cant": "depends on the history of calls on the object and on d-separation in every graph", "anchors": ["ylearn/causal_model/model.py:CausalModel.estimate", "ylearn/causal_model/model.py:CausalModel.is_valid_backdoor_set"]}
{"id": "C98", "title": "identify_estimate returns one effect per adjustment set", "statement": "CausalModel.identify_estimate fits one copy of the estimator per back-door set of the treatment and outcome and returns the effects of the fitted copies.", "quantifier": "all graphs, arguments, styles and estimators", "why_tests_cant": "must hold for every graph and estimator; here it fails for every one", "anchors": ["ylearn/causal_model/model.py:CausalModel.identify_estimate"]}
{"id": "C99", "title": "PolicyTree recommends the best treatment of each leaf", "statement": "For every training set, settings and sample weights, PolicyTree.predict_opt_effect reports for each treatment the (weighted) mean effect over exactly the training rows in the row's leaf, predict_ind recommends the first treatment with the largest of these, and on the training rows this policy is worth at least as much as any assignment of one treatment per leaf, in particular as treating everybody alike.", "quantifier": "all numbers of rows, covariates and treatments, effects, nonnegative weights, settings accepted by fit, draws of covariates, and query rows", "why_tests_cant": "the claim is about every grown tree; tests look at a few trees and never compare the policy with all leaf-wise assignments", "anchors": ["ylearn/policy/policy_model.py:PolicyTree.fit", "ylearn/policy/policy_model.py:PolicyTree.predict_ind", "ylearn/policy/policy_model.py:PolicyTree.predict_opt_effect", "ylearn/policy/_tree/tree_criterion.pyx:PRegCriteria"]}
