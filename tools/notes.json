{
 "C01": {
  "status": "proved",
  "note": "Exact reflexive-transitive closure for every causation, cyclic or not."
 },
 "C02": {
  "status": "proved",
  "note": "is_dag exact; topo_order is a topological order of the nodes that have an observed edge (C02_topoOrder_omits_isolated shows that others are absent)."
 },
 "C03": {
  "status": "proved",
  "note": "Exact for acyclic causations; C03_two_cycle_reported: a directed two-cycle is reported as an arc."
 },
 "C04": {
  "status": "proved",
  "note": "Partition of dag.nodes; for declared graphs the classes of the declared arcs."
 },
 "C05": {
  "status": "partial",
  "note": "Refinement to an abstract graph for every history of legal edits. Violations proved: re-adding an edge, add_edge(observed=False), add_nodes in place, add_edges_from(new=True)."
 },
 "C06": {
  "status": "proved",
  "note": "Induced subgraph; a parent listed twice survives (C06_repeated_parent_survives) outside the stated hypotheses."
 },
 "C07": {
  "status": "proved",
  "note": "Graphs in step without repeated parents, as the property says."
 },
 "C08": {
  "status": "partial",
  "note": "All graphs that do not use the reserved names U0, U1, ...; C08_name_clash proves the violation otherwise."
 },
 "C09": {
  "status": "partial",
  "note": "Exact textbook criterion whenever every mentioned node has an edge or arc; otherwise the call raises NodeNotFound (proved), so the unrestricted property fails."
 },
 "C10": {
  "status": "proved",
  "note": "Every discrete Bayesian network over the explicit diagram, any ordered field, no positivity needed."
 },
 "C11": {
  "status": "partial",
  "note": "Whenever the call returns a list, it is exactly the list of admissible sets of observed nodes (textbook back-door criterion on the explicit diagram). Missing: the call may raise or return None instead of listing (C13_crash, C13_none_though_admissible)."
 },
 "C12": {
  "status": "proved",
  "note": "Any set iteration order; smallest among all admissible sets of graph nodes."
 },
 "C13": {
  "status": "partial",
  "note": "IdentificationError only if nothing admissible exists (full); an answer is guaranteed under side conditions; violations C13_none_though_admissible and C13_crash are proved."
 },
 "C14": {
  "status": "partial",
  "note": "Holds if no latent arc touches a treatment and parents are neither outcomes nor descendants of treatments; C14_latent_arc and C14_chained_treatments prove the violations."
 },
 "C15": {
  "status": "partial",
  "note": "all/minimal: every diagram and every discrete model with overlap (full). simple: under the side conditions of C14 (C15_simple_expression_partial)."
 },
 "C16": {
  "status": "partial",
  "note": "Decides d-separation in the mutilated diagram; admits descendants of the treatment (C16_accepts_mediator)."
 },
 "C25": {
  "status": "proved",
  "note": "Every list of names; repeats in the argument are treated by C25_repeats."
 },
 "C17": {
  "status": "partial",
  "note": "Exact list of back-door paths whenever the outcome lies on an edge; paths of one edge (outcome is a parent of the treatment) are never listed and an edgeless outcome is split into characters (C17_isolated_outcome)."
 },
 "C18": {
  "status": "partial",
  "note": "Exact characterisation of the answer: True iff a collider exists or the path is a backward chain of at least 4 nodes; the second disjunct is a bug (C18_backward_chain)."
 },
 "C19": {
  "status": "partial",
  "note": "Exact for sets of descendants of the treatment, in particular for every set get_frontdoor_set considers, with full soundness/completeness/minimality of the listing when the call returns; violations (crashes, popped arguments, accepted non-front-door sets) are proved."
 },
 "C20": {
  "status": "proved",
  "note": "Every returned expression equals P(y|do t) in every discrete model with overlap."
 },
 "C24": {
  "status": "partial",
  "note": "Exact (sound and complete for direct causes) whenever the treatment causes the outcome, plus independence under do(t) in every model; without that hypothesis the code is wrong (C24_reverse_causation)."
 },
 "C21": {
  "status": "proved",
  "note": "Proved for every acyclic graph whose causes and arc ends are declared keys (the documented input form); recursion depth bound (n+1)^2. C21_undeclared_cause_loops: with an undeclared cause id recurses for ever (RecursionError in Python)."
 },
 "C22": {
  "status": "partial",
  "note": "C22_disjoint_arcs_sound: full soundness of every returned expression when no variable is an end of two latent arcs. C22_id_sound_partial: any diagram, provided the run did not use lines 6/7 below line 7 (ghost flag). The unrestricted claim is false of the code: C22_napkin_wrong (wrong estimand P(y|x) on the napkin graph, with a positive counter-model), C22_isolated_outcome_dropped, C22_arc_only_outcome_crashes."
 },
 "C23": {
  "status": "proved",
  "note": "Every acyclic declared graph without latent arcs: id returns an expression for all disjoint x, y; value = P(y|do x) for outcomes on an edge (isolated outcomes are dropped by the code: C22_isolated_outcome_dropped)."
 },
 "C26": {
  "status": "proved",
  "note": "Non-negative weights, zero diagonal (what _to_dag passes); C26_to_dag_acyclic removes the diagonal precondition. C26_self_loop_crashes: IndexError on a self-loop. Negative weights (possible for Golem) are outside the model of all_shortest_paths."
 },
 "C27": {
  "status": "proved",
  "note": "Also: every cleared entry lies on a directed cycle of the input."
 },
 "C28": {
  "status": "partial",
  "note": "Exact for depth=None. With a depth limit only soundness holds (C28_depth_sound_partial); completeness is false of the code: C28_depth_misses_cause."
 },
 "C29": {
  "status": "partial",
  "note": "Exact for DataFrames. False for np.ndarray input: C29_ndarray_ignores_lower (the code reads matrix[row, col] twice)."
 },
 "C30": {
  "status": "proved",
  "note": "All six cumulators; value of row k is the textbook statistic of the k best rows when defined, linear interpolation from 0 before; existence when both arms occur. Numbers idealised as an ordered field; no missing values in the input. C30_no_nan: no defined row is missing."
 },
 "C31": {
  "status": "proved",
  "note": "Final point equals the statistic of the whole data set, for every score type, tie order and for the RANDOM mean column."
 },
 "C32": {
  "status": "proved",
  "note": "Ends at the sign of the final statistic; zero final statistic is outside the quantifier."
 },
 "C33": {
  "status": "partial",
  "note": "True when some point of the statistic is non-negative (C33_maximises); in general only the maximiser among the defined rows k>=1 (C33_top). Refuted in full by C33_ignores_treating_nobody."
 },
 "C34": {
  "status": "proved",
  "note": "Any strictly increasing transform into any linear order; C34_ties_matter shows that the no-ties hypothesis is needed."
 },
 "C35": {
  "status": "proved",
  "note": "Distinct arms; equal arms are refused with ValueError (also proved), so 'equal arms give zero' never arises."
 },
 "C36": {
  "status": "proved",
  "note": "Jobs are deterministic functions of (prototype, treat, control); any completion order of the worker pool."
 },
 "C37": {
  "status": "partial",
  "note": "Proved for one outcome and data passed explicitly. Findings proved: with two outcomes the block of the control value is y_d columns wide so the result is misaligned; effect_nji() without data always fails."
 },
 "C38": {
  "status": "proved",
  "note": "Ordinal codes of combined treatments are a bijection between vectors of known values and 0..product-1; unknown values refused."
 },
 "C39": {
  "status": "proved",
  "note": "Deterministic base model, one outcome, proba_output=False; combined and separate treatments. Own rows only, antisymmetry, zero, defaults, unseen arms refused; an arm with a single row is refused with ValueError because y.squeeze() drops the row axis (C39_single_row_refuted)."
 },
 "C40": {
  "status": "partial",
  "note": "Proved for combined treatments (default). For combined_treatment=False with two or more treatments refuted: the model is evaluated at vectors that encode no treatment vector (C40_separate_off_support). C40_separate_single: separate encoding with one treatment is fine."
 },
 "C41": {
  "status": "proved",
  "note": "Combined treatments, one outcome, proba_output=False; also the exact training sets and targets of all four models. Arms need at least two rows (a single row is refused, see C39)."
 },
 "C56": {
  "status": "partial",
  "note": "Proved for several treatments and for one treatment labelled 0..k-1; refuted otherwise: second call of SLearner.estimate answers another question or fails. DoubleML: explicit arms are history independent (C56_doubleml_explicit); with default arms refuted (C56_doubleml_refuted), except for labels 0..k-1 (C56_doubleml_standard_labels)."
 },
 "C57": {
  "status": "partial",
  "note": "Proved for TLearner with explicit arms when the new treatment vectors occurred in the first data; refuted in general because the encoders of the first fit are kept. ApproxBound keeps x_prob of the first fit (C57_bound_refuted). Arms need at least two rows (a single row is refused, see C39)."
 },
 "C42": {
  "status": "partial",
  "note": "Propensity-correct branch proved for all outcome models (C42_propensity, C42_unbiased; with the code's eps added to the propensity the exact bias is C42_bias). The outcome-correct branch is FALSE of the code (C42_outcome_refuted): the outcome model wrapper compares instead of assigning the arm column, so its prediction ignores the arm (C42_wrapper_ignores_arm); what remains true is C42_outcome_score. C42_covariates covers covariates."
 },
 "C43": {
  "status": "proved",
  "note": "For every model, every number of folds and every data set: each row's prediction comes from a model trained on exactly the rows of the other folds (C43_cross_fit) and does not depend on the row's own target (C43_honest). Limits stated (C43_no_folds, C43_too_many_folds)."
 },
 "C44": {
  "status": "proved",
  "note": "Discrete treatment: effects are differences of a function of arm and covariates (C44_discrete), hence zero on equal arms, antisymmetric, additive; continuous treatment with scalar arms: C44_continuous. One outcome; arms as labels/lists, not ndarrays."
 },
 "C45": {
  "status": "proved",
  "note": "For all numbers of estimators and jobs; zero estimators raise (C45_empty)."
 },
 "C58": {
  "status": "proved",
  "note": "C58_exact_discrete, C58_exact_continuous under explicit identification of the contrast by the design; finding: without covariates v fit always fails (C58_needs_covariates)."
 },
 "C46": {
  "status": "partial",
  "note": "Proved: default identifier and discovery identifier give disjoint, repetition-free roles without treatment and outcome; roles given by the user as lists keep exactly their non-treatment names. Refuted for given roles (C46_given_refuted): the outcome, a repeated treatment and overlaps between roles are kept."
 },
 "C47": {
  "status": "partial",
  "note": "Exact characterisation of safe_treat_control; every accepted row of safe_treat_control_list has one element per treatment; nested and flat lists behave as documented. Refuted in two corners (C47_refuted): a string next to proper rows is taken for a row; an empty list raises IndexError."
 },
 "C48": {
  "status": "proved",
  "note": "Selection, encoding, their consistency, and codes of transform_treat_control are proved for all frames and values."
 },
 "C49": {
  "status": "proved",
  "note": "to_list, join_list and parse_names."
 },
 "C50": {
  "status": "partial",
  "note": "Proved for integer codes. With the default float dtype the round trip is refuted (C50_roundtrip_float_refuted)."
 },
 "C52": {
  "status": "proved",
  "note": "All strategies of the feature selection; C52_default_may_drop_all records that the default threshold can drop every feature."
 },
 "C53": {
  "status": "partial",
  "note": "UpliftModel and check_fitted: proved over all call histories. Why: refuted, a new object carries the truthy tag (False,) (C53_why_refuted)."
 },
 "C55": {
  "status": "partial",
  "note": "Idempotence proved when lower-casing yields no upper-case letters (all of ASCII); refuted for other alphabets (C55_snake_refuted); camel/snake round trip and its limits proved."
 },
 "C59": {
  "status": "partial",
  "note": "dfs: covariates are exactly the (positive-weight) ancestors of the outcome and instruments exactly the ancestors of treatments that are no ancestors of the outcome. 'straight' is refuted (takes effects for causes), negative weights are missed by dfs."
 },
 "C60": {
  "status": "partial",
  "note": "Refuted: the automatic treatment choice ignores importances (C60_refuted); the exact selection is characterised (C60_importance_ignored)."
 },
 "C61": {
  "status": "partial",
  "note": "Kind and count of chosen treatments proved; refuted for a limit of one (C61_limit_one_refuted)."
 },
 "C62": {
  "status": "proved",
  "note": "Comparisons of causal_effect, default, given and combined; estimators available."
 },
 "C63": {
  "status": "partial",
  "note": "Proved: discrete treatment without cost function; continuous treatment (DoubleML) with and without cost function, whatever was asked before (C63_continuous*). Refuted: discrete treatment with a cost function always fails when two different pairs of values occur (C63_cost_refuted)."
 },
 "C64": {
  "status": "partial",
  "note": "causal_effect proved; the other entry points are refuted unless the classes are 0..k-1 (C64_refuted, C64_agree)."
 },
 "C65": {
  "status": "partial",
  "note": "Explicit settings are stable, failed fits keep the fitted roles, refits on data of the same kinds equal fresh fits; refuted otherwise (C65_refuted)."
 },
 "C66": {
  "status": "partial",
  "note": "Validity (C66_bounds_valid, C66_monotone_valid) and sharpness (C66_bounds_sharp) for any number of treatments provided every combination of treatment values occurs (automatic for one treatment). Otherwise refuted: C66_incomplete_refuted (wrong column of x_prob or IndexError). Arms need at least two rows (a single row is refused, see C39)."
 },
 "C67": {
  "status": "partial",
  "note": "Proved for exact (memorising) models, default or valid given ranges; refuted for models that extrapolate beyond the range of the outcome (C67_extrapolation_refuted). C67_unknown_assumption: an unknown assumption name."
 },
 "C68": {
  "status": "partial",
  "note": "Only the first upper number is valid (C68_first_upper_valid_partial). The other three are wrong and the pairs are (upper, lower): C68_optimal_refuted; the code multiplies by the bound of the effect where the formula has the lower bound of the outcome."
 },
 "C69": {
  "status": "partial",
  "note": "Proved without covariates and, with covariates, for labels 0..k-1. Refuted otherwise (C69_labels_refuted): new treatment values are not encoded."
 },
 "C70": {
  "status": "partial",
  "note": "Proved for networkx/dict/frame arguments and lists of nodes. Refuted: a single-node networkx graph loses its node (C70_single_node_refuted); get_blanket(str, return_self=False) with a name of more than one character keeps the node (C70_blanket_str_refuted); get_upstream_blanket(return_self=False) can list a given node (C70_upstream_lists_given_node_refuted). The CausalGraph argument is not modelled."
 },
 "C71": {
  "status": "proved",
  "note": "C71_markov_shields (d-separation and conditional independence in every discrete network), C71_markov_minimal."
 },
 "C72": {
  "status": "proved",
  "note": "C72_model_exact, C72_model_all, C72_unknown_node_refused, C72_restriction. Node functions are arbitrary; tensors and plates are not modelled; columns named <node>_inputs excluded."
 },
 "C73": {
  "status": "partial",
  "note": "C73_predict_history, C73_interventions_accumulate, C73_do_copy_frame, C73_do_succeeds_iff, C73_do_weight_pos. Refuted part: intervening on all nodes, or on a root with blanket='upstream', raises ZeroDivisionError (C73_do_zero_division_refuted). The SVI training itself is an arbitrary result."
 },
 "C74": {
  "status": "partial",
  "note": "Proved without interventions (C74_reads_pure) and for a failing first do (C74_failed_first_do_frame). Refuted otherwise: predict/sample write the interventions into params_ and so change a later estimate (C74_predict_changes_estimate_refuted); a failing later do poisons the object (C74_failed_do_poisons_refuted); refitting keeps old interventions (C74_refit_keeps_interventions_refuted)."
 },
 "C75": {
  "status": "partial",
  "note": "Round trip proved (C75_roundtrip), constant columns refused (C75_constant_refused). Refuted: unknown values are silently taken for another class (C75_unknown_value_refuted)."
 },
 "C76": {
  "status": "partial",
  "note": "Proved when each treatment that is a data column is a direct cause of an outcome (C76_estimate_worlds, C76_draw_is_world, C76_nondescendants_unchanged). Refuted otherwise: with the outcome in the data the estimate is always 0 (C76_outcome_given_zero); a treatment column that is not a direct cause is ignored (C76_given_indirect_treatment_ignored, C76_indirect_refuted); mediators in the data leave only the direct effect (C76_mediator_refuted)."
 },
 "C77": {
  "status": "partial",
  "note": "Mean proved for fresh tensors (C77_collector_mean; only the first tensor is overwritten). Refuted for shared tensors, as produced by a conditioned or observed outcome site: 2^n c/(n+1) instead of c (C77_collector_alias, C77_intervened_outcome_refuted)."
 },
 "C78": {
  "status": "proved",
  "note": "Exact numbers, no rounding; the order of tied rows is arbitrary."
 },
 "C79": {
  "status": "proved",
  "note": "C79_backward_refuted: moving the position backwards (which the splitter never does) would leave stale sums."
 },
 "C80": {
  "status": "proved",
  "note": "Findings: C80_one_arm_refuted (a node with only treated samples reports their mean outcome as an effect), C80_impurity_refuted (outcomes of the order 1e5 make the impurity negative with the code's alpha = 1e10)."
 },
 "C81": {
  "status": "proved",
  "note": "Refinement of the stack loop to a recursive tree (build_eq). The features drawn per node are an arbitrary list per node id; the sort is assumed to sort, which C94_sound discharges for the code's routine; the draws are those of C95."
 },
 "C82": {
  "status": "proved",
  "note": "C82_leaf_size, C82_depth, C82_leaves."
 },
 "C83": {
  "status": "proved",
  "note": "C83_best_split, C83_leaf_reason; score = the criterion's proxy on sums computed from scratch, candidates further apart than FEATURE_THRESHOLD."
 },
 "C84": {
  "status": "partial",
  "note": "Refuted without honest estimation: the treatment indicator is passed as sample_weight and the splitter drops zero-weight samples, so control rows are ignored entirely (C84_controls_ignored) and the prediction is the shrunk mean outcome of the treated rows of the leaf (C84_prediction, C84_no_effect_refuted). With honest estimation see C85."
 },
 "C85": {
  "status": "proved",
  "note": "C85_honest_structure, C85_honest_value; leaves lacking an arm keep the value of the training half (C85_honest_fallback), which by C84 is a mean outcome of treated samples."
 },
 "C86": {
  "status": "partial",
  "note": "One prediction per row proved (C86_rows), accepted fractions exact (C86_honest_num). Refuted: ATE/CATE return None (C86_average_refuted), rows of other treatment values are missing from estimate() (C86_alignment_refuted), integers raise AttributeError (C86_honest_int_refuted), a positive minimal leaf weight forbids all splits (C86_min_weight_refuted)."
 },
 "C87": {
  "status": "proved",
  "note": "Floats are elements of an ordered field; the sort is assumed to sort (discharged by C94_sound) and the heap to pop a maximum (SoundEnv, witnessed by stdEnv)."
 },
 "C88": {
  "status": "partial",
  "note": "Proved except for the documented default: None means 1000 leaves, not unlimited (C88_unlimited_refuted)."
 },
 "C89": {
  "status": "partial",
  "note": "Optimality and the constant treatment case proved. The last two are false of the code: sample_weight never reaches the splitter (C89_weights_ignored_refuted), and the local regression has no intercept (C89_shift_refuted)."
 },
 "C90": {
  "status": "partial",
  "note": "Exact characterisation: in bounds iff the node has at least as many samples as treatment columns (C90_in_bounds), which min_samples_leaf=1 does not guarantee (C90_overflow_refuted). With several outcomes the wrong coefficients are read (C90_outcomes_refuted). int overflow is not modelled."
 },
 "C91": {
  "status": "partial",
  "note": "Proved for forests without honesty (C91_fit_sum_one) and trees with at least one split (C91_tree_weights). False otherwise: an unsplit tree gives 1/n to every row, sampled or not (C91_stump_refuted); an honest leaf without label rows contributes nothing (C91_honest_sum_refuted)."
 },
 "C92": {
  "status": "partial",
  "note": "Solvability, linearity, the equations solved and invariance under treatment shifts are proved. The code subtracts alpha_i*y_i instead of the weighted mean of y: the estimate is 1-1/m times the local regression for m equally weighted rows (C92_attenuated_refuted) and not 0 for constant outcomes (C92_constant_outcome_refuted)."
 },
 "C93": {
  "status": "partial",
  "note": "Proved as an exact characterisation. Refuted parts: integral honest_subsample_num always raises AttributeError, the honest sizes are the reverse of the documentation, an empty frame raises, several outcomes can be fitted but not estimated. Trees grown on an empty list of rows and negative honest shares are outside the model."
 },
 "C94": {
  "status": "proved",
  "note": "C94_sort: permutation and order for quicksort partitioning and the heapsort fallback, any depth limit. C94_sound: this discharges the sorting assumption (SoundParams) of C81-C89 for the code's own routines."
 },
 "C95": {
  "status": "proved",
  "note": "C95_draws: the builder with the code's drawing loop and shared arrays refines the builder of C81-C85 with a list of features per node that satisfies the specification Drawn. C95_best_of_all, C95_leaf_reason: best split and leaf reasons over all features. C95_feature_valid: for every max_features. The best-first builder (GrfTree) starts every node with no cached constants and is not covered."
 },
 "C96": {
  "status": "proved",
  "note": "C96_same_answers, C96_succeeds, C96_estimands_agree. Findings: auto never works for list arguments or for names whose characters are not variables, empties the caller's sets and its own treatment/outcome, and raises as soon as one method fails (C96_*_refuted)."
 },
 "C97": {
  "status": "partial",
  "note": "Proved: user-given sets are validated against the identified treatment and outcome (C97_validated); after identify with backdoor all/minimal the set used satisfies the back-door criterion (C97_after_identify); the default is the parents of the treatment (C97_default_partial); without identify the call raises. Refuted otherwise: stale sets of another treatment are used, an overriding treatment is not validated, and after identify('auto') on sets everything is accepted (C97_*_refuted)."
 },
 "C98": {
  "status": "partial",
  "note": "Refuted for every input: the default style is unknown to get_backdoor_set, the loop runs over the pair (sets, expression), and the unfitted original is asked instead of the fitted copy (C98_*_refuted). What is missing is the property itself: the code never returns."
 },
 "C99": {
  "status": "partial",
  "note": "Proved for two or more effect columns and criterion policy_reg (C99_prediction, C99_recommendation, C99_policy_value). Refuted: one effect column makes predict_ind raise (C99_single_effect_refuted), the other criteria can be fitted but never predict (C99_other_criteria_refuted), max_leaf_nodes drops the sample weights (C99_weights_dropped_refuted)."
 },
 "C100": {
  "status": "proved",
  "note": "C100_best_split, C100_leaf_reason, C100_cut_gains, C100_max_leaves. C100_default_splits_on and C100_useless_splits_refuted: with the default min_impurity_decrease=0 splits without any gain are made, because a cut never loses."
 },
 "C101": {
  "status": "proved",
  "note": "C101_explanation, C101_interpret (the text of the explanation is modelled as a record of node, covariate, value, sign and threshold)."
 },
 "C102": {
  "status": "partial",
  "note": "C102_valid_instruments proves it for a constant covariate basis; C102_clean_partial is the general form, whose orthogonality hypothesis is not implied by valid instruments once the covariate basis is not constant; C102_covariates_refuted shows noise-free data on which the answer is 2 instead of 1."
 },
 "C103": {
  "status": "proved",
  "note": "All fitted objects, including those with an arbitrary second stage model; the second sentence for affine second stages and continuous treatments."
 },
 "C104": {
  "status": "partial",
  "note": "Proved: fit succeeds with all bases, covariates and a continuous treatment; counterfactuals of a continuous treatment; effect_nji for several discrete treatments. Refuted by theorems: covariates and all bases are mandatory although optional in the signature, averages are never returned, counterfactuals need data and use raw labels for discrete treatments, effect_nji always fails for one discrete treatment and continuous treatments."
 },
 "C105": {
  "status": "partial",
  "note": "Proved for continuous treatments with the default contrast of one unit and for discrete treatments of which the data contain two arms. Refuted by theorems: three arms (C105_three_arms_refuted: a wrong effect scores better than the true one), other contrasts of a continuous treatment (C105_contrast_refuted), covariates in another order (C105_order_refuted); estimators without covariates cannot be scored (C105_needs_covariates)."
 },
 "C106": {
  "status": "proved",
  "note": "For criterion policy_reg (the only one that can predict, C99). Exact arithmetic: ceil and floor of products are those of an ordered field, not of floats."
 },
 "C107": {
  "status": "proved",
  "note": "Over the reals with the exact matrix exponential (floating point is idealised)."
 },
 "C108": {
  "status": "partial",
  "note": "Proved for rho_max > 1 and at least one epoch (C108_training); a limit of at most 1 always raises TypeError (C108_rho_max_refuted). NaN penalties are outside the model."
 },
 "C109": {
  "status": "partial",
  "note": "CausalDiscovery: full (C109_causal_discovery). Golem: acyclic and above the threshold (C109_golem) but the stronger direction is refuted (C109_golem_direction_refuted: weights are set to 1 before comparing). Dagma: the same two facts (C109_dagma, C109_dagma_direction_refuted). Several lags refuted (C109_lags_refuted: every lag matrix is applied to the values order steps back), one lag proved (C109_one_lag). Negative entries of exactly -threshold and threshold=None for Golem/Dagma are not covered."
 },
 "C110": {
  "status": "proved",
  "note": "get_params() succeeded is a hypothesis (acyclic nesting, every declared name kept as an attribute); C111 says what happens otherwise."
 },
 "C111": {
  "status": "partial",
  "note": "The errors are proved. Not true of the code: the parameters before the wrong name are already set (C111_atomic_refuted, exact effect in C111_unknown_name); SLearner and CausalForest can neither be read nor set (C111_classes_refuted)."
 },
 "C112": {
  "status": "partial",
  "note": "Proved: first come, each column once, agreement of the two ways, names. Refuted by theorems: features given as tuples fail in fit_transform only; an integer or long lone label is renamed; a repeated label in one feature duplicates the column."
 },
 "C113": {
  "status": "partial",
  "note": "Proved: the kept columns, the rows, transform, append_drop_columns after a fit. Refuted: a second fit keeps the decisions of the first (C113_refit says exactly what it does, C113_refit_refuted is a witness), append_drop_columns before a fit always raises TypeError."
 },
 "C114": {
  "status": "partial",
  "note": "Proved when columns were dropped or the order was kept. Refuted: with no column dropped and mixed column types the importances are reported in the order of the prepared data; a lone label of more than 64 characters is renamed and transform raises KeyError."
 },
 "C115": {
  "status": "partial",
  "note": "Meaning, total and normalisation proved for every tree of both builders; nonnegativity proved for PolicyTree (policy_reg), refuted for CausalTree and GrfTree; forest exact, refuted for CTCausalForest. weighted_n_node_samples is a parameter of the model (the weight at the node), not a field of its nodes."
 },
 "C116": {
  "status": "partial",
  "note": "Proved for explicit arms and for the averaging; refuted for the defaults, for estimate() and for apply()."
 },
 "C117": {
  "status": "partial",
  "note": "Column meaning, no information lost and contrasts proved; shrinkage and the missing covariate transformer refuted."
 },
 "C118": {
  "status": "partial",
  "note": "Discrete treatments with distinct index labels proved (C118_individual, C118_default_control, C118_agrees). Refuted: rows sharing a label get the answer of the first one or KeyError (C118_repeated_labels_refuted); continuous treatments with the default or a numeric control give n*n numbers (C118_continuous_refuted), only row-wise controls are right (C118_continuous_rowwise)."
 },
 "C119": {
  "status": "partial",
  "note": "Proved for DoubleML (the default) for all forms of arms and every history except a call without arms (C119_history); refuted for that call (C119_history_refuted: it repeats the treated values of the last call, n*m numbers after whatif) and for one name as treatment (C119_name_refuted: iterated by characters)."
 },
 "C120": {
  "status": "proved",
  "note": "Real arithmetic without rounding."
 },
 "C121": {
  "status": "partial",
  "note": "Proved for causal_effect on given data (C121_discrete, C121_continuous) and continuous whatif (C63_continuous_cost). Refuted: ignored by individual_causal_effect (C121_individual_refuted), ignored or called without the row when no data are given (C121_no_data_refuted), discrete whatif fails (C63_cost_refuted)."
 },
 "C122": {
  "status": "partial",
  "note": "Columns, control, default control and the refusal are proved for learners whose own table has one zero column (C122_columns, C122_default_control, C122_too_many). Distinct labels proved for classes printed differently without underscores (C122_labels), refuted otherwise (C122_labels_refuted). The cost function on the table and discrete outcomes are not covered."
 },
 "C123": {
  "status": "partial",
  "note": "Frame, default arms and score proved for continuous outcomes (C123_frame, C123_defaults, C123_score). Refuted for a discrete outcome: the curve is built from class codes, whatever target_outcome is asked for (C123_target_refuted)."
 },
 "C124": {
  "status": "partial",
  "note": "Exact characterisation proved (C124_auto); refuted for a continuous treatment with a discrete outcome and no instrument (C124_auto_refuted) and for the doubly robust factory called by Why (C124_dr_refuted)."
 },
 "C125": {
  "status": "partial",
  "note": "Proved for combined treatments, DoubleML, DoublyRobust and for separate treatments with a discrete outcome. For separate treatments with a continuous outcome C125_separate characterises when it holds (one other treatment value or the degenerate single row); refuted otherwise (C125_separate_refuted): treatments are taken for outcomes after squeeze."
 },
 "C126": {
  "status": "partial",
  "note": "Proved when both arms show the same outcomes (C126_tlearner, C126_tlearner_sum_zero, C126_xlearner). Refuted otherwise: TLearner compares columns of different outcomes (C126_tlearner_refuted) and refuses outcomes unseen in the treated arm (C126_tlearner_unseen); XLearner.fit fails (C126_xlearner_unseen) or broadcasts a single column (C126_xlearner_single_refuted)."
 },
 "C127": {
  "status": "partial",
  "note": "Proved for continuous outcomes (C127_separate). Refuted for discrete outcomes: estimate raises AttributeError (C127_discrete_refuted)."
 },
 "C128": {
  "status": "partial",
  "note": "C128_links: the right links without treatment->outcome, all in the opposite direction. Refuted: C128_refuted (every role becomes an effect of treatments and outcome, no path from treatment to outcome), C128_discovery_refuted (TypeError: matrix2dict has no parameter threshold)."
 },
 "C129": {
  "status": "partial",
  "note": "dfs: C129_dfs, exact (valid iff nothing lies between treatment and outcome). With a causal model and backdoor/simple: exact covariates (C129_simple), valid for one treatment with a cause (C129_single). Refuted: mediators (C129_dfs_refuted), instruments are never reported when the treatment causes the outcome (C129_no_instruments, C129_instrument_refuted), NodeNotFound for treatments without causes (C129_roots_refuted), tuples instead of names for all/minimal (C129_tuples_refuted), chained treatments (C129_chained_refuted)."
 },
 "C130": {
  "status": "partial",
  "note": "Everything is proved except predict/decide on data frames, which is false: the frame is handed to the tree without selecting the covariates (ValueError for another number of columns, wrong answers for another order); proved for frames that consist of the covariates in order. sklearn's DecisionTreeRegressor is a contract (proper tree, no empty node, leaf value = mean), float32 rounding is not modelled."
 },
 "C131": {
  "status": "partial",
  "note": "C131_region, C131_penalty, C131_gradients, C131_direction, C131_loss, C131_golem hold for all matrices over the reals (exact arithmetic instead of floats). C131_h relates the value the code computes to the penalty; C131_h_refuted, C131_h_gradient_refuted and C131_equal_variances_refuted are the negative findings: wrong sign of h, gradient opposite to the value, ignored argument."
 },
 "C132": {
  "status": "partial",
  "note": "C132_minimize, C132_train_ends and C132_s for all inputs over exact reals. C132_history_refuted: a second training of the same object on the same data gives other weights because self.s keeps the increments. C132_arguments_refuted: lr, T, warm_iter, s, max_iter of the call and lambdaa of the constructor have no effect."
 },
 "C133": {
  "status": "partial",
  "note": "All parts proved for every draw over exact reals; C133_simulate_er_dag_refuted is the negative finding (np.tril with k=1 keeps two-cycles). C133_lags shows that the noise is the sum of one draw per lag."
 },
 "C134": {
  "status": "partial",
  "note": "C134_rates_undirected, C134_shd_undirected for all estimates with entries 0, 1, -1; C134_rates, C134_shd, C134_shd_metric for 0/1 estimates. Refuted parts: the false positive rate of a fully reversed complete graph on three vertices is 3 (C134_fpr_refuted); the checks of the estimate are commented out, so an undirected edge listed in both directions gives a true positive rate of 2 (C134_twice_refuted)."
 },
 "C135": {
  "status": "partial",
  "note": "Proved for every input over exact rationals with networks as functions; negative parts: C135_sample_n_refuted (any two positive numbers of draws train identically, because the dataset has as many items as outcomes), C135_second_treatment_refuted, and the conditions beyond DivReasonable in C135_fit_iff. The optimisation of network weights is not modelled."
 },
 "C136": {
  "status": "partial",
  "note": "Positive part C136_discrete, C136_mixture, C136_density_pos, C136_loss, C136_loss_single. Findings: C136_continuous/C136_linear_refuted (torch.eye: the effect of a linear network is divided by the number of rows), C136_rows_needed, C136_unknown_category_refuted, C136_control_refuted, C136_cate_refuted, C136_marginal_refuted, C136_discrete_outcome_refuted, C136_effect_nji_refuted, C136_wrapper_frame, C136_loss_refuted (logsumexp over the batch is not the likelihood), C136_logits_refuted."
 },
 "C137": {
  "status": "proved",
  "note": "Method bodies (Pyro training and sampling) are arbitrary functions of the store; the theorems are about the discipline around them. Threads are not modelled."
 },
 "C138": {
  "status": "proved",
  "note": "The learners themselves (gCastle, pgmpy) are arbitrary functions; pandas alignment is modelled as outer join with sorted union."
 },
 "C139": {
  "status": "proved",
  "note": "Discovery is an arbitrary deterministic function of the data."
 },
 "C140": {
  "status": "partial",
  "note": "C140_id_complete proves that every IdentificationError is justified (explicit pair of models built from a hedge, K = rationals, values Bool x Bool). C140_identifiable_answered, C140_backdoor_answered, C140_frontdoor_answered, C140_disjoint_arcs_exact are the consequences. The clause that an identifiable effect is always answered is refuted: C140_identifiable_crash_refuted, C140_single_outcome_crash_refuted (ValueError)."
 },
 "C141": {
  "status": "proved",
  "note": "C141_error_identity (general), C141_treatment_model_suffices, C141_constant_effect, C141_second_order; C141_outcome_model_not_enough shows the asymmetry. leastSquares_exists shows such a final model exists over ordered fields. Exact arithmetic, no rounding; expectations are empirical sums."
 },
 "C142": {
  "status": "proved",
  "note": "C142_pipeline composes the models of identify, estimate and the learners; C142_tlearner, C142_slearner, C142_xlearner, C142_doubly_robust hold for any back-door set. C142_population_exists: every rational model has a population (every possible arm at least twice). C142_adjustment_matters: without the back-door set the answer differs. Combined treatments (the default); sampling error is outside the statement."
 },
 "C143": {
  "status": "partial",
  "note": "Proved: the exact value of the average for every eps (C143_exact), the exact bias and its bound, and the causal statement (C143_causal, C143_causal_overlap) through the back-door machinery of C142. False beyond that: a stratum without treated rows silently counts as if its treated mean were 1 (C143_no_overlap_refuted/witness), labels other than 0/1 give another number (C143_labels_refuted), one class only raises IndexError (C143_one_class), and the propensity model cannot be chosen by its documented name (C143_name_refuted). The documented estimate* methods do not exist in the class."
 },
 "C144": {
  "status": "proved",
  "note": "C144_iv_pipeline: linear models, uncorrelated noise, bases of degree 1. C144_any_basis: arbitrary mechanisms, independent noise, any bases with a constant covariate basis (with the default covariate basis the estimate need not be the effect: C102_covariates_refuted). C144_interventions_exist: the interventional values exist; fitsLS_exists: least squares fits exist. Worked example with a quadratic effect and degree-2 bases beside the theorem."
 },
 "C145": {
  "status": "partial",
  "note": "Proved: numbers and missing values kept by the fit, when an object column becomes numbers, transform of the same data, text stays text, numeric later data. Refuted with witnesses: missing values in text columns become the text 'nan', one unreadable cell in later data turns the numbers of all rows into texts, later integers outside the fitted range wrap around silently under reduce_mem_usage with int_convert_to=None, transform truncates a reserved column that was integer in the fit, default options merge integers above 2^53, reduce_mem_usage can enlarge a column. Rounding, float(), int() and str() are parameters."
 },
 "C146": {
  "status": "partial",
  "note": "Proved: the average, the codes, nonnegativity, dispatch. Refuted: objects fitted with instruments cannot be scored (RLoss.fit has no parameter instrument, TypeError always), the target outcome has no influence, unknown scorer names mean R-loss. Fitting the scorer and the uplift score are parameters here (C105, C93)."
 },
 "C147": {
  "status": "proved",
  "note": "The default estimator (PermutedTLearner) is modelled with its label encoders, pairs and dictionary. Findings: fit needs all combinations of every two treatments even if combined effects are never asked for (C147_missing_combination_refuted), and comparing a value with itself raises ValueError (C147_same_arms_refuted). Sampling error, discrete outcomes and instruments are not covered. The exchange of columns of C163 does not matter here: adjustment and covariates are used together. C147_discovery: the same with roles found by discovery."
 },
 "C148": {
  "status": "proved",
  "note": "C148_density ties the specification to the law of the solution of x = xW + e (pushforward of the product Gaussian); C148_profile_equal / C148_profile / C148_maximum_likelihood(_each) give optimality, C148_truth the unique true minimiser (spectral argument, no bound on the size), C148_self_loops an invariance, C148_epoch / C148_reach / C148_short_training / C148_dygolem_lags the reach of the training. Reals instead of floats; the gradient is an arbitrary function; convergence of the training is not claimed. _refuted: default scaling reverses an edge, independent coins get an edge, Dygolem's variances and return_dict."
 },
 "C149": {
  "status": "proved",
  "note": "C149_linear_markov is the fact about d-separation behind it (residuals on a separating set are uncorrelated, also with constant or latent variables). Uncorrelated noise in the sample is an assumption about the data, as in C144; with a finite random sample it holds only approximately. cf_fold = 1 (the default). C149_adjustment_matters: on the data of the example the answer without adjustment is 3 instead of 2."
 },
 "C150": {
  "status": "partial",
  "note": "Proved (C150_policy, C150_returns, C150_default_treatment, C150_too_many) for fitted objects with covariates and a preprocessor that keeps the order of the columns (see C163: texts, truth values, numbers); false without covariates (C150_no_covariates_refuted) and when the order changes: the tree is then grown from columns under exchanged names and applied to the right ones, and the advice follows the wrong variable (C150_mixed_refuted)."
 },
 "C151": {
  "status": "partial",
  "note": "Proved: C151_scale, C151_units, C151_objective, C151_truth (any number of columns), C151_two/C151_two_result (direction = order of variances), C151_tie, C151_standardised, C151_hidden. Refuted with witnesses: that the default settings find the direction of a linear effect (C151_direction_refuted), unit independence without scaling (C151_units_unscaled_refuted), that hidden layers can be fitted (C151_hidden_loss_refuted: A keeps its layers in a plain list, so they are no parameters of the module). The optimiser is arbitrary; that LBFGS reaches the best parameters is not claimed."
 },
 "C152": {
  "status": "partial",
  "note": "Proved: C152_probabilities, C152_root, C152_root_exact, C152_linear, C152_linear_sharp, C152_mlp, C152_effect, C152_normal. Refuted with witnesses: that a categorical node can learn its distribution given its parents (C152_first_class_refuted: uniform whenever all parents take the first class; C152_copy_refuted: a deterministic copy gets an effect below 0.232). Cause: the logits are rows of a simplex times the class codes, without bias. Pyro's inference is not modelled: the weights are any point of the support."
 },
 "C153": {
  "status": "partial",
  "note": "Proved: C153_guide, C153_distinct, C153_auto, C153_kinds, C153_cache. Refuted with witnesses: that the kind of a node decides how its weights are learned (C153_underscore_refuted: names are cut at the first underscore), distinct sites for arbitrary names (C153_clash_refuted), that options of MiNormal[MLP, options] are used (C153_options_refuted: the cache ignores options)."
 },
 "C154": {
  "status": "partial",
  "note": "Proved: C154_gradient (with C154_loss_gradient, C154_penalty_gradient), C154_centred, C154_doubled, C154_result, C154_errors, C154_no_loops, C154_threshold, C154_sharp, C154_defaults (up to five variables), C154_causal_discovery. Refuted with witnesses: an acyclic result within the tolerance for six variables (C154_six_refuted: six weights 0.3 in a circle have a penalty below 1e-8), that with CausalDiscovery's defaults (1e-6, 0.01) trimming removes nothing above the threshold (C154_default_refuted). Exact real arithmetic; the optimiser is arbitrary."
 },
 "C155": {
  "status": "partial",
  "note": "Proved: C155_boxes, C155_read, C155_palette, C155_channels, C155_cate, C155_cate_plot, C155_policy_best, C155_policy_equal, C155_policy_plot (the exact condition), C155_policy_read, C155_fitted, C155_lines. Refuted with witnesses: that every policy can be plotted (C155_policy_tie_refuted, C155_plot_refuted: two equally good treatments and a worse third one give the intensity 0/0 and a ValueError with the default filled=True), different colours beyond 360 treatments (C155_palette_refuted), that a box lists all treatments (C155_lines_refuted: too few names drop values). Positions, fonts and sklearn's node text are not modelled; arithmetic is exact."
 },
 "C156": {
  "status": "partial",
  "note": "Proved over the reals for arbitrary weights, with the noise of torch.distributions written out (a categorical component and independent standard normals). Refuted: the third output is documented as the variance, but it is the standard deviation (C156_variance_refuted: equal only when it is one); the joint density is not the product of the coordinate densities mixture_density returns (C156_joint_refuted); predict_cdf, mixture_density(torch_D=True) and prod_prob never return (C156_methods_refuted). Not modelled: the optimiser and floating point."
 },
 "C157": {
  "status": "partial",
  "note": "Discrete treatments: proved (C157_discrete, C157_discrete_unique). Continuous treatments: refuted. Training compares the outcome with the network at ONE draw per row instead of its mean over draws, so the structural function minimises the expected loss, even among its own multiples, exactly when the treatment has no effect (C157_structural_refuted); the best multiple is below one (C157_attenuation); for a linear effect every minimising affine function has slope b*S/(S+V), strictly closer to zero than b (C157_linear, C157_linear_refuted); with a perfect instrument and network and true slope one the minimiser has slope 1/5 (C157_fifth_refuted). The optimiser is not modelled."
 },
 "C158": {
  "status": "partial",
  "note": "Proved: exact outcome of every call of fit (C158_accepts), end-to-end characterisation of T, X, S from named cells, independence of names/order/other columns (C158_columns), split (C158_split), labels (C158_relabel), row order (C158_row_order), training data (C158_training_data), failed calls (C158_failed_fit). Partial because two parts are false of the code: C158_leak_refuted (outcome accepted as adjustment variable; all effects zero) and C158_failed_fit_refuted (a fit that raises KeyError silently redirects the old models to the columns of the failed call). One outcome column, combined_treatment=True; the state after an exception inside training is not modelled."
 },
 "C159": {
  "status": "partial",
  "note": "The intended claim (hidden confounders are estimated) is false: C159_raises_refuted (every call with something to estimate raises TypeError, KeyError, ValueError or UnboundLocalError; the counter is assigned in a nested function), C159_pair_refuted (ValueError for the plain confounded pair, whatever the data), C159_column_refuted (the user's data keeps a new column although the call failed), C159_names_refuted (an observed node whose name contains U counts as hidden). Proved: C159_nothing, C159_returns, C159_chain."
 },
 "C160": {
  "status": "partial",
  "note": "Proved: the split is optimal and missing exactly if all rows agree in all covariates (C160_split); leaves (C160_leaves); fit ends with a tree when no two rows agree in all covariates and an adjustment is given (C160_fit_total); weights not negative, sum at least 1, and sum 1 exactly if no other leaf has the same value, then they are the leaf's (C160_alpha). An outcome proportional to the treatment gives zero gradients and a single leaf (C160_proportional). The labels of a node scale with the units of outcome and treatment and the split does not depend on the units (C160_units). Refuted parts: the coefficient is fitted without intercept but the residuals are taken from the means, so y = 1 + 2x, with no heterogeneity at all, is split (C160_intercept_refuted); leaves are compared by value, so equal values merge them and the weights sum to 2 (C160_alpha_refuted); equal covariates with differing gradients raise TypeError (C160_discrete_refuted); without adjustment the first split raises TypeError (C160_adjustment_refuted); two rows (and any node stopped by the tolerance) get the first outcome, not the mean (C160_mean_refuted). Exact arithmetic; one treatment column."
 },
 "C161": {
  "status": "partial",
  "note": "Proved: C161_rows, C161_treatments, C161_refused, C161_discrete, C161_clip, C161_coupon. Refuted parts: the returned list of effects is in generation order, not aligned with the shuffled training rows (C161_aligned_refuted); in meaningless_discrete_dataset arm i exceeds arm 0 by i times the given effect (C161_discrete_refuted). Draws are parameters; binary_data, sq_data and the test set of multi_continuous_treatment are not modelled."
 },
 "C162": {
  "status": "partial",
  "note": "Proved: exact behaviour for all data (C162_propensities: right columns if all arms occur outside each group; ValueError exactly if outside some group the number of arms is neither k nor 1; broadcast if it is 1) and without folds (C162_no_folds). Refuted parts: data sorted by a binary treatment, cf_fold=2, any size, any normalised classifier: both arms get probability 1 for every row without error (C162_sorted_refuted); three sorted arms raise ValueError (C162_three_arms_refuted); proba_output=True with cf_fold >= 2 always raises ValueError (C162_proba_output_refuted)."
 },
 "C163": {
  "status": "partial",
  "note": "Proved: exact behaviour: the column named columns[i] gets the values of the i-th column in the order texts, truth values, numbers, the same exchange in fit and in all later calls, other columns untouched (C163_fit, C163_preprocess); the names are kept exactly if the given list is in that order, e.g. when all columns have one type (C163_names_iff, byKind_one_type); other types are refused (C163_other_type). Refuted parts: a number before a text exchanges the two columns (C163_exchanged_refuted), so covariates and adjustment can be mixed up, and policies are learned from exchanged columns but applied to the right ones (C150_mixed_refuted); a name of more than 64 characters alone in its type raises AssertionError (C163_long_refuted)."
 },
 "C164": {
  "status": "partial",
  "note": "Proved for one treatment and every estimator (C164_slearner, C164_tlearner, C164_xlearner, C164_discrete_outcome, C164_doubly_robust, C164_doubleml, C164_bound), for several treatments and the estimators that count all combinations: control = all smallest values, treat = the same with the second smallest value of the second treatment (C164_several, C164_several_dml_bound). Refuted: TLearner and XLearner count only the observed combinations, so with several treatments the same call compares other arms than SLearner, which may take a combination no row has (C164_several_refuted). DoubleML only on a freshly fitted estimator (later calls: C56)."
 },
 "C165": {
  "status": "partial",
  "note": "C165_kinds, _told, _accepts, _default_model, _seed, _object, _register, _shipped are proved for all calls. Refuted parts: DR, bound and rloss are not told of a discrete outcome (C165_told_refuted); a named model whose library is missing is a NameError (C165_missing_library_refuted); without a task a regression target gets a classifier (C165_inferred_refuted); a misspelt model name is taken for the model (C165_misspelt_refuted); the general factory of the meta learners gives the X-learner no regressor for the effects of a discrete outcome (C165_ml_x_refuted)."
 },
 "C166": {
  "status": "partial",
  "note": "C166_binding (Python's argument rule, for every signature), C166_keeps, C166_meta_options, C166_guard, C166_permuted, C166_seeds are proved. Refuted parts: NP2SLS passes its categories in the place of the fitted tag, so it counts as fitted before fit and ignores the categories (C166_np2sls_refuted, C166_permuted_np2sls_refuted); the forests forget their seed (C166_forest_seed_refuted); NaiveCausalForest shifts its arguments and cannot be fitted with covariates or adjustment (C166_naive_refuted); with seed None the base models of DoubleML stay unseeded although the attribute says 2022 (C166_seeds_refuted)."
 },
 "C167": {
  "status": "partial",
  "note": "C167_apply, C167_path, C167_sparse (canonical CSR), C167_built and C167_best_first (the hypotheses hold for every built tree) are proved. Refuted part: a CSR matrix with two entries for one place is read by its last entry, not by the sum (C167_duplicates_refuted)."
 },
 "C168": {
  "status": "partial",
  "note": "C168_sample (exact arithmetic for linspace), C168_bars_partition, C168_bars_descend are proved. Refuted parts: a curve with no more than n_sample points (default 100) is an AssertionError (C168_small_refuted); plot_cumlift bins the values of the curve and not the population, so that every rearrangement of a curve gives the same picture and the bars descend for every model (C168_bars_refuted, C168_bars_descend)."
 },
 "C169": {
  "status": "partial",
  "note": "proved per outer line: the counter belongs to the nearest frame in another file than the calling one, not to the calling line (offset one too large), so the claim per call site is refuted both ways (two lines share a counter: the second message is lost; one line reached from two places prints twice). It holds for histories in which outer lines and call sites correspond (C169_per_site_partial), and k calls in a row print min k n resp. ceil(k/n) lines."
 },
 "C170": {
  "status": "partial",
  "note": "proved except that `fatal` always raises TypeError after printing (refuted), that the level of a single logger is ignored (proved for all histories), that negative levels are never printed, and that levels written as two digit text are refused (refuted: set_level(str(get_level())) raises)."
 },
 "C171": {
  "status": "partial",
  "note": "proved when no argument is a one-shot iterator or a mapping that cannot be rebuilt, and for default names; refuted otherwise: with details every iterator argument loses five elements more (exact effect proved), a mapping whose class needs arguments turns a successful call into TypeError (and the call is not counted), and functions timed under a custom name are reported under a cut name and may replace one another."
 },
 "C172": {
  "status": "partial",
  "note": "proved for integer seeds that numpy accepts (for network methods: other than 0), for every computation and any two histories. Refuted: seed 0 at a network method is no seed, DeepIV never uses its random_state, a RandomState object gives other results at every call (they depend on its state alone); numpy integers raise AttributeError; a seeded call resets the caller's streams."
 },
 "C173": {
  "status": "partial",
  "note": "proved for distinct step objects whose fit_transform agrees with fit and transform (the scikit-learn contract), of any number and with any behaviour, for parameters of any kind. Refuted without that: one object in two steps makes fit_transform(X) differ from fit(X).transform(X); and a TypeError raised inside a step's own fit is taken for a missing parameter, so the step is silently trained without the target."
 },
 "C174": {
  "status": "partial",
  "note": "proved for pushes of any positive weights, for removals of values other than the median of the moment, and without restriction when all weights are the same (so for the criterion without sample weights). Refuted for different weights: removing the median leaves a stale partial sum; the median of {1,3} is then reported as 1, a child's impurity is measured from the wrong constant, and k can point behind the last record (read outside of the records in use). Removing a record that is not there corrupts the median as well."
 },
 "C175": {
  "status": "partial",
  "note": "everything but the last part is proved: tracking_selection is not honoured for samples of at least a fifth of the population - the reservoir method runs, whose samples are not in random order (C175_tracking_ignored_refuted). Tracking selection ends exactly when the generator has produced enough distinct numbers (C175_tracking)."
 },
 "C176": {
  "status": "proved",
  "note": "Proved for the algorithm of the compiled tree module in exact arithmetic, with positive weight of the root. YLearn's own trees accept ccp_alpha but never call it (documented as not implemented). Where a split makes the impurity larger the path does not ascend (C176_worse_split_descends)."
 },
 "C177": {
  "status": "proved",
  "note": "Proved in exact arithmetic, with the drawn features and random numbers as arguments (how the features are drawn is not part of it)."
 },
 "C178": {
  "status": "proved",
  "note": "Proved in exact arithmetic for one output; the weights of the nodes must be positive for the range and for the average."
 },
 "C179": {
  "status": "proved",
  "note": "Proved in exact arithmetic (real numbers for the entropy)."
 },
 "C180": {
  "status": "proved",
  "note": "Proved in exact arithmetic. With several outcomes FriedmanMSE adds them up first, so that opposite differences cancel (C180_friedman_cancels_refuted); the claim is about one outcome."
 }
}