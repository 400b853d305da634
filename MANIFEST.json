{
 "claims": [
  {
   "property": "C01",
   "status": "proved",
   "theorems": [
    "YL.Props.C01_ancestors_exact",
    "YL.Props.C01_descendents_exact"
   ],
   "note": "Exact reflexive-transitive closure for every causation, cyclic or not."
  },
  {
   "property": "C02",
   "status": "proved",
   "theorems": [
    "YL.Props.C02_isDag_iff",
    "YL.Props.C02_topoOrder",
    "YL.Props.C02_topoOrder_omits_isolated"
   ],
   "note": "is_dag exact; topo_order is a topological order of the nodes that have an observed edge (C02_topoOrder_omits_isolated shows that others are absent)."
  },
  {
   "property": "C03",
   "status": "proved",
   "theorems": [
    "YL.Props.C03_latentArcs_exact",
    "YL.Props.C03_two_cycle_reported"
   ],
   "note": "Exact for acyclic causations; C03_two_cycle_reported: a directed two-cycle is reported as an arc."
  },
  {
   "property": "C04",
   "status": "proved",
   "theorems": [
    "YL.Props.C04_cComponents_partition",
    "YL.Props.C04_cComponents_declared"
   ],
   "note": "Partition of dag.nodes; for declared graphs the classes of the declared arcs."
  },
  {
   "property": "C05",
   "status": "partial",
   "theorems": [
    "YL.Props.C05_history_in_step_partial",
    "YL.Props.C05_reported_arcs",
    "YL.Props.C05_readd_desync",
    "YL.Props.C05_one_way_arc",
    "YL.Props.C05_add_nodes_in_place",
    "YL.Props.C05_add_edges_new_key"
   ],
   "note": "Refinement to an abstract graph for every history of legal edits. Violations proved: re-adding an edge, add_edge(observed=False), add_nodes in place, add_edges_from(new=True)."
  },
  {
   "property": "C06",
   "status": "proved",
   "theorems": [
    "YL.Props.C06_buildSubGraph_induced",
    "YL.Props.C06_buildSubGraph_rejects",
    "YL.Props.C06_repeated_parent_survives"
   ],
   "note": "Induced subgraph; a parent listed twice survives (C06_repeated_parent_survives) outside the stated hypotheses."
  },
  {
   "property": "C07",
   "status": "proved",
   "theorems": [
    "YL.Props.C07_removeOutgoing_exact",
    "YL.Props.C07_removeIncoming_exact",
    "YL.Props.C07_new_eq_in_place"
   ],
   "note": "Graphs in step without repeated parents, as the property says."
  },
  {
   "property": "C08",
   "status": "partial",
   "theorems": [
    "YL.Props.C08_explicit_faithful_partial",
    "YL.Props.C08_name_clash"
   ],
   "note": "All graphs that do not use the reserved names U0, U1, ...; C08_name_clash proves the violation otherwise."
  },
  {
   "property": "C09",
   "status": "partial",
   "theorems": [
    "YL.Props.C09_isDSeparated_exact",
    "YL.Props.C09_isolated_node"
   ],
   "note": "Exact textbook criterion whenever every mentioned node has an edge or arc; otherwise the call raises NodeNotFound (proved), so the unrestricted property fails."
  },
  {
   "property": "C10",
   "status": "proved",
   "theorems": [
    "YL.Props.C10_dsep_sound"
   ],
   "note": "Every discrete Bayesian network over the explicit diagram, any ordered field, no positivity needed."
  },
  {
   "property": "C100",
   "status": "proved",
   "theorems": [
    "YL.Props.C100_cut_gains",
    "YL.Props.C100_best_split",
    "YL.Props.C100_leaf_reason",
    "YL.Props.C100_default_splits_on",
    "YL.Props.C100_max_leaves",
    "YL.Props.C100_useless_splits_refuted"
   ],
   "note": "C100_best_split, C100_leaf_reason, C100_cut_gains, C100_max_leaves. C100_default_splits_on and C100_useless_splits_refuted: with the default min_impurity_decrease=0 splits without any gain are made, because a cut never loses."
  },
  {
   "property": "C101",
   "status": "proved",
   "theorems": [
    "YL.Props.C101_explanation",
    "YL.Props.C101_interpret"
   ],
   "note": "C101_explanation, C101_interpret (the text of the explanation is modelled as a record of node, covariate, value, sign and threshold)."
  },
  {
   "property": "C102",
   "status": "partial",
   "theorems": [
    "YL.Props.C102_regressors",
    "YL.Props.C102_clean_partial",
    "YL.Props.C102_valid_instruments",
    "YL.Props.C102_covariates_refuted"
   ],
   "note": "C102_valid_instruments proves it for a constant covariate basis; C102_clean_partial is the general form, whose orthogonality hypothesis is not implied by valid instruments once the covariate basis is not constant; C102_covariates_refuted shows noise-free data on which the answer is 2 instead of 1."
  },
  {
   "property": "C103",
   "status": "proved",
   "theorems": [
    "YL.Props.C103_contrasts",
    "YL.Props.C103_adjustment_cancels",
    "YL.Props.C103_same_covariates",
    "YL.Props.C103_labels",
    "YL.Props.C103_defaults",
    "YL.Props.C103_arms_per_row"
   ],
   "note": "All fitted objects, including those with an arbitrary second stage model; the second sentence for affine second stages and continuous treatments."
  },
  {
   "property": "C104",
   "status": "partial",
   "theorems": [
    "YL.Props.C104_needs_covariates",
    "YL.Props.C104_needs_bases",
    "YL.Props.C104_fit_succeeds",
    "YL.Props.C104_averages_refuted",
    "YL.Props.C104_counterfactual",
    "YL.Props.C104_counterfactual_needs_data",
    "YL.Props.C104_labels_refuted",
    "YL.Props.C104_nji_refuted",
    "YL.Props.C104_nji"
   ],
   "note": "Proved: fit succeeds with all bases, covariates and a continuous treatment; counterfactuals of a continuous treatment; effect_nji for several discrete treatments. Refuted by theorems: covariates and all bases are mandatory although optional in the signature, averages are never returned, counterfactuals need data and use raw labels for discrete treatments, effect_nji always fails for one discrete treatment and continuous treatments."
  },
  {
   "property": "C105",
   "status": "partial",
   "theorems": [
    "YL.Props.C105_score_continuous",
    "YL.Props.C105_score_discrete",
    "YL.Props.C105_nonneg",
    "YL.Props.C105_ranking_continuous",
    "YL.Props.C105_ranking_discrete",
    "YL.Props.C105_noise",
    "YL.Props.C105_needs_covariates",
    "YL.Props.C105_covariate_count",
    "YL.Props.C105_three_arms_refuted",
    "YL.Props.C105_contrast_refuted",
    "YL.Props.C105_order_refuted"
   ],
   "note": "Proved for continuous treatments with the default contrast of one unit and for discrete treatments of which the data contain two arms. Refuted by theorems: three arms (C105_three_arms_refuted: a wrong effect scores better than the true one), other contrasts of a continuous treatment (C105_contrast_refuted), covariates in another order (C105_order_refuted); estimators without covariates cannot be scored (C105_needs_covariates)."
  },
  {
   "property": "C106",
   "status": "proved",
   "theorems": [
    "YL.Props.C106_accepted",
    "YL.Props.C106_inner",
    "YL.Props.C106_depth",
    "YL.Props.C106_decide"
   ],
   "note": "For criterion policy_reg (the only one that can predict, C99). Exact arithmetic: ceil and floor of products are those of an ordered field, not of floats."
  },
  {
   "property": "C107",
   "status": "proved",
   "theorems": [
    "YL.Props.C107_penalty",
    "YL.Props.C107_penalty_golem",
    "YL.Props.C107_reconstruction",
    "YL.Props.C107_ranked",
    "YL.Props.C107_linear"
   ],
   "note": "Over the reals with the exact matrix exponential (floating point is idealised)."
  },
  {
   "property": "C108",
   "status": "partial",
   "theorems": [
    "YL.Props.C108_training",
    "YL.Props.C108_rho_max_refuted"
   ],
   "note": "Proved for rho_max > 1 and at least one epoch (C108_training); a limit of at most 1 always raises TypeError (C108_rho_max_refuted). NaN penalties are outside the model."
  },
  {
   "property": "C109",
   "status": "partial",
   "theorems": [
    "YL.Props.C109_causal_discovery",
    "YL.Props.C109_golem",
    "YL.Props.C109_golem_direction_refuted",
    "YL.Props.C109_dagma",
    "YL.Props.C109_dagma_direction_refuted",
    "YL.Props.C109_lags_refuted",
    "YL.Props.C109_one_lag"
   ],
   "note": "CausalDiscovery: full (C109_causal_discovery). Golem: acyclic and above the threshold (C109_golem) but the stronger direction is refuted (C109_golem_direction_refuted: weights are set to 1 before comparing). Dagma: the same two facts (C109_dagma, C109_dagma_direction_refuted). Several lags refuted (C109_lags_refuted: every lag matrix is applied to the values order steps back), one lag proved (C109_one_lag). Negative entries of exactly -threshold and threshold=None for Golem/Dagma are not covered."
  },
  {
   "property": "C11",
   "status": "partial",
   "theorems": [
    "YL.Props.C11_all_exact_partial"
   ],
   "note": "Whenever the call returns a list, it is exactly the list of admissible sets of observed nodes (textbook back-door criterion on the explicit diagram). Missing: the call may raise or return None instead of listing (C13_crash, C13_none_though_admissible)."
  },
  {
   "property": "C110",
   "status": "proved",
   "theorems": [
    "YL.Props.C110_get_params",
    "YL.Props.C110_round_trip",
    "YL.Props.C110_set_path",
    "YL.Props.C110_set_own",
    "YL.Props.C110_set_many",
    "YL.Props.C110_replace",
    "YL.Props.C110_seeds"
   ],
   "note": "get_params() succeeded is a hypothesis (acyclic nesting, every declared name kept as an attribute); C111 says what happens otherwise."
  },
  {
   "property": "C111",
   "status": "partial",
   "theorems": [
    "YL.Props.C111_unknown_name",
    "YL.Props.C111_plain_value",
    "YL.Props.C111_missing_attribute",
    "YL.Props.C111_classes_refuted",
    "YL.Props.C111_atomic_refuted"
   ],
   "note": "The errors are proved. Not true of the code: the parameters before the wrong name are already set (C111_atomic_refuted, exact effect in C111_unknown_name); SLearner and CausalForest can neither be read nor set (C111_classes_refuted)."
  },
  {
   "property": "C112",
   "status": "partial",
   "theorems": [
    "YL.Props.C112_fit_transform",
    "YL.Props.C112_first_come",
    "YL.Props.C112_every_column_once",
    "YL.Props.C112_names",
    "YL.Props.C112_output",
    "YL.Props.C112_names_refuted",
    "YL.Props.C112_tuple_refuted",
    "YL.Props.C112_repeated_refuted"
   ],
   "note": "Proved: first come, each column once, agreement of the two ways, names. Refuted by theorems: features given as tuples fail in fit_transform only; an integer or long lone label is renamed; a repeated label in one feature duplicates the column."
  },
  {
   "property": "C113",
   "status": "partial",
   "theorems": [
    "YL.Props.C113_fit",
    "YL.Props.C113_rows",
    "YL.Props.C113_transform",
    "YL.Props.C113_refit",
    "YL.Props.C113_refit_refuted",
    "YL.Props.C113_append_refuted"
   ],
   "note": "Proved: the kept columns, the rows, transform, append_drop_columns after a fit. Refuted: a second fit keeps the decisions of the first (C113_refit says exactly what it does, C113_refit_refuted is a witness), append_drop_columns before a fit always raises TypeError."
  },
  {
   "property": "C114",
   "status": "partial",
   "theorems": [
    "YL.Props.C114_selected",
    "YL.Props.C114_aligned_partial",
    "YL.Props.C114_aligned_refuted",
    "YL.Props.C114_long_refuted"
   ],
   "note": "Proved when columns were dropped or the order was kept. Refuted: with no column dropped and mixed column types the importances are reported in the order of the prepared data; a lone label of more than 64 characters is renamed and transform raises KeyError."
  },
  {
   "property": "C115",
   "status": "partial",
   "theorems": [
    "YL.Props.C115_meaning",
    "YL.Props.C115_normalised",
    "YL.Props.C115_total_depth_first",
    "YL.Props.C115_total_best_first",
    "YL.Props.C115_policy",
    "YL.Props.C115_forest",
    "YL.Props.C115_ct_forest_refuted",
    "YL.Props.C115_causal_tree_refuted",
    "YL.Props.C115_grf_refuted"
   ],
   "note": "Meaning, total and normalisation proved for every tree of both builders; nonnegativity proved for PolicyTree (policy_reg), refuted for CausalTree and GrfTree; forest exact, refuted for CTCausalForest. weighted_n_node_samples is a parameter of the model (the weight at the node), not a field of its nodes."
  },
  {
   "property": "C116",
   "status": "partial",
   "theorems": [
    "YL.Props.C116_mean",
    "YL.Props.C116_rowwise",
    "YL.Props.C116_default_data_refuted",
    "YL.Props.C116_explicit_arms",
    "YL.Props.C116_missing_value_refuted",
    "YL.Props.C116_default_arms",
    "YL.Props.C116_trees",
    "YL.Props.C116_same_comparison",
    "YL.Props.C116_default_refuted"
   ],
   "note": "Proved for explicit arms and for the averaging; refuted for the defaults, for estimate() and for apply()."
  },
  {
   "property": "C117",
   "status": "partial",
   "theorems": [
    "YL.Props.C117_second_stage",
    "YL.Props.C117_nothing_lost",
    "YL.Props.C117_contrasts",
    "YL.Props.C117_shrinks_refuted",
    "YL.Props.C117_continuous",
    "YL.Props.C117_transformer_refuted",
    "YL.Props.C117_transformer_example_refuted"
   ],
   "note": "Column meaning, no information lost and contrasts proved; shrinkage and the missing covariate transformer refuted."
  },
  {
   "property": "C118",
   "status": "partial",
   "theorems": [
    "YL.Props.C118_individual",
    "YL.Props.C118_default_control",
    "YL.Props.C118_wrong_length",
    "YL.Props.C118_agrees",
    "YL.Props.C118_repeated_labels_refuted",
    "YL.Props.C118_continuous_rowwise",
    "YL.Props.C118_continuous_refuted"
   ],
   "note": "Discrete treatments with distinct index labels proved (C118_individual, C118_default_control, C118_agrees). Refuted: rows sharing a label get the answer of the first one or KeyError (C118_repeated_labels_refuted); continuous treatments with the default or a numeric control give n*n numbers (C118_continuous_refuted), only row-wise controls are right (C118_continuous_rowwise)."
  },
  {
   "property": "C119",
   "status": "partial",
   "theorems": [
    "YL.Props.C119_both",
    "YL.Props.C119_rowwise",
    "YL.Props.C119_one_array",
    "YL.Props.C119_treat_only",
    "YL.Props.C119_control_only",
    "YL.Props.C119_default",
    "YL.Props.C119_history",
    "YL.Props.C119_history_refuted",
    "YL.Props.C119_history_example_refuted",
    "YL.Props.C119_name_refuted",
    "YL.Props.C119_names"
   ],
   "note": "Proved for DoubleML (the default) for all forms of arms and every history except a call without arms (C119_history); refuted for that call (C119_history_refuted: it repeats the treated values of the last call, n*m numbers after whatif) and for one name as treatment (C119_name_refuted: iterated by characters)."
  },
  {
   "property": "C12",
   "status": "proved",
   "theorems": [
    "YL.Props.C12_minimal_smallest"
   ],
   "note": "Any set iteration order; smallest among all admissible sets of graph nodes."
  },
  {
   "property": "C120",
   "status": "proved",
   "theorems": [
    "YL.Props.C120_summary",
    "YL.Props.C120_empty",
    "YL.Props.C120_linear"
   ],
   "note": "Real arithmetic without rounding."
  },
  {
   "property": "C121",
   "status": "partial",
   "theorems": [
    "YL.Props.C121_discrete",
    "YL.Props.C121_continuous",
    "YL.Props.C121_no_data_refuted",
    "YL.Props.C121_individual_refuted",
    "YL.Props.C121_length"
   ],
   "note": "Proved for causal_effect on given data (C121_discrete, C121_continuous) and continuous whatif (C63_continuous_cost). Refuted: ignored by individual_causal_effect (C121_individual_refuted), ignored or called without the row when no data are given (C121_no_data_refuted), discrete whatif fails (C63_cost_refuted)."
  },
  {
   "property": "C122",
   "status": "partial",
   "theorems": [
    "YL.Props.C122_columns",
    "YL.Props.C122_default_control",
    "YL.Props.C122_too_many",
    "YL.Props.C122_labels",
    "YL.Props.C122_labels_refuted"
   ],
   "note": "Columns, control, default control and the refusal are proved for learners whose own table has one zero column (C122_columns, C122_default_control, C122_too_many). Distinct labels proved for classes printed differently without underscores (C122_labels), refuted otherwise (C122_labels_refuted). The cost function on the table and discrete outcomes are not covered."
  },
  {
   "property": "C123",
   "status": "partial",
   "theorems": [
    "YL.Props.C123_frame",
    "YL.Props.C123_defaults",
    "YL.Props.C123_score",
    "YL.Props.C123_target_refuted"
   ],
   "note": "Frame, default arms and score proved for continuous outcomes (C123_frame, C123_defaults, C123_score). Refuted for a discrete outcome: the curve is built from class codes, whatever target_outcome is asked for (C123_target_refuted)."
  },
  {
   "property": "C124",
   "status": "partial",
   "theorems": [
    "YL.Props.C124_auto",
    "YL.Props.C124_auto_refuted",
    "YL.Props.C124_meta",
    "YL.Props.C124_dr_refuted",
    "YL.Props.C124_folds"
   ],
   "note": "Exact characterisation proved (C124_auto); refuted for a continuous treatment with a discrete outcome and no instrument (C124_auto_refuted) and for the doubly robust factory called by Why (C124_dr_refuted)."
  },
  {
   "property": "C125",
   "status": "partial",
   "theorems": [
    "YL.Props.C125_combined",
    "YL.Props.C125_combined_outcomes",
    "YL.Props.C125_separate",
    "YL.Props.C125_separate_refuted",
    "YL.Props.C125_separate_outcomes",
    "YL.Props.C125_dml",
    "YL.Props.C125_dr"
   ],
   "note": "Proved for combined treatments, DoubleML, DoublyRobust and for separate treatments with a discrete outcome. For separate treatments with a continuous outcome C125_separate characterises when it holds (one other treatment value or the degenerate single row); refuted otherwise (C125_separate_refuted): treatments are taken for outcomes after squeeze."
  },
  {
   "property": "C126",
   "status": "partial",
   "theorems": [
    "YL.Props.C126_tlearner",
    "YL.Props.C126_tlearner_unseen",
    "YL.Props.C126_tlearner_sum_zero",
    "YL.Props.C126_tlearner_refuted",
    "YL.Props.C126_xlearner",
    "YL.Props.C126_xlearner_estimate",
    "YL.Props.C126_xlearner_unseen",
    "YL.Props.C126_xlearner_single_refuted"
   ],
   "note": "Proved when both arms show the same outcomes (C126_tlearner, C126_tlearner_sum_zero, C126_xlearner). Refuted otherwise: TLearner compares columns of different outcomes (C126_tlearner_refuted) and refuses outcomes unseen in the treated arm (C126_tlearner_unseen); XLearner.fit fails (C126_xlearner_unseen) or broadcasts a single column (C126_xlearner_single_refuted)."
  },
  {
   "property": "C127",
   "status": "partial",
   "theorems": [
    "YL.Props.C127_separate",
    "YL.Props.C127_discrete_refuted"
   ],
   "note": "Proved for continuous outcomes (C127_separate). Refuted for discrete outcomes: estimate raises AttributeError (C127_discrete_refuted)."
  },
  {
   "property": "C128",
   "status": "partial",
   "theorems": [
    "YL.Props.C128_links",
    "YL.Props.C128_refuted",
    "YL.Props.C128_discovery_refuted"
   ],
   "note": "C128_links: the right links without treatment->outcome, all in the opposite direction. Refuted: C128_refuted (every role becomes an effect of treatments and outcome, no path from treatment to outcome), C128_discovery_refuted (TypeError: matrix2dict has no parameter threshold)."
  },
  {
   "property": "C129",
   "status": "partial",
   "theorems": [
    "YL.Props.C129_dfs",
    "YL.Props.C129_dfs_refuted",
    "YL.Props.C129_no_instruments",
    "YL.Props.C129_simple",
    "YL.Props.C129_instruments",
    "YL.Props.C129_single",
    "YL.Props.C129_roots_refuted",
    "YL.Props.C129_tuples_refuted",
    "YL.Props.C129_instrument_refuted",
    "YL.Props.C129_chained_refuted"
   ],
   "note": "dfs: C129_dfs, exact (valid iff nothing lies between treatment and outcome). With a causal model and backdoor/simple: exact covariates (C129_simple), valid for one treatment with a cause (C129_single). Refuted: mediators (C129_dfs_refuted), instruments are never reported when the treatment causes the outcome (C129_no_instruments, C129_instrument_refuted), NodeNotFound for treatments without causes (C129_roots_refuted), tuples instead of names for all/minimal (C129_tuples_refuted), chained treatments (C129_chained_refuted)."
  },
  {
   "property": "C13",
   "status": "partial",
   "theorems": [
    "YL.Props.C13_error_only_if_none",
    "YL.Props.C13_returns_partial",
    "YL.Props.C13_none_though_admissible",
    "YL.Props.C13_crash"
   ],
   "note": "IdentificationError only if nothing admissible exists (full); an answer is guaranteed under side conditions; violations C13_none_though_admissible and C13_crash are proved."
  },
  {
   "property": "C130",
   "status": "partial",
   "theorems": [
    "YL.Props.C130_node_dict",
    "YL.Props.C130_means_consistent",
    "YL.Props.C130_prediction_is_leaf_mean",
    "YL.Props.C130_calibrated",
    "YL.Props.C130_explanation",
    "YL.Props.C130_interpret_frame",
    "YL.Props.C130_predict",
    "YL.Props.C130_predict_width",
    "YL.Props.C130_predict_refuted"
   ],
   "note": "Everything is proved except predict/decide on data frames, which is false: the frame is handed to the tree without selecting the covariates (ValueError for another number of columns, wrong answers for another order); proved for frames that consist of the covariates in order. sklearn's DecisionTreeRegressor is a contract (proper tree, no empty node, leaf value = mean), float32 rounding is not modelled."
  },
  {
   "property": "C131",
   "status": "partial",
   "theorems": [
    "YL.Props.C131_region",
    "YL.Props.C131_penalty",
    "YL.Props.C131_h",
    "YL.Props.C131_h_refuted",
    "YL.Props.C131_gradients",
    "YL.Props.C131_h_gradient_refuted",
    "YL.Props.C131_direction",
    "YL.Props.C131_loss",
    "YL.Props.C131_golem",
    "YL.Props.C131_equal_variances_refuted"
   ],
   "note": "C131_region, C131_penalty, C131_gradients, C131_direction, C131_loss, C131_golem hold for all matrices over the reals (exact arithmetic instead of floats). C131_h relates the value the code computes to the penalty; C131_h_refuted, C131_h_gradient_refuted and C131_equal_variances_refuted are the negative findings: wrong sign of h, gradient opposite to the value, ignored argument."
  },
  {
   "property": "C132",
   "status": "partial",
   "theorems": [
    "YL.Props.C132_minimize",
    "YL.Props.C132_train_ends",
    "YL.Props.C132_s",
    "YL.Props.C132_history_refuted",
    "YL.Props.C132_arguments_refuted"
   ],
   "note": "C132_minimize, C132_train_ends and C132_s for all inputs over exact reals. C132_history_refuted: a second training of the same object on the same data gives other weights because self.s keeps the increments. C132_arguments_refuted: lr, T, warm_iter, s, max_iter of the call and lambdaa of the constructor have no effect."
  },
  {
   "property": "C133",
   "status": "partial",
   "theorems": [
    "YL.Props.C133_er_dag",
    "YL.Props.C133_er_orientation",
    "YL.Props.C133_other_dag",
    "YL.Props.C133_simulate_er_dag_refuted",
    "YL.Props.C133_parameter",
    "YL.Props.C133_sem",
    "YL.Props.C133_sem_unique",
    "YL.Props.C133_population",
    "YL.Props.C133_nonlinear",
    "YL.Props.C133_lags"
   ],
   "note": "All parts proved for every draw over exact reals; C133_simulate_er_dag_refuted is the negative finding (np.tril with k=1 keeps two-cycles). C133_lags shows that the noise is the sum of one draw per lag."
  },
  {
   "property": "C134",
   "status": "partial",
   "theorems": [
    "YL.Props.C134_rates",
    "YL.Props.C134_shd",
    "YL.Props.C134_shd_metric",
    "YL.Props.C134_fpr_refuted",
    "YL.Props.C134_rates_undirected",
    "YL.Props.C134_shd_undirected",
    "YL.Props.C134_twice_refuted"
   ],
   "note": "C134_rates_undirected, C134_shd_undirected for all estimates with entries 0, 1, -1; C134_rates, C134_shd, C134_shd_metric for 0/1 estimates. Refuted parts: the false positive rate of a fully reversed complete graph on three vertices is 3 (C134_fpr_refuted); the checks of the estimate are commented out, so an undirected edge listed in both directions gives a true positive rate of 2 (C134_twice_refuted)."
  },
  {
   "property": "C135",
   "status": "partial",
   "theorems": [
    "YL.Props.C135_fit_iff",
    "YL.Props.C135_treatment_rows",
    "YL.Props.C135_outcome_rows",
    "YL.Props.C135_sample_n_refuted",
    "YL.Props.C135_outcome_rows_discrete",
    "YL.Props.C135_mixture_prediction",
    "YL.Props.C135_batches",
    "YL.Props.C135_label_first_column",
    "YL.Props.C135_second_treatment_refuted"
   ],
   "note": "Proved for every input over exact rationals with networks as functions; negative parts: C135_sample_n_refuted (any two positive numbers of draws train identically, because the dataset has as many items as outcomes), C135_second_treatment_refuted, and the conditions beyond DivReasonable in C135_fit_iff. The optimisation of network weights is not modelled."
  },
  {
   "property": "C136",
   "status": "partial",
   "theorems": [
    "YL.Props.C136_discrete",
    "YL.Props.C136_unknown_category_refuted",
    "YL.Props.C136_rows_needed",
    "YL.Props.C136_control_refuted",
    "YL.Props.C136_cate_refuted",
    "YL.Props.C136_continuous",
    "YL.Props.C136_linear_refuted",
    "YL.Props.C136_marginal_refuted",
    "YL.Props.C136_discrete_outcome_refuted",
    "YL.Props.C136_not_fitted",
    "YL.Props.C136_effect_nji_refuted",
    "YL.Props.C136_wrapper_frame",
    "YL.Props.C136_mixture",
    "YL.Props.C136_density_pos",
    "YL.Props.C136_loss",
    "YL.Props.C136_loss_single",
    "YL.Props.C136_loss_refuted",
    "YL.Props.C136_logits_refuted"
   ],
   "note": "Positive part C136_discrete, C136_mixture, C136_density_pos, C136_loss, C136_loss_single. Findings: C136_continuous/C136_linear_refuted (torch.eye: the effect of a linear network is divided by the number of rows), C136_rows_needed, C136_unknown_category_refuted, C136_control_refuted, C136_cate_refuted, C136_marginal_refuted, C136_discrete_outcome_refuted, C136_effect_nji_refuted, C136_wrapper_frame, C136_loss_refuted (logsumexp over the batch is not the likelihood), C136_logits_refuted."
  },
  {
   "property": "C137",
   "status": "proved",
   "theorems": [
    "YL.Props.C137_store_restored",
    "YL.Props.C137_own_parameters",
    "YL.Props.C137_refused",
    "YL.Props.C137_noninterference",
    "YL.Props.C137_failed_call_frame",
    "YL.Props.C137_refit_starts_from_old",
    "YL.Props.C137_refit_refuted",
    "YL.Props.C137_no_resume_refuted"
   ],
   "note": "Method bodies (Pyro training and sampling) are arbitrary functions of the store; the theorems are about the discipline around them. Threads are not modelled."
  },
  {
   "property": "C138",
   "status": "proved",
   "theorems": [
    "YL.Props.C138_dict_exact",
    "YL.Props.C138_pgm",
    "YL.Props.C138_pgm_refused",
    "YL.Props.C138_pgm_dict",
    "YL.Props.C138_pgm_array",
    "YL.Props.C138_pgm_order_refuted",
    "YL.Props.C138_gcastle",
    "YL.Props.C138_threshold_refuted",
    "YL.Props.C138_learner_array",
    "YL.Props.C138_learner_frame_refuted"
   ],
   "note": "The learners themselves (gCastle, pgmpy) are arbitrary functions; pandas alignment is modelled as outer join with sorted union."
  },
  {
   "property": "C139",
   "status": "proved",
   "theorems": [
    "YL.Props.C139_fresh",
    "YL.Props.C139_without_treatment",
    "YL.Props.C139_stale_refuted"
   ],
   "note": "Discovery is an arbitrary deterministic function of the data."
  },
  {
   "property": "C14",
   "status": "partial",
   "theorems": [
    "YL.Props.C14_simple_admissible_partial",
    "YL.Props.C14_latent_arc",
    "YL.Props.C14_chained_treatments"
   ],
   "note": "Holds if no latent arc touches a treatment and parents are neither outcomes nor descendants of treatments; C14_latent_arc and C14_chained_treatments prove the violations."
  },
  {
   "property": "C140",
   "status": "partial",
   "theorems": [
    "YL.Props.C140_id_complete",
    "YL.Props.C140_identifiable_answered",
    "YL.Props.C140_disjoint_arcs_exact",
    "YL.Props.C140_backdoor_answered",
    "YL.Props.C140_frontdoor_answered",
    "YL.Props.C140_identifiable_crash_refuted",
    "YL.Props.C140_single_outcome_crash_refuted"
   ],
   "note": "C140_id_complete proves that every IdentificationError is justified (explicit pair of models built from a hedge, K = rationals, values Bool x Bool). C140_identifiable_answered, C140_backdoor_answered, C140_frontdoor_answered, C140_disjoint_arcs_exact are the consequences. The clause that an identifiable effect is always answered is refuted: C140_identifiable_crash_refuted, C140_single_outcome_crash_refuted (ValueError)."
  },
  {
   "property": "C141",
   "status": "proved",
   "theorems": [
    "YL.Props.C141_error_identity",
    "YL.Props.C141_treatment_model_suffices",
    "YL.Props.C141_constant_effect",
    "YL.Props.C141_second_order",
    "YL.Props.C141_outcome_model_not_enough"
   ],
   "note": "C141_error_identity (general), C141_treatment_model_suffices, C141_constant_effect, C141_second_order; C141_outcome_model_not_enough shows the asymmetry. leastSquares_exists shows such a final model exists over ordered fields. Exact arithmetic, no rounding; expectations are empirical sums."
  },
  {
   "property": "C142",
   "status": "proved",
   "theorems": [
    "YL.Props.C142_tlearner",
    "YL.Props.C142_xlearner",
    "YL.Props.C142_slearner",
    "YL.Props.C142_doubly_robust",
    "YL.Props.C142_population_exists",
    "YL.Props.C142_pipeline",
    "YL.Props.C142_adjustment_matters"
   ],
   "note": "C142_pipeline composes the models of identify, estimate and the learners; C142_tlearner, C142_slearner, C142_xlearner, C142_doubly_robust hold for any back-door set. C142_population_exists: every rational model has a population (every possible arm at least twice). C142_adjustment_matters: without the back-door set the answer differs. Combined treatments (the default); sampling error is outside the statement."
  },
  {
   "property": "C143",
   "status": "partial",
   "theorems": [
    "YL.Props.C143_exact",
    "YL.Props.C143_consistent",
    "YL.Props.C143_bias",
    "YL.Props.C143_error_bound",
    "YL.Props.C143_causal",
    "YL.Props.C143_causal_overlap",
    "YL.Props.C143_no_overlap_refuted",
    "YL.Props.C143_no_overlap_witness",
    "YL.Props.C143_labels_refuted",
    "YL.Props.C143_one_class",
    "YL.Props.C143_name_refuted"
   ],
   "note": "Proved: the exact value of the average for every eps (C143_exact), the exact bias and its bound, and the causal statement (C143_causal, C143_causal_overlap) through the back-door machinery of C142. False beyond that: a stratum without treated rows silently counts as if its treated mean were 1 (C143_no_overlap_refuted/witness), labels other than 0/1 give another number (C143_labels_refuted), one class only raises IndexError (C143_one_class), and the propensity model cannot be chosen by its documented name (C143_name_refuted). The documented estimate* methods do not exist in the class."
  },
  {
   "property": "C144",
   "status": "proved",
   "theorems": [
    "YL.Props.C144_any_basis",
    "YL.Props.C144_iv_pipeline",
    "YL.Props.C144_interventions_exist",
    "YL.Props.C144_confounding_matters"
   ],
   "note": "C144_iv_pipeline: linear models, uncorrelated noise, bases of degree 1. C144_any_basis: arbitrary mechanisms, independent noise, any bases with a constant covariate basis (with the default covariate basis the estimate need not be the effect: C102_covariates_refuted). C144_interventions_exist: the interventional values exist; fitsLS_exists: least squares fits exist. Worked example with a quadratic effect and degree-2 bases beside the theorem."
  },
  {
   "property": "C145",
   "status": "partial",
   "theorems": [
    "YL.Props.C145_fit_numbers",
    "YL.Props.C145_object_numbers",
    "YL.Props.C145_object_texts",
    "YL.Props.C145_same_data",
    "YL.Props.C145_text_stays_text",
    "YL.Props.C145_numbers_stay_numbers",
    "YL.Props.C145_integers_kept_iff",
    "YL.Props.C145_missing_kept",
    "YL.Props.C145_reduce_float",
    "YL.Props.C145_distinct_refuted",
    "YL.Props.C145_single_refuted",
    "YL.Props.C145_missing_refuted",
    "YL.Props.C145_other_rows_refuted",
    "YL.Props.C145_wrap_refuted",
    "YL.Props.C145_reserved_refuted",
    "YL.Props.C145_reduce_refuted",
    "YL.Props.C145_fit_reserved"
   ],
   "note": "Proved: numbers and missing values kept by the fit, when an object column becomes numbers, transform of the same data, text stays text, numeric later data. Refuted with witnesses: missing values in text columns become the text 'nan', one unreadable cell in later data turns the numbers of all rows into texts, later integers outside the fitted range wrap around silently under reduce_mem_usage with int_convert_to=None, transform truncates a reserved column that was integer in the fit, default options merge integers above 2^53, reduce_mem_usage can enlarge a column. Rounding, float(), int() and str() are parameters."
  },
  {
   "property": "C146",
   "status": "partial",
   "theorems": [
    "YL.Props.C146_score_is_mean",
    "YL.Props.C146_nonneg",
    "YL.Props.C146_instrument_refuted",
    "YL.Props.C146_covariate_needed",
    "YL.Props.C146_target_ignored_refuted",
    "YL.Props.C146_uplift",
    "YL.Props.C146_unknown_scorer_refuted"
   ],
   "note": "Proved: the average, the codes, nonnegativity, dispatch. Refuted: objects fitted with instruments cannot be scored (RLoss.fit has no parameter instrument, TypeError always), the target outcome has no influence, unknown scorer names mean R-loss. Fitting the scorer and the uplift score are parameters here (C105, C93)."
  },
  {
   "property": "C147",
   "status": "proved",
   "theorems": [
    "YL.Props.C147_fit",
    "YL.Props.C147_effect",
    "YL.Props.C147_causal_effect",
    "YL.Props.C147_causal_effect_default",
    "YL.Props.C147_discovery",
    "YL.Props.C147_ate",
    "YL.Props.C147_missing_combination_refuted",
    "YL.Props.C147_same_arms_refuted",
    "YL.Props.C147_no_columns"
   ],
   "note": "The default estimator (PermutedTLearner) is modelled with its label encoders, pairs and dictionary. Findings: fit needs all combinations of every two treatments even if combined effects are never asked for (C147_missing_combination_refuted), and comparing a value with itself raises ValueError (C147_same_arms_refuted). Sampling error, discrete outcomes and instruments are not covered. The exchange of columns of C163 does not matter here: adjustment and covariates are used together. C147_discovery: the same with roles found by discovery."
  },
  {
   "property": "C148",
   "status": "proved",
   "theorems": [
    "YL.Props.C148_density",
    "YL.Props.C148_profile_equal",
    "YL.Props.C148_profile",
    "YL.Props.C148_maximum_likelihood",
    "YL.Props.C148_maximum_likelihood_each",
    "YL.Props.C148_self_loops",
    "YL.Props.C148_truth",
    "YL.Props.C148_scaling_refuted",
    "YL.Props.C148_uncentred_refuted",
    "YL.Props.C148_epoch",
    "YL.Props.C148_reach",
    "YL.Props.C148_short_training",
    "YL.Props.C148_dygolem_lags",
    "YL.Props.C148_dygolem_variances_refuted",
    "YL.Props.C148_dygolem_return_dict_refuted"
   ],
   "note": "C148_density ties the specification to the law of the solution of x = xW + e (pushforward of the product Gaussian); C148_profile_equal / C148_profile / C148_maximum_likelihood(_each) give optimality, C148_truth the unique true minimiser (spectral argument, no bound on the size), C148_self_loops an invariance, C148_epoch / C148_reach / C148_short_training / C148_dygolem_lags the reach of the training. Reals instead of floats; the gradient is an arbitrary function; convergence of the training is not claimed. _refuted: default scaling reverses an edge, independent coins get an edge, Dygolem's variances and return_dict."
  },
  {
   "property": "C149",
   "status": "proved",
   "theorems": [
    "YL.Props.C149_dml_pipeline",
    "YL.Props.C149_linear_markov",
    "YL.Props.C149_adjustment_matters"
   ],
   "note": "C149_linear_markov is the fact about d-separation behind it (residuals on a separating set are uncorrelated, also with constant or latent variables). Uncorrelated noise in the sample is an assumption about the data, as in C144; with a finite random sample it holds only approximately. cf_fold = 1 (the default). C149_adjustment_matters: on the data of the example the answer without adjustment is 3 instead of 2."
  },
  {
   "property": "C15",
   "status": "partial",
   "theorems": [
    "YL.Props.C15_backdoor_expression",
    "YL.Props.C15_simple_expression_partial"
   ],
   "note": "all/minimal: every diagram and every discrete model with overlap (full). simple: under the side conditions of C14 (C15_simple_expression_partial)."
  },
  {
   "property": "C150",
   "status": "partial",
   "theorems": [
    "YL.Props.C150_policy",
    "YL.Props.C150_returns",
    "YL.Props.C150_no_covariates_refuted",
    "YL.Props.C150_default_treatment",
    "YL.Props.C150_too_many",
    "YL.Props.C150_mixed_refuted"
   ],
   "note": "Proved (C150_policy, C150_returns, C150_default_treatment, C150_too_many) for fitted objects with covariates and a preprocessor that keeps the order of the columns (see C163: texts, truth values, numbers); false without covariates (C150_no_covariates_refuted) and when the order changes: the tree is then grown from columns under exchanged names and applied to the right ones, and the advice follows the wrong variable (C150_mixed_refuted)."
  },
  {
   "property": "C151",
   "status": "partial",
   "theorems": [
    "YL.Props.C151_scale",
    "YL.Props.C151_units",
    "YL.Props.C151_objective",
    "YL.Props.C151_two",
    "YL.Props.C151_two_result",
    "YL.Props.C151_tie",
    "YL.Props.C151_standardised",
    "YL.Props.C151_direction_refuted",
    "YL.Props.C151_units_unscaled_refuted",
    "YL.Props.C151_hidden",
    "YL.Props.C151_hidden_loss_refuted",
    "YL.Props.C151_truth"
   ],
   "note": "Proved: C151_scale, C151_units, C151_objective, C151_truth (any number of columns), C151_two/C151_two_result (direction = order of variances), C151_tie, C151_standardised, C151_hidden. Refuted with witnesses: that the default settings find the direction of a linear effect (C151_direction_refuted), unit independence without scaling (C151_units_unscaled_refuted), that hidden layers can be fitted (C151_hidden_loss_refuted: A keeps its layers in a plain list, so they are no parameters of the module). The optimiser is arbitrary; that LBFGS reaches the best parameters is not claimed."
  },
  {
   "property": "C152",
   "status": "partial",
   "theorems": [
    "YL.Props.C152_probabilities",
    "YL.Props.C152_root",
    "YL.Props.C152_root_exact",
    "YL.Props.C152_linear",
    "YL.Props.C152_linear_sharp",
    "YL.Props.C152_first_class_refuted",
    "YL.Props.C152_mlp",
    "YL.Props.C152_effect",
    "YL.Props.C152_copy_refuted",
    "YL.Props.C152_normal"
   ],
   "note": "Proved: C152_probabilities, C152_root, C152_root_exact, C152_linear, C152_linear_sharp, C152_mlp, C152_effect, C152_normal. Refuted with witnesses: that a categorical node can learn its distribution given its parents (C152_first_class_refuted: uniform whenever all parents take the first class; C152_copy_refuted: a deterministic copy gets an effect below 0.232). Cause: the logits are rows of a simplex times the class codes, without bias. Pyro's inference is not modelled: the weights are any point of the support."
  },
  {
   "property": "C153",
   "status": "partial",
   "theorems": [
    "YL.Props.C153_guide",
    "YL.Props.C153_distinct",
    "YL.Props.C153_auto",
    "YL.Props.C153_kinds",
    "YL.Props.C153_underscore_refuted",
    "YL.Props.C153_clash_refuted",
    "YL.Props.C153_cache",
    "YL.Props.C153_options_refuted"
   ],
   "note": "Proved: C153_guide, C153_distinct, C153_auto, C153_kinds, C153_cache. Refuted with witnesses: that the kind of a node decides how its weights are learned (C153_underscore_refuted: names are cut at the first underscore), distinct sites for arbitrary names (C153_clash_refuted), that options of MiNormal[MLP, options] are used (C153_options_refuted: the cache ignores options)."
  },
  {
   "property": "C154",
   "status": "partial",
   "theorems": [
    "YL.Props.C154_penalty_gradient",
    "YL.Props.C154_loss_gradient",
    "YL.Props.C154_gradient",
    "YL.Props.C154_doubled",
    "YL.Props.C154_threshold",
    "YL.Props.C154_defaults",
    "YL.Props.C154_sharp",
    "YL.Props.C154_six_refuted",
    "YL.Props.C154_result",
    "YL.Props.C154_no_loops",
    "YL.Props.C154_centred",
    "YL.Props.C154_errors",
    "YL.Props.C154_causal_discovery",
    "YL.Props.C154_default_refuted"
   ],
   "note": "Proved: C154_gradient (with C154_loss_gradient, C154_penalty_gradient), C154_centred, C154_doubled, C154_result, C154_errors, C154_no_loops, C154_threshold, C154_sharp, C154_defaults (up to five variables), C154_causal_discovery. Refuted with witnesses: an acyclic result within the tolerance for six variables (C154_six_refuted: six weights 0.3 in a circle have a penalty below 1e-8), that with CausalDiscovery's defaults (1e-6, 0.01) trimming removes nothing above the threshold (C154_default_refuted). Exact real arithmetic; the optimiser is arbitrary."
  },
  {
   "property": "C155",
   "status": "partial",
   "theorems": [
    "YL.Props.C155_palette",
    "YL.Props.C155_palette_refuted",
    "YL.Props.C155_boxes",
    "YL.Props.C155_read",
    "YL.Props.C155_channels",
    "YL.Props.C155_cate",
    "YL.Props.C155_policy_best",
    "YL.Props.C155_policy_equal",
    "YL.Props.C155_policy_tie_refuted",
    "YL.Props.C155_cate_plot",
    "YL.Props.C155_policy_plot",
    "YL.Props.C155_policy_read",
    "YL.Props.C155_fitted",
    "YL.Props.C155_lines",
    "YL.Props.C155_lines_refuted",
    "YL.Props.C155_plot_refuted"
   ],
   "note": "Proved: C155_boxes, C155_read, C155_palette, C155_channels, C155_cate, C155_cate_plot, C155_policy_best, C155_policy_equal, C155_policy_plot (the exact condition), C155_policy_read, C155_fitted, C155_lines. Refuted with witnesses: that every policy can be plotted (C155_policy_tie_refuted, C155_plot_refuted: two equally good treatments and a worse third one give the intensity 0/0 and a ValueError with the default filled=True), different colours beyond 360 treatments (C155_palette_refuted), that a box lists all treatments (C155_lines_refuted: too few names drop values). Positions, fonts and sklearn's node text are not modelled; arithmetic is exact."
  },
  {
   "property": "C156",
   "status": "partial",
   "theorems": [
    "YL.Props.C156_outputs",
    "YL.Props.C156_mixture",
    "YL.Props.C156_density",
    "YL.Props.C156_sampling",
    "YL.Props.C156_mean",
    "YL.Props.C156_spread",
    "YL.Props.C156_variance_refuted",
    "YL.Props.C156_marginal",
    "YL.Props.C156_density_bounded",
    "YL.Props.C156_loss_bounded",
    "YL.Props.C156_methods_refuted",
    "YL.Props.C156_layout",
    "YL.Props.C156_joint_refuted"
   ],
   "note": "Proved over the reals for arbitrary weights, with the noise of torch.distributions written out (a categorical component and independent standard normals). Refuted: the third output is documented as the variance, but it is the standard deviation (C156_variance_refuted: equal only when it is one); the joint density is not the product of the coordinate densities mixture_density returns (C156_joint_refuted); predict_cdf, mixture_density(torch_D=True) and prod_prob never return (C156_methods_refuted). Not modelled: the optimiser and floating point."
  },
  {
   "property": "C157",
   "status": "partial",
   "theorems": [
    "YL.Props.C157_structural_refuted",
    "YL.Props.C157_attenuation",
    "YL.Props.C157_linear",
    "YL.Props.C157_linear_refuted",
    "YL.Props.C157_fifth_refuted",
    "YL.Props.C157_discrete",
    "YL.Props.C157_discrete_unique"
   ],
   "note": "Discrete treatments: proved (C157_discrete, C157_discrete_unique). Continuous treatments: refuted. Training compares the outcome with the network at ONE draw per row instead of its mean over draws, so the structural function minimises the expected loss, even among its own multiples, exactly when the treatment has no effect (C157_structural_refuted); the best multiple is below one (C157_attenuation); for a linear effect every minimising affine function has slope b*S/(S+V), strictly closer to zero than b (C157_linear, C157_linear_refuted); with a perfect instrument and network and true slope one the minimiser has slope 1/5 (C157_fifth_refuted). The optimiser is not modelled."
  },
  {
   "property": "C158",
   "status": "partial",
   "theorems": [
    "YL.Props.C158_accepts",
    "YL.Props.C158_failed_fit",
    "YL.Props.C158_training_data",
    "YL.Props.C158_tlearner",
    "YL.Props.C158_xlearner",
    "YL.Props.C158_slearner",
    "YL.Props.C158_columns",
    "YL.Props.C158_split",
    "YL.Props.C158_relabel",
    "YL.Props.C158_row_order",
    "YL.Props.C158_leak_refuted",
    "YL.Props.C158_failed_fit_refuted"
   ],
   "note": "Proved: exact outcome of every call of fit (C158_accepts), end-to-end characterisation of T, X, S from named cells, independence of names/order/other columns (C158_columns), split (C158_split), labels (C158_relabel), row order (C158_row_order), training data (C158_training_data), failed calls (C158_failed_fit). Partial because two parts are false of the code: C158_leak_refuted (outcome accepted as adjustment variable; all effects zero) and C158_failed_fit_refuted (a fit that raises KeyError silently redirects the old models to the columns of the failed call). One outcome column, combined_treatment=True; the state after an exception inside training is not modelled."
  },
  {
   "property": "C159",
   "status": "partial",
   "theorems": [
    "YL.Props.C159_chain",
    "YL.Props.C159_nothing",
    "YL.Props.C159_raises_refuted",
    "YL.Props.C159_returns",
    "YL.Props.C159_pair_refuted",
    "YL.Props.C159_column_refuted",
    "YL.Props.C159_names_refuted"
   ],
   "note": "The intended claim (hidden confounders are estimated) is false: C159_raises_refuted (every call with something to estimate raises TypeError, KeyError, ValueError or UnboundLocalError; the counter is assigned in a nested function), C159_pair_refuted (ValueError for the plain confounded pair, whatever the data), C159_column_refuted (the user's data keeps a new column although the call failed), C159_names_refuted (an observed node whose name contains U counts as hidden). Proved: C159_nothing, C159_returns, C159_chain."
  },
  {
   "property": "C16",
   "status": "partial",
   "theorems": [
    "YL.Props.C16_valid_exact_partial",
    "YL.Props.C16_accepts_mediator"
   ],
   "note": "Decides d-separation in the mutilated diagram; admits descendants of the treatment (C16_accepts_mediator)."
  },
  {
   "property": "C160",
   "status": "partial",
   "theorems": [
    "YL.Props.C160_split",
    "YL.Props.C160_leaves",
    "YL.Props.C160_fit_total",
    "YL.Props.C160_alpha",
    "YL.Props.C160_alpha_refuted",
    "YL.Props.C160_discrete_refuted",
    "YL.Props.C160_adjustment_refuted",
    "YL.Props.C160_mean_refuted",
    "YL.Props.C160_proportional",
    "YL.Props.C160_intercept_refuted",
    "YL.Props.C160_units"
   ],
   "note": "Proved: the split is optimal and missing exactly if all rows agree in all covariates (C160_split); leaves (C160_leaves); fit ends with a tree when no two rows agree in all covariates and an adjustment is given (C160_fit_total); weights not negative, sum at least 1, and sum 1 exactly if no other leaf has the same value, then they are the leaf's (C160_alpha). An outcome proportional to the treatment gives zero gradients and a single leaf (C160_proportional). The labels of a node scale with the units of outcome and treatment and the split does not depend on the units (C160_units). Refuted parts: the coefficient is fitted without intercept but the residuals are taken from the means, so y = 1 + 2x, with no heterogeneity at all, is split (C160_intercept_refuted); leaves are compared by value, so equal values merge them and the weights sum to 2 (C160_alpha_refuted); equal covariates with differing gradients raise TypeError (C160_discrete_refuted); without adjustment the first split raises TypeError (C160_adjustment_refuted); two rows (and any node stopped by the tolerance) get the first outcome, not the mean (C160_mean_refuted). Exact arithmetic; one treatment column."
  },
  {
   "property": "C161",
   "status": "partial",
   "theorems": [
    "YL.Props.C161_rows",
    "YL.Props.C161_treatments",
    "YL.Props.C161_refused",
    "YL.Props.C161_aligned_refuted",
    "YL.Props.C161_discrete",
    "YL.Props.C161_clip",
    "YL.Props.C161_discrete_refuted",
    "YL.Props.C161_coupon"
   ],
   "note": "Proved: C161_rows, C161_treatments, C161_refused, C161_discrete, C161_clip, C161_coupon. Refuted parts: the returned list of effects is in generation order, not aligned with the shuffled training rows (C161_aligned_refuted); in meaningless_discrete_dataset arm i exceeds arm 0 by i times the given effect (C161_discrete_refuted). Draws are parameters; binary_data, sq_data and the test set of multi_continuous_treatment are not modelled."
  },
  {
   "property": "C162",
   "status": "partial",
   "theorems": [
    "YL.Props.C162_propensities",
    "YL.Props.C162_no_folds",
    "YL.Props.C162_sorted_refuted",
    "YL.Props.C162_three_arms_refuted",
    "YL.Props.C162_proba_output_refuted"
   ],
   "note": "Proved: exact behaviour for all data (C162_propensities: right columns if all arms occur outside each group; ValueError exactly if outside some group the number of arms is neither k nor 1; broadcast if it is 1) and without folds (C162_no_folds). Refuted parts: data sorted by a binary treatment, cf_fold=2, any size, any normalised classifier: both arms get probability 1 for every row without error (C162_sorted_refuted); three sorted arms raise ValueError (C162_three_arms_refuted); proba_output=True with cf_fold >= 2 always raises ValueError (C162_proba_output_refuted)."
  },
  {
   "property": "C163",
   "status": "partial",
   "theorems": [
    "YL.Props.C163_fit",
    "YL.Props.C163_preprocess",
    "YL.Props.C163_names_iff",
    "YL.Props.C163_other_type",
    "YL.Props.C163_exchanged_refuted",
    "YL.Props.C163_long_refuted"
   ],
   "note": "Proved: exact behaviour: the column named columns[i] gets the values of the i-th column in the order texts, truth values, numbers, the same exchange in fit and in all later calls, other columns untouched (C163_fit, C163_preprocess); the names are kept exactly if the given list is in that order, e.g. when all columns have one type (C163_names_iff, byKind_one_type); other types are refused (C163_other_type). Refuted parts: a number before a text exchanges the two columns (C163_exchanged_refuted), so covariates and adjustment can be mixed up, and policies are learned from exchanged columns but applied to the right ones (C150_mixed_refuted); a name of more than 64 characters alone in its type raises AssertionError (C163_long_refuted)."
  },
  {
   "property": "C164",
   "status": "partial",
   "theorems": [
    "YL.Props.C164_slearner",
    "YL.Props.C164_tlearner",
    "YL.Props.C164_xlearner",
    "YL.Props.C164_discrete_outcome",
    "YL.Props.C164_doubly_robust",
    "YL.Props.C164_doubleml",
    "YL.Props.C164_bound",
    "YL.Props.C164_several",
    "YL.Props.C164_several_dml_bound",
    "YL.Props.C164_several_refuted"
   ],
   "note": "Proved for one treatment and every estimator (C164_slearner, C164_tlearner, C164_xlearner, C164_discrete_outcome, C164_doubly_robust, C164_doubleml, C164_bound), for several treatments and the estimators that count all combinations: control = all smallest values, treat = the same with the second smallest value of the second treatment (C164_several, C164_several_dml_bound). Refuted: TLearner and XLearner count only the observed combinations, so with several treatments the same call compares other arms than SLearner, which may take a combination no row has (C164_several_refuted). DoubleML only on a freshly fitted estimator (later calls: C56)."
  },
  {
   "property": "C165",
   "status": "partial",
   "theorems": [
    "YL.Props.C165_kinds",
    "YL.Props.C165_told",
    "YL.Props.C165_told_none",
    "YL.Props.C165_told_refuted",
    "YL.Props.C165_accepts",
    "YL.Props.C165_default_model",
    "YL.Props.C165_missing_library_refuted",
    "YL.Props.C165_inferred_refuted",
    "YL.Props.C165_seed",
    "YL.Props.C165_object",
    "YL.Props.C165_misspelt_refuted",
    "YL.Props.C165_ml_x_refuted",
    "YL.Props.C165_register",
    "YL.Props.C165_shipped"
   ],
   "note": "C165_kinds, _told, _accepts, _default_model, _seed, _object, _register, _shipped are proved for all calls. Refuted parts: DR, bound and rloss are not told of a discrete outcome (C165_told_refuted); a named model whose library is missing is a NameError (C165_missing_library_refuted); without a task a regression target gets a classifier (C165_inferred_refuted); a misspelt model name is taken for the model (C165_misspelt_refuted); the general factory of the meta learners gives the X-learner no regressor for the effects of a discrete outcome (C165_ml_x_refuted)."
  },
  {
   "property": "C166",
   "status": "partial",
   "theorems": [
    "YL.Props.C166_binding",
    "YL.Props.C166_keeps",
    "YL.Props.C166_meta_options",
    "YL.Props.C166_guard",
    "YL.Props.C166_np2sls_refuted",
    "YL.Props.C166_forest_seed_refuted",
    "YL.Props.C166_permuted",
    "YL.Props.C166_permuted_np2sls_refuted",
    "YL.Props.C166_seeds",
    "YL.Props.C166_seeds_refuted",
    "YL.Props.C166_naive_refuted",
    "YL.Props.C166_prepare"
   ],
   "note": "C166_binding (Python's argument rule, for every signature), C166_keeps, C166_meta_options, C166_guard, C166_permuted, C166_seeds are proved. Refuted parts: NP2SLS passes its categories in the place of the fitted tag, so it counts as fitted before fit and ignores the categories (C166_np2sls_refuted, C166_permuted_np2sls_refuted); the forests forget their seed (C166_forest_seed_refuted); NaiveCausalForest shifts its arguments and cannot be fitted with covariates or adjustment (C166_naive_refuted); with seed None the base models of DoubleML stay unseeded although the attribute says 2022 (C166_seeds_refuted)."
  },
  {
   "property": "C167",
   "status": "partial",
   "theorems": [
    "YL.Props.C167_apply",
    "YL.Props.C167_path",
    "YL.Props.C167_sparse",
    "YL.Props.C167_duplicates_refuted",
    "YL.Props.C167_built",
    "YL.Props.C167_best_first"
   ],
   "note": "C167_apply, C167_path, C167_sparse (canonical CSR), C167_built and C167_best_first (the hypotheses hold for every built tree) are proved. Refuted part: a CSR matrix with two entries for one place is read by its last entry, not by the sum (C167_duplicates_refuted)."
  },
  {
   "property": "C168",
   "status": "partial",
   "theorems": [
    "YL.Props.C168_sample",
    "YL.Props.C168_small_refuted",
    "YL.Props.C168_bars_refuted",
    "YL.Props.C168_bars_descend",
    "YL.Props.C168_bars_partition"
   ],
   "note": "C168_sample (exact arithmetic for linspace), C168_bars_partition, C168_bars_descend are proved. Refuted parts: a curve with no more than n_sample points (default 100) is an AssertionError (C168_small_refuted); plot_cumlift bins the values of the curve and not the population, so that every rearrangement of a curve gives the same picture and the bars descend for every model (C168_bars_refuted, C168_bars_descend)."
  },
  {
   "property": "C169",
   "status": "partial",
   "theorems": [
    "YL.Props.C169_every_n_partial",
    "YL.Props.C169_first_n_partial",
    "YL.Props.C169_every_zero",
    "YL.Props.C169_first_n_row",
    "YL.Props.C169_every_n_row",
    "YL.Props.C169_two_lines_refuted",
    "YL.Props.C169_one_line_twice_refuted",
    "YL.Props.C169_per_site_partial"
   ],
   "note": "proved per outer line: the counter belongs to the nearest frame in another file than the calling one, not to the calling line (offset one too large), so the claim per call site is refuted both ways (two lines share a counter: the second message is lost; one line reached from two places prints twice). It holds for histories in which outer lines and call sites correspond (C169_per_site_partial), and k calls in a row print min k n resp. ceil(k/n) lines."
  },
  {
   "property": "C17",
   "status": "partial",
   "theorems": [
    "YL.Props.C17_backdoor_paths_partial",
    "YL.Props.C17_isolated_outcome"
   ],
   "note": "Exact list of back-door paths whenever the outcome lies on an edge; paths of one edge (outcome is a parent of the treatment) are never listed and an edgeless outcome is split into characters (C17_isolated_outcome)."
  },
  {
   "property": "C170",
   "status": "partial",
   "theorems": [
    "YL.Props.C170_log",
    "YL.Props.C170_named",
    "YL.Props.C170_negative",
    "YL.Props.C170_fatal_refuted",
    "YL.Props.C170_raises",
    "YL.Props.C170_own_level_ignored",
    "YL.Props.C170_output_grows",
    "YL.Props.C170_level_int",
    "YL.Props.C170_level_digit",
    "YL.Props.C170_level_names",
    "YL.Props.C170_level_rejects",
    "YL.Props.C170_failed_set",
    "YL.Props.C170_level_text_refuted",
    "YL.Props.C170_start"
   ],
   "note": "proved except that `fatal` always raises TypeError after printing (refuted), that the level of a single logger is ignored (proved for all histories), that negative levels are never printed, and that levels written as two digit text are refused (refuted: set_level(str(get_level())) raises)."
  },
  {
   "property": "C171",
   "status": "partial",
   "theorems": [
    "YL.Props.C171_idempotent",
    "YL.Props.C171_below",
    "YL.Props.C171_decorate_fails",
    "YL.Props.C171_transparent_plain",
    "YL.Props.C171_call_partial",
    "YL.Props.C171_transparent",
    "YL.Props.C171_masked",
    "YL.Props.C171_iterator_refuted",
    "YL.Props.C171_mapping_refuted",
    "YL.Props.C171_collection",
    "YL.Props.C171_mapping_short",
    "YL.Props.C171_string",
    "YL.Props.C171_report_partial",
    "YL.Props.C171_custom_name_refuted",
    "YL.Props.C171_default_name"
   ],
   "note": "proved when no argument is a one-shot iterator or a mapping that cannot be rebuilt, and for default names; refuted otherwise: with details every iterator argument loses five elements more (exact effect proved), a mapping whose class needs arguments turns a successful call into TypeError (and the call is not counted), and functions timed under a custom name are reported under a cut name and may replace one another."
  },
  {
   "property": "C172",
   "status": "partial",
   "theorems": [
    "YL.Props.C172_reproducible_partial",
    "YL.Props.C172_seeded",
    "YL.Props.C172_zero_is_none",
    "YL.Props.C172_deepiv_ignores",
    "YL.Props.C172_unseeded",
    "YL.Props.C172_zero_refuted",
    "YL.Props.C172_deepiv_refuted",
    "YL.Props.C172_object",
    "YL.Props.C172_object_refuted",
    "YL.Props.C172_refused",
    "YL.Props.C172_refused_touches_nothing",
    "YL.Props.C172_streams_reset_refuted",
    "YL.Props.C172_common_numbers",
    "YL.Props.C172_common_numbers_unseeded_refuted"
   ],
   "note": "proved for integer seeds that numpy accepts (for network methods: other than 0), for every computation and any two histories. Refuted: seed 0 at a network method is no seed, DeepIV never uses its random_state, a RandomState object gives other results at every call (they depend on its state alone); numpy integers raise AttributeError; a seeded call resets the caller's streams."
  },
  {
   "property": "C173",
   "status": "partial",
   "theorems": [
    "YL.Props.C173_fit_partial",
    "YL.Props.C173_fit_transform_partial",
    "YL.Props.C173_construct",
    "YL.Props.C173_params",
    "YL.Props.C173_params_refused",
    "YL.Props.C173_target_dropped_refuted",
    "YL.Props.C173_shared_object_refuted"
   ],
   "note": "proved for distinct step objects whose fit_transform agrees with fit and transform (the scikit-learn contract), of any number and with any behaviour, for parameters of any kind. Refuted without that: one object in two steps makes fit_transform(X) differ from fit(X).transform(X); and a TypeError raised inside a step's own fit is taken for a missing parameter, so the step is silently trained without the target."
  },
  {
   "property": "C174",
   "status": "partial",
   "theorems": [
    "YL.Props.C174_median_partial",
    "YL.Props.C174_pushes",
    "YL.Props.C174_best_constant",
    "YL.Props.C174_mae_partial",
    "YL.Props.C174_removed_median_refuted",
    "YL.Props.C174_weights_refuted",
    "YL.Props.C174_memory_refuted",
    "YL.Props.C174_absent_refuted"
   ],
   "note": "proved for pushes of any positive weights, for removals of values other than the median of the moment, and without restriction when all weights are the same (so for the criterion without sample weights). Refuted for different weights: removing the median leaves a stale partial sum; the median of {1,3} is then reported as 1, a child's impurity is measured from the wrong constant, and k can point behind the last record (read outside of the records in use). Removing a record that is not there corrupts the median as well."
  },
  {
   "property": "C175",
   "status": "partial",
   "theorems": [
    "YL.Props.C175_refused",
    "YL.Props.C175_sample",
    "YL.Props.C175_tracking",
    "YL.Props.C175_pool_uniform",
    "YL.Props.C175_reservoir_uniform",
    "YL.Props.C175_draws",
    "YL.Props.C175_total",
    "YL.Props.C175_tracking_ignored_refuted"
   ],
   "note": "everything but the last part is proved: tracking_selection is not honoured for samples of at least a fifth of the population - the reservoir method runs, whose samples are not in random order (C175_tracking_ignored_refuted). Tracking selection ends exactly when the generator has produced enough distinct numbers (C175_tracking)."
  },
  {
   "property": "C176",
   "status": "proved",
   "theorems": [
    "YL.Props.C176_cheapest",
    "YL.Props.C176_nested",
    "YL.Props.C176_path",
    "YL.Props.C176_weights",
    "YL.Props.C176_worse_split_descends"
   ],
   "note": "Proved for the algorithm of the compiled tree module in exact arithmetic, with positive weight of the root. YLearn's own trees accept ccp_alpha but never call it (documented as not implemented). Where a split makes the impurity larger the path does not ascend (C176_worse_split_descends)."
  },
  {
   "property": "C177",
   "status": "proved",
   "theorems": [
    "YL.Props.C177_random_split",
    "YL.Props.C177_both_sides"
   ],
   "note": "Proved in exact arithmetic, with the drawn features and random numbers as arguments (how the features are drawn is not part of it)."
  },
  {
   "property": "C178",
   "status": "proved",
   "theorems": [
    "YL.Props.C178_partial_dependence",
    "YL.Props.C178_all_targets",
    "YL.Props.C178_no_targets",
    "YL.Props.C178_between"
   ],
   "note": "Proved in exact arithmetic for one output; the weights of the nodes must be positive for the range and for the average."
  },
  {
   "property": "C179",
   "status": "proved",
   "theorems": [
    "YL.Props.C179_sums_sound",
    "YL.Props.C179_gini_pairs",
    "YL.Props.C179_gini_pure",
    "YL.Props.C179_gini_never_worse",
    "YL.Props.C179_entropy_never_worse",
    "YL.Props.C179_entropy_pure",
    "YL.Props.C179_proxy_ranks",
    "YL.Props.C179_improvement"
   ],
   "note": "Proved in exact arithmetic (real numbers for the entropy)."
  },
  {
   "property": "C18",
   "status": "partial",
   "theorems": [
    "YL.Props.C18_has_collider_partial",
    "YL.Props.C18_backward_chain"
   ],
   "note": "Exact characterisation of the answer: True iff a collider exists or the path is a backward chain of at least 4 nodes; the second disjunct is a bug (C18_backward_chain)."
  },
  {
   "property": "C180",
   "status": "proved",
   "theorems": [
    "YL.Props.C180_sums_sound",
    "YL.Props.C180_mse_variance",
    "YL.Props.C180_children",
    "YL.Props.C180_mse_never_worse",
    "YL.Props.C180_proxy_ranks",
    "YL.Props.C180_friedman",
    "YL.Props.C180_friedman_cancels_refuted"
   ],
   "note": "Proved in exact arithmetic. With several outcomes FriedmanMSE adds them up first, so that opposite differences cancel (C180_friedman_cancels_refuted); the claim is about one outcome."
  },
  {
   "property": "C19",
   "status": "partial",
   "theorems": [
    "YL.Props.C19_is_frontdoor_set_partial",
    "YL.Props.C19_accepts_parent",
    "YL.Props.C19_accepts_ancestor",
    "YL.Props.C19_get_frontdoor_set",
    "YL.Props.C19_all_crash",
    "YL.Props.C19_pops_arguments",
    "YL.Props.C19_long_names",
    "YL.Props.C19_crash"
   ],
   "note": "Exact for sets of descendants of the treatment, in particular for every set get_frontdoor_set considers, with full soundness/completeness/minimality of the listing when the call returns; violations (crashes, popped arguments, accepted non-front-door sets) are proved."
  },
  {
   "property": "C20",
   "status": "proved",
   "theorems": [
    "YL.Props.C20_frontdoor_expression"
   ],
   "note": "Every returned expression equals P(y|do t) in every discrete model with overlap."
  },
  {
   "property": "C21",
   "status": "proved",
   "theorems": [
    "YL.Props.C21_id_terminates",
    "YL.Props.C21_undeclared_cause_loops"
   ],
   "note": "Proved for every acyclic graph whose causes and arc ends are declared keys (the documented input form); recursion depth bound (n+1)^2. C21_undeclared_cause_loops: with an undeclared cause id recurses for ever (RecursionError in Python)."
  },
  {
   "property": "C22",
   "status": "partial",
   "theorems": [
    "YL.Props.C22_id_sound_partial",
    "YL.Props.C22_disjoint_arcs_sound",
    "YL.Props.C22_isolated_outcome_dropped",
    "YL.Props.C22_arc_only_outcome_crashes",
    "YL.Props.C22_napkin_wrong"
   ],
   "note": "C22_disjoint_arcs_sound: full soundness of every returned expression when no variable is an end of two latent arcs. C22_id_sound_partial: any diagram, provided the run did not use lines 6/7 below line 7 (ghost flag). The unrestricted claim is false of the code: C22_napkin_wrong (wrong estimand P(y|x) on the napkin graph, with a positive counter-model), C22_isolated_outcome_dropped, C22_arc_only_outcome_crashes."
  },
  {
   "property": "C23",
   "status": "proved",
   "theorems": [
    "YL.Props.C23_no_latent_identified"
   ],
   "note": "Every acyclic declared graph without latent arcs: id returns an expression for all disjoint x, y; value = P(y|do x) for outcomes on an edge (isolated outcomes are dropped by the code: C22_isolated_outcome_dropped)."
  },
  {
   "property": "C24",
   "status": "partial",
   "theorems": [
    "YL.Props.C24_get_iv_partial",
    "YL.Props.C24_get_iv_total",
    "YL.Props.C24_instrument_exogenous",
    "YL.Props.C24_is_valid_iv_partial",
    "YL.Props.C24_reverse_causation",
    "YL.Props.C24_no_instrument_raises"
   ],
   "note": "Exact (sound and complete for direct causes) whenever the treatment causes the outcome, plus independence under do(t) in every model; without that hypothesis the code is wrong (C24_reverse_causation)."
  },
  {
   "property": "C25",
   "status": "proved",
   "theorems": [
    "YL.Props.C25_powerset_exact",
    "YL.Props.C25_repeats"
   ],
   "note": "Every list of names; repeats in the argument are treated by C25_repeats."
  },
  {
   "property": "C26",
   "status": "proved",
   "theorems": [
    "YL.Props.C26_trim_cycle_acyclic",
    "YL.Props.C26_to_dag_acyclic",
    "YL.Props.C26_self_loop_crashes"
   ],
   "note": "Non-negative weights, zero diagonal (what _to_dag passes); C26_to_dag_acyclic removes the diagonal precondition. C26_self_loop_crashes: IndexError on a self-loop. Negative weights (possible for Golem) are outside the model of all_shortest_paths."
  },
  {
   "property": "C27",
   "status": "proved",
   "theorems": [
    "YL.Props.C27_trim_cycle_only_deletes",
    "YL.Props.C27_to_dag_keeps_stronger"
   ],
   "note": "Also: every cleared entry lies on a directed cycle of the input."
  },
  {
   "property": "C28",
   "status": "partial",
   "theorems": [
    "YL.Props.C28_matrix2dict_exact",
    "YL.Props.C28_depth_sound_partial",
    "YL.Props.C28_depth_misses_cause"
   ],
   "note": "Exact for depth=None. With a depth limit only soundness holds (C28_depth_sound_partial); completeness is false of the code: C28_depth_misses_cause."
  },
  {
   "property": "C29",
   "status": "partial",
   "theorems": [
    "YL.Props.C29_matrix2array_frame",
    "YL.Props.C29_ndarray_ignores_lower"
   ],
   "note": "Exact for DataFrames. False for np.ndarray input: C29_ndarray_ignores_lower (the code reads matrix[row, col] twice)."
  },
  {
   "property": "C30",
   "status": "proved",
   "theorems": [
    "YL.Props.C30_curve",
    "YL.Props.C30_gap",
    "YL.Props.C30_total",
    "YL.Props.C30_no_nan"
   ],
   "note": "All six cumulators; value of row k is the textbook statistic of the k best rows when defined, linear interpolation from 0 before; existence when both arms occur. Numbers idealised as an ordered field; no missing values in the input. C30_no_nan: no defined row is missing."
  },
  {
   "property": "C31",
   "status": "proved",
   "theorems": [
    "YL.Props.C31_last",
    "YL.Props.C31_model_independent",
    "YL.Props.C31_random",
    "YL.Props.C31_random_rows"
   ],
   "note": "Final point equals the statistic of the whole data set, for every score type, tie order and for the RANDOM mean column."
  },
  {
   "property": "C32",
   "status": "proved",
   "theorems": [
    "YL.Props.C32_normalized",
    "YL.Props.C32_scale"
   ],
   "note": "Ends at the sign of the final statistic; zero final statistic is outside the quantifier."
  },
  {
   "property": "C33",
   "status": "partial",
   "theorems": [
    "YL.Props.C33_top",
    "YL.Props.C33_maximises",
    "YL.Props.C33_ignores_treating_nobody"
   ],
   "note": "True when some point of the statistic is non-negative (C33_maximises); in general only the maximiser among the defined rows k>=1 (C33_top). Refuted in full by C33_ignores_treating_nobody."
  },
  {
   "property": "C34",
   "status": "proved",
   "theorems": [
    "YL.Props.C34_ranking",
    "YL.Props.C34_areas",
    "YL.Props.C34_ties_matter"
   ],
   "note": "Any strictly increasing transform into any linear order; C34_ties_matter shows that the no-ties hypothesis is needed."
  },
  {
   "property": "C35",
   "status": "proved",
   "theorems": [
    "YL.Props.C35_antisymmetric",
    "YL.Props.C35_defaults",
    "YL.Props.C35_refused"
   ],
   "note": "Distinct arms; equal arms are refused with ValueError (also proved), so 'equal arms give zero' never arises."
  },
  {
   "property": "C36",
   "status": "proved",
   "theorems": [
    "YL.Props.C36_parallel"
   ],
   "note": "Jobs are deterministic functions of (prototype, treat, control); any completion order of the worker pool."
  },
  {
   "property": "C37",
   "status": "partial",
   "theorems": [
    "YL.Props.C37_columns",
    "YL.Props.C37_two_outcomes_misaligned",
    "YL.Props.C37_needs_data"
   ],
   "note": "Proved for one outcome and data passed explicitly. Findings proved: with two outcomes the block of the control value is y_d columns wide so the result is misaligned; effect_nji() without data always fails."
  },
  {
   "property": "C38",
   "status": "proved",
   "theorems": [
    "YL.Props.C38_total",
    "YL.Props.C38_injective",
    "YL.Props.C38_surjective",
    "YL.Props.C38_unknown"
   ],
   "note": "Ordinal codes of combined treatments are a bijection between vectors of known values and 0..product-1; unknown values refused."
  },
  {
   "property": "C39",
   "status": "proved",
   "theorems": [
    "YL.Props.C39_tlearner",
    "YL.Props.C39_single_row_refuted",
    "YL.Props.C39_own_rows",
    "YL.Props.C39_antisymmetric",
    "YL.Props.C39_unseen",
    "YL.Props.C39_unseen_control",
    "YL.Props.C39_defaults",
    "YL.Props.C39_separate"
   ],
   "note": "Deterministic base model, one outcome, proba_output=False; combined and separate treatments. Own rows only, antisymmetry, zero, defaults, unseen arms refused; an arm with a single row is refused with ValueError because y.squeeze() drops the row axis (C39_single_row_refuted)."
  },
  {
   "property": "C40",
   "status": "partial",
   "theorems": [
    "YL.Props.C40_slearner",
    "YL.Props.C40_antisymmetric",
    "YL.Props.C40_separate_off_support",
    "YL.Props.C40_separate_single"
   ],
   "note": "Proved for combined treatments (default). For combined_treatment=False with two or more treatments refuted: the model is evaluated at vectors that encode no treatment vector (C40_separate_off_support). C40_separate_single: separate encoding with one treatment is fine."
  },
  {
   "property": "C41",
   "status": "proved",
   "theorems": [
    "YL.Props.C41_xlearner",
    "YL.Props.C41_between",
    "YL.Props.C41_exact"
   ],
   "note": "Combined treatments, one outcome, proba_output=False; also the exact training sets and targets of all four models. Arms need at least two rows (a single row is refused, see C39)."
  },
  {
   "property": "C42",
   "status": "partial",
   "theorems": [
    "YL.Props.C42_scores",
    "YL.Props.C42_propensity",
    "YL.Props.C42_unbiased",
    "YL.Props.C42_bias",
    "YL.Props.C42_outcome_score",
    "YL.Props.C42_wrapper_ignores_arm",
    "YL.Props.C42_outcome_refuted",
    "YL.Props.C42_covariates"
   ],
   "note": "Propensity-correct branch proved for all outcome models (C42_propensity, C42_unbiased; with the code's eps added to the propensity the exact bias is C42_bias). The outcome-correct branch is FALSE of the code (C42_outcome_refuted): the outcome model wrapper compares instead of assigning the arm column, so its prediction ignores the arm (C42_wrapper_ignores_arm); what remains true is C42_outcome_score. C42_covariates covers covariates."
  },
  {
   "property": "C43",
   "status": "proved",
   "theorems": [
    "YL.Props.C43_cross_fit",
    "YL.Props.C43_honest",
    "YL.Props.C43_no_folds",
    "YL.Props.C43_too_many_folds"
   ],
   "note": "For every model, every number of folds and every data set: each row's prediction comes from a model trained on exactly the rows of the other folds (C43_cross_fit) and does not depend on the row's own target (C43_honest). Limits stated (C43_no_folds, C43_too_many_folds)."
  },
  {
   "property": "C44",
   "status": "proved",
   "theorems": [
    "YL.Props.C44_discrete",
    "YL.Props.C44_discrete_chain",
    "YL.Props.C44_continuous"
   ],
   "note": "Discrete treatment: effects are differences of a function of arm and covariates (C44_discrete), hence zero on equal arms, antisymmetric, additive; continuous treatment with scalar arms: C44_continuous. One outcome; arms as labels/lists, not ndarrays."
  },
  {
   "property": "C45",
   "status": "proved",
   "theorems": [
    "YL.Props.C45_partition",
    "YL.Props.C45_empty"
   ],
   "note": "For all numbers of estimators and jobs; zero estimators raise (C45_empty)."
  },
  {
   "property": "C46",
   "status": "partial",
   "theorems": [
    "YL.Props.C46_default",
    "YL.Props.C46_given",
    "YL.Props.C46_given_refuted",
    "YL.Props.C46_discovery"
   ],
   "note": "Proved: default identifier and discovery identifier give disjoint, repetition-free roles without treatment and outcome; roles given by the user as lists keep exactly their non-treatment names. Refuted for given roles (C46_given_refuted): the outcome, a repeated treatment and overlaps between roles are kept."
  },
  {
   "property": "C47",
   "status": "partial",
   "theorems": [
    "YL.Props.C47_single",
    "YL.Props.C47_single_refused",
    "YL.Props.C47_list",
    "YL.Props.C47_list_nested",
    "YL.Props.C47_list_flat",
    "YL.Props.C47_refuted"
   ],
   "note": "Exact characterisation of safe_treat_control; every accepted row of safe_treat_control_list has one element per treatment; nested and flat lists behave as documented. Refuted in two corners (C47_refuted): a string next to proper rows is taken for a row; an empty list raises IndexError."
  },
  {
   "property": "C48",
   "status": "proved",
   "theorems": [
    "YL.Props.C48_select",
    "YL.Props.C48_encode",
    "YL.Props.C48_consistent",
    "YL.Props.C48_codes"
   ],
   "note": "Selection, encoding, their consistency, and codes of transform_treat_control are proved for all frames and values."
  },
  {
   "property": "C49",
   "status": "proved",
   "theorems": [
    "YL.Props.C49_to_list_idempotent",
    "YL.Props.C49_join_list",
    "YL.Props.C49_parse",
    "YL.Props.C49_parse_clean"
   ],
   "note": "to_list, join_list and parse_names."
  },
  {
   "property": "C50",
   "status": "partial",
   "theorems": [
    "YL.Props.C50_known",
    "YL.Props.C50_unseen",
    "YL.Props.C50_roundtrip_int",
    "YL.Props.C50_roundtrip_float_refuted",
    "YL.Props.C50_rows"
   ],
   "note": "Proved for integer codes. With the default float dtype the round trip is refuted (C50_roundtrip_float_refuted)."
  },
  {
   "property": "C52",
   "status": "proved",
   "theorems": [
    "YL.Props.C52_number",
    "YL.Props.C52_fraction",
    "YL.Props.C52_threshold",
    "YL.Props.C52_quantile",
    "YL.Props.C52_strategy",
    "YL.Props.C52_default_may_drop_all"
   ],
   "note": "All strategies of the feature selection; C52_default_may_drop_all records that the default threshold can drop every feature."
  },
  {
   "property": "C53",
   "status": "partial",
   "theorems": [
    "YL.Props.C53_unfitted",
    "YL.Props.C53_fitted",
    "YL.Props.C53_failed_refit",
    "YL.Props.C53_why_refuted"
   ],
   "note": "UpliftModel and check_fitted: proved over all call histories. Why: refuted, a new object carries the truthy tag (False,) (C53_why_refuted)."
  },
  {
   "property": "C55",
   "status": "partial",
   "theorems": [
    "YL.Props.C55_snake",
    "YL.Props.C55_snake_refuted",
    "YL.Props.C55_roundtrip",
    "YL.Props.C55_limits"
   ],
   "note": "Idempotence proved when lower-casing yields no upper-case letters (all of ASCII); refuted for other alphabets (C55_snake_refuted); camel/snake round trip and its limits proved."
  },
  {
   "property": "C56",
   "status": "partial",
   "theorems": [
    "YL.Props.C56_doubleml_explicit",
    "YL.Props.C56_doubleml_refuted",
    "YL.Props.C56_doubleml_standard_labels",
    "YL.Props.C56_slearner_several_treatments",
    "YL.Props.C56_slearner_standard_labels",
    "YL.Props.C56_slearner_refuted",
    "YL.Props.C56_slearner_second_call_fails"
   ],
   "note": "Proved for several treatments and for one treatment labelled 0..k-1; refuted otherwise: second call of SLearner.estimate answers another question or fails. DoubleML: explicit arms are history independent (C56_doubleml_explicit); with default arms refuted (C56_doubleml_refuted), except for labels 0..k-1 (C56_doubleml_standard_labels)."
  },
  {
   "property": "C57",
   "status": "partial",
   "theorems": [
    "YL.Props.C57_bound_refuted",
    "YL.Props.C57_tlearner_refit_partial",
    "YL.Props.C57_tlearner_refuted",
    "YL.Props.C57_slearner_refuted"
   ],
   "note": "Proved for TLearner with explicit arms when the new treatment vectors occurred in the first data; refuted in general because the encoders of the first fit are kept. ApproxBound keeps x_prob of the first fit (C57_bound_refuted). Arms need at least two rows (a single row is refused, see C39)."
  },
  {
   "property": "C58",
   "status": "proved",
   "theorems": [
    "YL.Props.C58_exact_discrete",
    "YL.Props.C58_exact_continuous",
    "YL.Props.C58_needs_covariates",
    "YL.Props.C58_needs_covariates_discrete"
   ],
   "note": "C58_exact_discrete, C58_exact_continuous under explicit identification of the contrast by the design; finding: without covariates v fit always fails (C58_needs_covariates)."
  },
  {
   "property": "C59",
   "status": "partial",
   "theorems": [
    "YL.Props.C59_dfs",
    "YL.Props.C59_straight_takes_effects",
    "YL.Props.C59_straight_refuted",
    "YL.Props.C59_negative_missed"
   ],
   "note": "dfs: covariates are exactly the (positive-weight) ancestors of the outcome and instruments exactly the ancestors of treatments that are no ancestors of the outcome. 'straight' is refuted (takes effects for causes), negative weights are missed by dfs."
  },
  {
   "property": "C60",
   "status": "partial",
   "theorems": [
    "YL.Props.C60_importance_ignored",
    "YL.Props.C60_refuted"
   ],
   "note": "Refuted: the automatic treatment choice ignores importances (C60_refuted); the exact selection is characterised (C60_importance_ignored)."
  },
  {
   "property": "C61",
   "status": "partial",
   "theorems": [
    "YL.Props.C61_select",
    "YL.Props.C61_align",
    "YL.Props.C61_limit_one_refuted",
    "YL.Props.C61_default_limit",
    "YL.Props.C61_is_discrete"
   ],
   "note": "Kind and count of chosen treatments proved; refuted for a limit of one (C61_limit_one_refuted)."
  },
  {
   "property": "C62",
   "status": "proved",
   "theorems": [
    "YL.Props.C62_sequential",
    "YL.Props.C62_sequential_default",
    "YL.Props.C62_sequential_given",
    "YL.Props.C62_control_refused",
    "YL.Props.C62_combined",
    "YL.Props.C62_combined_default",
    "YL.Props.C62_estimators"
   ],
   "note": "Comparisons of causal_effect, default, given and combined; estimators available."
  },
  {
   "property": "C63",
   "status": "partial",
   "theorems": [
    "YL.Props.C63_whatif",
    "YL.Props.C63_consistency",
    "YL.Props.C63_cost_refuted",
    "YL.Props.C63_continuous",
    "YL.Props.C63_continuous_scalar",
    "YL.Props.C63_continuous_same",
    "YL.Props.C63_continuous_cost"
   ],
   "note": "Proved: discrete treatment without cost function; continuous treatment (DoubleML) with and without cost function, whatever was asked before (C63_continuous*). Refuted: discrete treatment with a cost function always fails when two different pairs of values occur (C63_cost_refuted)."
  },
  {
   "property": "C64",
   "status": "partial",
   "theorems": [
    "YL.Props.C64_effect",
    "YL.Props.C64_refuted",
    "YL.Props.C64_agree"
   ],
   "note": "causal_effect proved; the other entry points are refuted unless the classes are 0..k-1 (C64_refuted, C64_agree)."
  },
  {
   "property": "C65",
   "status": "partial",
   "theorems": [
    "YL.Props.C65_explicit_kept",
    "YL.Props.C65_failed_fit",
    "YL.Props.C65_refit_same_kind",
    "YL.Props.C65_refuted"
   ],
   "note": "Explicit settings are stable, failed fits keep the fitted roles, refits on data of the same kinds equal fresh fits; refuted otherwise (C65_refuted)."
  },
  {
   "property": "C66",
   "status": "partial",
   "theorems": [
    "YL.Props.C66_bounds_valid",
    "YL.Props.C66_monotone_valid",
    "YL.Props.C66_bounds_sharp",
    "YL.Props.C66_incomplete_refuted"
   ],
   "note": "Validity (C66_bounds_valid, C66_monotone_valid) and sharpness (C66_bounds_sharp) for any number of treatments provided every combination of treatment values occurs (automatic for one treatment). Otherwise refuted: C66_incomplete_refuted (wrong column of x_prob or IndexError). Arms need at least two rows (a single row is refused, see C39)."
  },
  {
   "property": "C67",
   "status": "partial",
   "theorems": [
    "YL.Props.C67_contains_zero",
    "YL.Props.C67_width",
    "YL.Props.C67_extrapolation_refuted",
    "YL.Props.C67_unknown_assumption"
   ],
   "note": "Proved for exact (memorising) models, default or valid given ranges; refuted for models that extrapolate beyond the range of the outcome (C67_extrapolation_refuted). C67_unknown_assumption: an unknown assumption name."
  },
  {
   "property": "C68",
   "status": "partial",
   "theorems": [
    "YL.Props.C68_first_upper_valid_partial",
    "YL.Props.C68_optimal_refuted"
   ],
   "note": "Only the first upper number is valid (C68_first_upper_valid_partial). The other three are wrong and the pairs are (upper, lower): C68_optimal_refuted; the code multiplies by the bound of the effect where the formula has the lower bound of the outcome."
  },
  {
   "property": "C69",
   "status": "partial",
   "theorems": [
    "YL.Props.C69_training_data_no_covariates",
    "YL.Props.C69_training_data_standard_labels_partial",
    "YL.Props.C69_labels_refuted"
   ],
   "note": "Proved without covariates and, with covariates, for labels 0..k-1. Refuted otherwise (C69_labels_refuted): new treatment values are not encoded."
  },
  {
   "property": "C70",
   "status": "partial",
   "theorems": [
    "YL.Props.C70_accepted_iff",
    "YL.Props.C70_structure_kept",
    "YL.Props.C70_single_node_refuted",
    "YL.Props.C70_parents_exact",
    "YL.Props.C70_children_exact",
    "YL.Props.C70_upstream_exact",
    "YL.Props.C70_downstream_exact",
    "YL.Props.C70_markov_exact",
    "YL.Props.C70_blanket_exact",
    "YL.Props.C70_blanket_str_refuted",
    "YL.Props.C70_upstream_lists_given_node_refuted"
   ],
   "note": "Proved for networkx/dict/frame arguments and lists of nodes. Refuted: a single-node networkx graph loses its node (C70_single_node_refuted); get_blanket(str, return_self=False) with a name of more than one character keeps the node (C70_blanket_str_refuted); get_upstream_blanket(return_self=False) can list a given node (C70_upstream_lists_given_node_refuted). The CausalGraph argument is not modelled."
  },
  {
   "property": "C71",
   "status": "proved",
   "theorems": [
    "YL.Props.C71_markov_shields",
    "YL.Props.C71_markov_minimal"
   ],
   "note": "C71_markov_shields (d-separation and conditional independence in every discrete network), C71_markov_minimal."
  },
  {
   "property": "C72",
   "status": "proved",
   "theorems": [
    "YL.Props.C72_model_exact",
    "YL.Props.C72_model_all",
    "YL.Props.C72_unknown_node_refused",
    "YL.Props.C72_restriction"
   ],
   "note": "C72_model_exact, C72_model_all, C72_unknown_node_refused, C72_restriction. Node functions are arbitrary; tensors and plates are not modelled; columns named <node>_inputs excluded."
  },
  {
   "property": "C73",
   "status": "partial",
   "theorems": [
    "YL.Props.C73_do_weight_pos",
    "YL.Props.C73_do_zero_division_refuted",
    "YL.Props.C73_predict_history",
    "YL.Props.C73_interventions_accumulate",
    "YL.Props.C73_do_copy_frame",
    "YL.Props.C73_do_succeeds_iff"
   ],
   "note": "C73_predict_history, C73_interventions_accumulate, C73_do_copy_frame, C73_do_succeeds_iff, C73_do_weight_pos. Refuted part: intervening on all nodes, or on a root with blanket='upstream', raises ZeroDivisionError (C73_do_zero_division_refuted). The SVI training itself is an arbitrary result."
  },
  {
   "property": "C74",
   "status": "partial",
   "theorems": [
    "YL.Props.C74_predict_changes_estimate_refuted",
    "YL.Props.C74_reads_pure",
    "YL.Props.C74_failed_do_poisons_refuted",
    "YL.Props.C74_failed_first_do_frame",
    "YL.Props.C74_refit_keeps_interventions_refuted"
   ],
   "note": "Proved without interventions (C74_reads_pure) and for a failing first do (C74_failed_first_do_frame). Refuted otherwise: predict/sample write the interventions into params_ and so change a later estimate (C74_predict_changes_estimate_refuted); a failing later do poisons the object (C74_failed_do_poisons_refuted); refitting keeps old interventions (C74_refit_keeps_interventions_refuted)."
  },
  {
   "property": "C75",
   "status": "partial",
   "theorems": [
    "YL.Props.C75_roundtrip",
    "YL.Props.C75_constant_refused",
    "YL.Props.C75_unknown_value_refuted"
   ],
   "note": "Round trip proved (C75_roundtrip), constant columns refused (C75_constant_refused). Refuted: unknown values are silently taken for another class (C75_unknown_value_refuted)."
  },
  {
   "property": "C76",
   "status": "partial",
   "theorems": [
    "YL.Props.C76_world_exists",
    "YL.Props.C76_draw_is_world",
    "YL.Props.C76_estimate_worlds",
    "YL.Props.C76_nondescendants_unchanged",
    "YL.Props.C76_outcome_given_zero",
    "YL.Props.C76_given_indirect_treatment_ignored",
    "YL.Props.C76_indirect_refuted",
    "YL.Props.C76_mediator_refuted"
   ],
   "note": "Proved when each treatment that is a data column is a direct cause of an outcome (C76_estimate_worlds, C76_draw_is_world, C76_nondescendants_unchanged). Refuted otherwise: with the outcome in the data the estimate is always 0 (C76_outcome_given_zero); a treatment column that is not a direct cause is ignored (C76_given_indirect_treatment_ignored, C76_indirect_refuted); mediators in the data leave only the direct effect (C76_mediator_refuted)."
  },
  {
   "property": "C77",
   "status": "partial",
   "theorems": [
    "YL.Props.C77_collector_mean",
    "YL.Props.C77_collector_alias",
    "YL.Props.C77_intervened_outcome_refuted"
   ],
   "note": "Mean proved for fresh tensors (C77_collector_mean; only the first tensor is overwritten). Refuted for shared tensors, as produced by a conditioned or observed outcome site: 2^n c/(n+1) instead of c (C77_collector_alias, C77_intervened_outcome_refuted)."
  },
  {
   "property": "C78",
   "status": "proved",
   "theorems": [
    "YL.Props.C78_auuc_mean",
    "YL.Props.C78_qini_mean",
    "YL.Props.C78_dominance",
    "YL.Props.C78_random_mean",
    "YL.Props.C78_random_zero",
    "YL.Props.C78_auuc_normalized"
   ],
   "note": "Exact numbers, no rounding; the order of tied rows is arbitrary."
  },
  {
   "property": "C79",
   "status": "proved",
   "theorems": [
    "YL.Props.C79_incremental",
    "YL.Props.C79_grf_incremental",
    "YL.Props.C79_same_samples",
    "YL.Props.C79_backward_refuted"
   ],
   "note": "C79_backward_refuted: moving the position backwards (which the splitter never does) would leave stale sums."
  },
  {
   "property": "C80",
   "status": "proved",
   "theorems": [
    "YL.Props.C80_value_close",
    "YL.Props.C80_one_arm_refuted",
    "YL.Props.C80_proxy_order",
    "YL.Props.C80_impurity_pos",
    "YL.Props.C80_impurity_refuted",
    "YL.Props.C80_grf_improvement",
    "YL.Props.C80_grf_least_squares",
    "YL.Props.C80_grf_mean_best"
   ],
   "note": "Findings: C80_one_arm_refuted (a node with only treated samples reports their mean outcome as an effect), C80_impurity_refuted (outcomes of the order 1e5 make the impurity negative with the code's alpha = 1e10)."
  },
  {
   "property": "C81",
   "status": "proved",
   "theorems": [
    "YL.Props.C81_prediction"
   ],
   "note": "Refinement of the stack loop to a recursive tree (build_eq). The features drawn per node are an arbitrary list per node id; the sort is assumed to sort, which C94_sound discharges for the code's routine; the draws are those of C95."
  },
  {
   "property": "C82",
   "status": "proved",
   "theorems": [
    "YL.Props.C82_leaf_size",
    "YL.Props.C82_depth",
    "YL.Props.C82_leaves"
   ],
   "note": "C82_leaf_size, C82_depth, C82_leaves."
  },
  {
   "property": "C83",
   "status": "proved",
   "theorems": [
    "YL.Props.C83_best_split",
    "YL.Props.C83_leaf_reason"
   ],
   "note": "C83_best_split, C83_leaf_reason; score = the criterion's proxy on sums computed from scratch, candidates further apart than FEATURE_THRESHOLD."
  },
  {
   "property": "C84",
   "status": "partial",
   "theorems": [
    "YL.Props.C84_controls_ignored",
    "YL.Props.C84_prediction",
    "YL.Props.C84_no_effect_refuted"
   ],
   "note": "Refuted without honest estimation: the treatment indicator is passed as sample_weight and the splitter drops zero-weight samples, so control rows are ignored entirely (C84_controls_ignored) and the prediction is the shrunk mean outcome of the treated rows of the leaf (C84_prediction, C84_no_effect_refuted). With honest estimation see C85."
  },
  {
   "property": "C85",
   "status": "proved",
   "theorems": [
    "YL.Props.C85_honest_structure",
    "YL.Props.C85_honest_value",
    "YL.Props.C85_honest_fallback"
   ],
   "note": "C85_honest_structure, C85_honest_value; leaves lacking an arm keep the value of the training half (C85_honest_fallback), which by C84 is a mean outcome of treated samples."
  },
  {
   "property": "C86",
   "status": "partial",
   "theorems": [
    "YL.Props.C86_rows",
    "YL.Props.C86_average_refuted",
    "YL.Props.C86_alignment_refuted",
    "YL.Props.C86_honest_num",
    "YL.Props.C86_honest_int_refuted",
    "YL.Props.C86_min_weight_refuted"
   ],
   "note": "One prediction per row proved (C86_rows), accepted fractions exact (C86_honest_num). Refuted: ATE/CATE return None (C86_average_refuted), rows of other treatment values are missing from estimate() (C86_alignment_refuted), integers raise AttributeError (C86_honest_int_refuted), a positive minimal leaf weight forbids all splits (C86_min_weight_refuted)."
  },
  {
   "property": "C87",
   "status": "proved",
   "theorems": [
    "YL.Props.C87_prediction",
    "YL.Props.C87_leaf_size",
    "YL.Props.C87_depth",
    "YL.Props.C87_grf_prediction"
   ],
   "note": "Floats are elements of an ordered field; the sort is assumed to sort (discharged by C94_sound) and the heap to pop a maximum (SoundEnv, witnessed by stdEnv)."
  },
  {
   "property": "C88",
   "status": "partial",
   "theorems": [
    "YL.Props.C88_max_leaf_nodes",
    "YL.Props.C88_stops_early",
    "YL.Props.C88_best_first",
    "YL.Props.C88_grf_leaves",
    "YL.Props.C88_unlimited_refuted",
    "YL.Props.C88_grf_best_first"
   ],
   "note": "Proved except for the documented default: None means 1000 leaves, not unlimited (C88_unlimited_refuted)."
  },
  {
   "property": "C89",
   "status": "partial",
   "theorems": [
    "YL.Props.C89_best_split",
    "YL.Props.C89_weights_ignored_refuted",
    "YL.Props.C89_weight_limit",
    "YL.Props.C89_pseudo_outcome",
    "YL.Props.C89_constant_treatment",
    "YL.Props.C89_shift_refuted"
   ],
   "note": "Optimality and the constant treatment case proved. The last two are false of the code: sample_weight never reaches the splitter (C89_weights_ignored_refuted), and the local regression has no intercept (C89_shift_refuted)."
  },
  {
   "property": "C90",
   "status": "partial",
   "theorems": [
    "YL.Props.C90_in_bounds",
    "YL.Props.C90_overflow_refuted",
    "YL.Props.C90_coefficients",
    "YL.Props.C90_outcomes_refuted",
    "YL.Props.C90_layout",
    "YL.Props.C90_copies"
   ],
   "note": "Exact characterisation: in bounds iff the node has at least as many samples as treatment columns (C90_in_bounds), which min_samples_leaf=1 does not guarantee (C90_overflow_refuted). With several outcomes the wrong coefficients are read (C90_outcomes_refuted). int overflow is not modelled."
  },
  {
   "property": "C91",
   "status": "partial",
   "theorems": [
    "YL.Props.C91_weights",
    "YL.Props.C91_tree_weights",
    "YL.Props.C91_stump_refuted",
    "YL.Props.C91_sum_one",
    "YL.Props.C91_fit_sum_one",
    "YL.Props.C91_honest_sum_refuted"
   ],
   "note": "Proved for forests without honesty (C91_fit_sum_one) and trees with at least one split (C91_tree_weights). False otherwise: an unsplit tree gives 1/n to every row, sampled or not (C91_stump_refuted); an honest leaf without label rows contributes nothing (C91_honest_sum_refuted)."
  },
  {
   "property": "C92",
   "status": "partial",
   "theorems": [
    "YL.Props.C92_formula",
    "YL.Props.C92_linear",
    "YL.Props.C92_treatment_shift",
    "YL.Props.C92_solvable",
    "YL.Props.C92_equations",
    "YL.Props.C92_attenuated_refuted",
    "YL.Props.C92_linear_outcome",
    "YL.Props.C92_constant_outcome_refuted"
   ],
   "note": "Solvability, linearity, the equations solved and invariance under treatment shifts are proved. The code subtracts alpha_i*y_i instead of the weighted mean of y: the estimate is 1-1/m times the local regression for m equally weighted rows (C92_attenuated_refuted) and not 0 for constant outcomes (C92_constant_outcome_refuted)."
  },
  {
   "property": "C93",
   "status": "partial",
   "theorems": [
    "YL.Props.C93_rowwise",
    "YL.Props.C93_empty_refuted",
    "YL.Props.C93_default",
    "YL.Props.C93_outputs_refuted",
    "YL.Props.C93_fit_iff",
    "YL.Props.C93_trees",
    "YL.Props.C93_sub_samples",
    "YL.Props.C93_honest_count_refuted",
    "YL.Props.C93_honest_disjoint",
    "YL.Props.C93_honest_sizes_refuted"
   ],
   "note": "Proved as an exact characterisation. Refuted parts: integral honest_subsample_num always raises AttributeError, the honest sizes are the reverse of the documentation, an empty frame raises, several outcomes can be fitted but not estimated. Trees grown on an empty list of rows and negative honest shares are outside the model."
  },
  {
   "property": "C94",
   "status": "proved",
   "theorems": [
    "YL.Props.C94_sort",
    "YL.Props.C94_sound"
   ],
   "note": "C94_sort: permutation and order for quicksort partitioning and the heapsort fallback, any depth limit. C94_sound: this discharges the sorting assumption (SoundParams) of C81-C89 for the code's own routines."
  },
  {
   "property": "C95",
   "status": "proved",
   "theorems": [
    "YL.Props.C95_draws",
    "YL.Props.C95_best_of_all",
    "YL.Props.C95_feature_valid",
    "YL.Props.C95_leaf_reason"
   ],
   "note": "C95_draws: the builder with the code's drawing loop and shared arrays refines the builder of C81-C85 with a list of features per node that satisfies the specification Drawn. C95_best_of_all, C95_leaf_reason: best split and leaf reasons over all features. C95_feature_valid: for every max_features. The best-first builder (GrfTree) starts every node with no cached constants and is not covered."
  },
  {
   "property": "C96",
   "status": "proved",
   "theorems": [
    "YL.Props.C96_same_answers",
    "YL.Props.C96_succeeds",
    "YL.Props.C96_estimands_agree",
    "YL.Props.C96_refuses",
    "YL.Props.C96_general_names_refuted",
    "YL.Props.C96_lists_refuted",
    "YL.Props.C96_names_refuted",
    "YL.Props.C96_emptied_refuted",
    "YL.Props.C96_all_or_nothing_refuted"
   ],
   "note": "C96_same_answers, C96_succeeds, C96_estimands_agree. Findings: auto never works for list arguments or for names whose characters are not variables, empties the caller's sets and its own treatment/outcome, and raises as soon as one method fails (C96_*_refuted)."
  },
  {
   "property": "C97",
   "status": "partial",
   "theorems": [
    "YL.Props.C97_validated",
    "YL.Props.C97_columns",
    "YL.Props.C97_after_identify",
    "YL.Props.C97_default_partial",
    "YL.Props.C97_stale_refuted",
    "YL.Props.C97_override_refuted",
    "YL.Props.C97_after_auto_refuted",
    "YL.Props.C97_before_identify"
   ],
   "note": "Proved: user-given sets are validated against the identified treatment and outcome (C97_validated); after identify with backdoor all/minimal the set used satisfies the back-door criterion (C97_after_identify); the default is the parents of the treatment (C97_default_partial); without identify the call raises. Refuted otherwise: stale sets of another treatment are used, an overriding treatment is not validated, and after identify('auto') on sets everything is accepted (C97_*_refuted)."
  },
  {
   "property": "C98",
   "status": "partial",
   "theorems": [
    "YL.Props.C98_never_returns_refuted",
    "YL.Props.C98_original_asked_refuted",
    "YL.Props.C98_default_refuted"
   ],
   "note": "Refuted for every input: the default style is unknown to get_backdoor_set, the loop runs over the pair (sets, expression), and the unfitted original is asked instead of the fitted copy (C98_*_refuted). What is missing is the property itself: the code never returns."
  },
  {
   "property": "C99",
   "status": "partial",
   "theorems": [
    "YL.Props.C99_prediction",
    "YL.Props.C99_recommendation",
    "YL.Props.C99_policy_value",
    "YL.Props.C99_single_effect_refuted",
    "YL.Props.C99_other_criteria_refuted",
    "YL.Props.C99_weights_dropped_refuted"
   ],
   "note": "Proved for two or more effect columns and criterion policy_reg (C99_prediction, C99_recommendation, C99_policy_value). Refuted: one effect column makes predict_ind raise (C99_single_effect_refuted), the other criteria can be fitted but never predict (C99_other_criteria_refuted), max_leaf_nodes drops the sample weights (C99_weights_dropped_refuted)."
  }
 ]
}