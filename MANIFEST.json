{
 "claims": [
  {
   "property": "C01",
   "status": "proved",
   "theorems": [
    "Acv.C01_leaf_rectangles_partition"
   ],
   "note": "all well-formed array trees, all complete observations"
  },
  {
   "property": "C02",
   "status": "proved",
   "theorems": [
    "Acv.C02_leaf_variables_complete"
   ],
   "note": ""
  },
  {
   "property": "C03",
   "status": "proved",
   "theorems": [
    "Acv.C03_predict_is_sum_of_leaf_values",
    "Acv.C03_tree_limit"
   ],
   "note": "missing values included"
  },
  {
   "property": "C04",
   "status": "proved",
   "theorems": [
    "Acv.C04_depth_is_height"
   ],
   "note": ""
  },
  {
   "property": "C05",
   "status": "proved",
   "theorems": [
    "Acv.C05_weights_count_rows"
   ],
   "note": ""
  },
  {
   "property": "C06",
   "status": "proved",
   "theorems": [
    "Acv.C06_leaf_estimator_is_shapley_value",
    "Acv.C06_players_partition"
   ],
   "note": "shap_values_leaves_pa, with and without coalitions"
  },
  {
   "property": "C07",
   "status": "proved",
   "theorems": [
    "Acv.C07_efficiency",
    "Acv.C07_efficiency_columns"
   ],
   "note": "shap_values_leaves_pa; the sum over players for any coalition argument, the sum over columns without coalitions"
  },
  {
   "property": "C08",
   "status": "proved",
   "theorems": [
    "Acv.C08_unused_variable_zero"
   ],
   "note": ""
  },
  {
   "property": "C09",
   "status": "proved",
   "theorems": [
    "Acv.C09_group_members_share_value"
   ],
   "note": ""
  },
  {
   "property": "C10",
   "status": "proved",
   "theorems": [
    "Acv.C10_additive_and_linear"
   ],
   "note": ""
  },
  {
   "property": "C100",
   "status": "partial",
   "theorems": [
    "Acv.C100_partial",
    "Acv.C100_structure",
    "Acv.C100_json",
    "Acv.C100_gap",
    "Acv.C100_claim_default",
    "Acv.C100_threshold_false",
    "Acv.C100_names",
    "Acv.C100_names_false",
    "Acv.C100_stripped_false",
    "Acv.C100_space_repeats",
    "Acv.C100_categorical",
    "Acv.C100_words"
   ],
   "note": "Characters and Python's split are modelled; float is any reading of texts. Proved for all trees with default names off the thresholds; the rest is refuted with witnesses."
  },
  {
   "property": "C101",
   "status": "partial",
   "theorems": [
    "Acv.C101_local",
    "Acv.C101_local_history",
    "Acv.C101_regional",
    "Acv.C101_regional_samples",
    "Acv.C101_regional_needs_local",
    "Acv.C101_other_observations",
    "Acv.C101_other_regions",
    "Acv.C101_out_of_order",
    "Acv.C101_own_false",
    "Acv.C101_regional_false",
    "Acv.C101_position_partial",
    "Acv.C101_position_false"
   ],
   "note": "The documented sequences give the same after every history. False of the code, with the negation proved: a stage called on other observations uses the stored sets (C101_own_false), regional sampling without an earlier local sampling raises (C101_regional_false, characterised by C101_regional_needs_local), samples are shifted when an observation has no rule (C101_position_false; C101_position_partial when all have one)."
  },
  {
   "property": "C102",
   "status": "partial",
   "theorems": [
    "Acv.C102_memory_partial",
    "Acv.C102_refines",
    "Acv.C102_single",
    "Acv.C102_single_tree",
    "Acv.C102_depth",
    "Acv.C102_offsets",
    "Acv.C102_columns_false",
    "Acv.C102_overflow_false",
    "Acv.C102_single_false",
    "Acv.C102_bounds",
    "Acv.C102_single_negative"
   ],
   "note": "Proved when the data have at least as many columns as the trees test and all the values of the trees are fewer than 2^32. Missing: nothing checks either, and without them it is false: data with too few columns are read across rows or outside (C102_columns_false), the position of a leaf in the values is taken modulo 2^32 (C102_overflow_false), and the number of the tree of single_tree_predict is not checked (C102_single_false)."
  },
  {
   "property": "C103",
   "status": "proved",
   "theorems": [
    "Acv.C103_rounding",
    "Acv.C103_predict",
    "Acv.C103_predict_double",
    "Acv.C103_shapley",
    "Acv.C103_exact",
    "Acv.C103_shapley_double",
    "Acv.C103_efficiency",
    "Acv.C103_cancellation_false",
    "Acv.C103_nearest",
    "Acv.C103_ties"
   ],
   "note": "Any rounding with relative error u after every operation, then double precision with u = 2^-53; unbounded exponent. The Shapley bound is stated for the parallel program of C13 under every complete interleaving. C103_cancellation_false: witnesses that the order of the trees matters and that cancellation leaves a value that is not 0."
  },
  {
   "property": "C104",
   "status": "partial",
   "theorems": [
    "Acv.C104_sdp",
    "Acv.C104_exp",
    "Acv.C104_cdf",
    "Acv.C104_weights",
    "Acv.C104_exact",
    "Acv.C104_sdp_double",
    "Acv.C104_zero",
    "Acv.C104_level",
    "Acv.C104_explanations",
    "Acv.C104_tree_exp",
    "Acv.C104_tree_exp_double",
    "Acv.C104_level_false"
   ],
   "note": "Bounds for any rounding with relative error u, then for double precision with unbounded exponent. compute_exp is the parallel program of C13 under every complete interleaving. The two last wishes are false (C104_level_false): with nine rows that all have the decision the computed probability is above 1, with six it is below 1 and the level 1 is missed."
  },
  {
   "property": "C105",
   "status": "partial",
   "theorems": [
    "Acv.C105_groups",
    "Acv.C105_valid",
    "Acv.C105_shap",
    "Acv.C105_local_sdp",
    "Acv.C105_ends",
    "Acv.C105_single_raises",
    "Acv.C105_python_raises",
    "Acv.C105_clustering_false",
    "Acv.C105_claim_false",
    "Acv.C105_overlap_raises"
   ],
   "note": "The splitting of the columns and the compiled values are proved. That the Python functions accept the groups is false: a group of one column is refused, proved for all value functions, trees and data. The labels of the clustering are arbitrary."
  },
  {
   "property": "C106",
   "status": "partial",
   "theorems": [
    "Acv.C106_nearest",
    "Acv.C106_cast",
    "Acv.C106_same_leaf",
    "Acv.C106_efficiency",
    "Acv.C106_left",
    "Acv.C106_false"
   ],
   "note": "C106_same_leaf and C106_efficiency: with values of single precision, or values further from the thresholds than the rounding, predict uses the leaves whose rectangles contain the observation and the Shapley values sum to the difference of predictions. The full claim is false of the code (C106_false): an observation just above a threshold is read as the threshold by predict, and as itself by the explanations. C106_left: with thresholds of single precision the cast only turns decisions from right to left. The exponent of the single precision numbers is unbounded in the model."
  },
  {
   "property": "C107",
   "status": "partial",
   "theorems": [
    "Acv.C107_isinstance",
    "Acv.C107_branch",
    "Acv.C107_subclass",
    "Acv.C107_balanced",
    "Acv.C107_loaded_partial",
    "Acv.C107_silent",
    "Acv.C107_ngboost",
    "Acv.C107_booster",
    "Acv.C107_agnostic",
    "Acv.C107_false",
    "Acv.C107_kind",
    "Acv.C107_stacked"
   ],
   "note": "Recognition is proved for all models and all states of the imported modules (C107_isinstance, C107_branch, C107_subclass). C107_loaded_partial: outside the silent branches and NGBoost an object is built exactly if its trees were read. The full claim is false of the code (C107_false, C107_silent, C107_ngboost). C107_booster: the single output of a multi-class LightGBM Booster is the sum of the scores of the classes."
  },
  {
   "property": "C108",
   "status": "partial",
   "theorems": [
    "Acv.C108_matrix_partial",
    "Acv.C108_vector",
    "Acv.C108_false"
   ],
   "note": "C108_matrix_partial: matrices. The full claim is false of the code (C108_false): for every model of two or more columns, a single observation given as a vector makes the call fail."
  },
  {
   "property": "C109",
   "status": "partial",
   "theorems": [
    "Acv.C109_always",
    "Acv.C109_negative",
    "Acv.C109_no_effect",
    "Acv.C109_maxrule",
    "Acv.C109_false",
    "Acv.C109_step"
   ],
   "note": "The claim is false of the code (C109_false): with a positive temperature every candidate is accepted (C109_always), so the temperature has no effect (C109_no_effect). C109_negative: with a negative temperature the acceptance is the usual one. C109_maxrule: the guarantees of C36 hold for the search with its real acceptance, whatever the temperature."
  },
  {
   "property": "C11",
   "status": "partial",
   "theorems": [
    "Acv.C11_v2_efficiency_partial",
    "Acv.C11_v2_efficiency_false",
    "Acv.C11_v2_ungrouped_zero"
   ],
   "note": "The claim is false of the code when some used column is ungrouped (witness and general statement proved); the partial theorem proves it when the groups cover all columns or there is no group."
  },
  {
   "property": "C110",
   "status": "partial",
   "theorems": [
    "Acv.C110_values",
    "Acv.C110_target",
    "Acv.C110_raises",
    "Acv.C110_magic",
    "Acv.C110_names",
    "Acv.C110_cardinality_false"
   ],
   "note": "Everything but the cardinality of the documentation, which is false for odd numbers and above 1352 (C110_cardinality_false); C110_values gives the exact sizes."
  },
  {
   "property": "C111",
   "status": "partial",
   "theorems": [
    "Acv.C111_reported_partial",
    "Acv.C111_single",
    "Acv.C111_false",
    "Acv.C111_value_false"
   ],
   "note": "For every forest the search is minimal and maximal for a table of values that the code computes with some contents of its work arrays (C111_reported_partial); for one tree the table is compute_sdp_reg (C111_single with C71_single_tree_partial). The full claim is false of two stumps (C111_false, C111_value_false)."
  },
  {
   "property": "C112",
   "status": "partial",
   "theorems": [
    "Acv.C112_local",
    "Acv.C112_tests",
    "Acv.C112_regional_partial",
    "Acv.C112_regional_samples",
    "Acv.C112_weights_claim",
    "Acv.C112_weights_false",
    "Acv.C112_wanted_claim",
    "Acv.C112_wanted_false"
   ],
   "note": "The local stages are proved. For regions two parts of the property are false of the code: the weights are computed with the complement free instead of the set, and for a classifier the search counts the outputs that differ from the wanted one; both negations are proved with a witness."
  },
  {
   "property": "C113",
   "status": "partial",
   "theorems": [
    "Acv.C113_forest",
    "Acv.C113_weights",
    "Acv.C113_cdp",
    "Acv.C113_search",
    "Acv.C113_leaf",
    "Acv.C113_sdp",
    "Acv.C113_active",
    "Acv.C113_py",
    "Acv.C113_min_node_false",
    "Acv.C113_cf_false"
   ],
   "note": "Proved for all estimators on a projected forest, the searches on them, and the leaf-based estimators and Shapley values. False of the code for counterfactual rules: when no row with the wanted output falls in the leaf of the observation the first ten rows are taken (C113_cf_false). Also false if min_node_size, a number of rows, is kept while rows are repeated (C113_min_node_false)."
  },
  {
   "property": "C114",
   "status": "partial",
   "theorems": [
    "Acv.C114_shap_of_exp_partial",
    "Acv.C114_symmetry_partial",
    "Acv.C114_null_partial",
    "Acv.C114_efficiency_partial",
    "Acv.C114_false"
   ],
   "note": "Proved when neither the observation nor a background row lies on a threshold. False on thresholds (C114_false): compute_exp counts the neighbouring leaf too, the Shapley values do not."
  },
  {
   "property": "C115",
   "status": "partial",
   "theorems": [
    "Acv.C115_predict",
    "Acv.C115_leaf",
    "Acv.C115_sdp",
    "Acv.C115_forest",
    "Acv.C115_cdp",
    "Acv.C115_rule_partial",
    "Acv.C115_rule_false"
   ],
   "note": "Proved for everything but the bounds of rules, which are proved converted when thresholds lie strictly between -1e10 and 1e10 in both units; beyond that the bound is lost (C115_rule_false)."
  },
  {
   "property": "C116",
   "status": "proved",
   "theorems": [
    "Acv.C116_predict",
    "Acv.C116_leaf",
    "Acv.C116_sdp",
    "Acv.C116_forest",
    "Acv.C116_cdp",
    "Acv.C116_search",
    "Acv.C116_limit_false"
   ],
   "note": "Exact arithmetic. C116_limit_false proves the last sentence of the property: with a tree limit the order of the trees decides which are used."
  },
  {
   "property": "C117",
   "status": "partial",
   "theorems": [
    "Acv.C117_predict",
    "Acv.C117_leaf",
    "Acv.C117_active",
    "Acv.C117_sdp",
    "Acv.C117_forest",
    "Acv.C117_cdp",
    "Acv.C117_search_order",
    "Acv.C117_search",
    "Acv.C117_search_small_partial",
    "Acv.C117_search_small_false"
   ],
   "note": "Exact arithmetic. With at most ten columns the search follows the numbering: the reported set is not renumbered when sets tie (C117_search_small_false); the probability is, for stop off and probability 1 of the set of all columns (C117_search_small_partial)."
  },
  {
   "property": "C118",
   "status": "partial",
   "theorems": [
    "Acv.C118_predict",
    "Acv.C118_exp",
    "Acv.C118_shapley",
    "Acv.C118_more_columns",
    "Acv.C118_sdp",
    "Acv.C118_forest",
    "Acv.C118_cond",
    "Acv.C118_rule",
    "Acv.C118_search",
    "Acv.C118_sufficient",
    "Acv.C118_cat_false",
    "Acv.C118_search_false"
   ],
   "note": "Proved for the leaf estimators, the projected forest and the searches. The categorical estimators depend on unused columns in the set (C118_cat_false); a level that every set of the smallest explored size reaches may be explained by an unused column (C118_search_false)."
  },
  {
   "property": "C119",
   "status": "proved",
   "theorems": [
    "Acv.C119_forest",
    "Acv.C119_rule",
    "Acv.C119_cond",
    "Acv.C119_level",
    "Acv.C119_copies"
   ],
   "note": "Proved for the estimators of the projected forest and their searches, for arbitrary memory contents."
  },
  {
   "property": "C12",
   "status": "proved",
   "theorems": [
    "Acv.C12_cache_agrees",
    "Acv.C12_other_coalitions_differ"
   ],
   "note": "Equality for the same coalitions; with other coalitions than at construction it fails (witness)."
  },
  {
   "property": "C120",
   "status": "partial",
   "theorems": [
    "Acv.C120_cat",
    "Acv.C120_total",
    "Acv.C120_false"
   ],
   "note": "proved for compute_exp_cat and for the sum of the Shapley values; false of compute_exp and of single Shapley values, for which two trees with the same predictions are given (C120_false)"
  },
  {
   "property": "C121",
   "status": "partial",
   "theorems": [
    "Acv.C121_predict",
    "Acv.C121_shapley",
    "Acv.C121_shapley_py",
    "Acv.C121_exp",
    "Acv.C121_sdp",
    "Acv.C121_forest",
    "Acv.C121_cond",
    "Acv.C121_search",
    "Acv.C121_false"
   ],
   "note": "proved for predictions, Shapley values, the projected forest and the searches; for compute_exp and the leaf SDP with rows on the same thresholds (C121_exp, C121_sdp); without this restriction false of compute_exp and of compute_exp_cat (C121_false)"
  },
  {
   "property": "C122",
   "status": "proved",
   "theorems": [
    "Acv.C122_minimal",
    "Acv.C122_minimal_clf",
    "Acv.C122_all",
    "Acv.C122_false"
   ],
   "note": "results that reach the higher level are kept, no new explanation appears, sizes in players do not shrink, every sufficient set at the higher level contains one at the lower; C122_false shows that minimal explanations at two levels need not be nested"
  },
  {
   "property": "C123",
   "status": "proved",
   "theorems": [
    "Acv.C123_minimal",
    "Acv.C123_all",
    "Acv.C123_false"
   ],
   "note": "explanations of at least the larger size are kept, nothing is explained only with the larger size unless stop ends the first search; C123_false shows that the list of sufficient sets can gain members"
  },
  {
   "property": "C124",
   "status": "partial",
   "theorems": [
    "Acv.C124_sdp",
    "Acv.C124_cdp",
    "Acv.C124_search",
    "Acv.C124_all",
    "Acv.C124_forest",
    "Acv.C124_reg_partial",
    "Acv.C124_reg_false",
    "Acv.C124_reg_drops"
   ],
   "note": "proved for the projected forest and its searches and, unless no row is distant and a mean vanishes, for the discrete estimator of tree ensembles; false of compute_sdp_reg and compute_sdp_reg_cat (C124_reg_false, C124_reg_drops)"
  },
  {
   "property": "C125",
   "status": "partial",
   "theorems": [
    "Acv.C125_rows_partial",
    "Acv.C125_agree",
    "Acv.C125_false",
    "Acv.C125_rules"
   ],
   "note": "proved when no split on an old column lies below a split on a new one; false in general (C125_false), and the rule of a larger set need not be narrower (C125_rules)"
  },
  {
   "property": "C126",
   "status": "partial",
   "theorems": [
    "Acv.C126_cat",
    "Acv.C126_norm",
    "Acv.C126_exp_partial",
    "Acv.C126_shap_partial",
    "Acv.C126_claim",
    "Acv.C126_constant_claim",
    "Acv.C126_false"
   ],
   "note": "compute_exp_cat and the normalised compute_exp keep the range. The full claim is false of compute_exp (both implementations) and of the Shapley values (C126_false: 3/2 for a model that predicts 1 everywhere, and non-zero Shapley values of a constant model); bounds by the sizes of the leaf values are proved instead."
  },
  {
   "property": "C127",
   "status": "partial",
   "theorems": [
    "Acv.C127_cat",
    "Acv.C127_norm",
    "Acv.C127_notoptimized",
    "Acv.C127_discrete",
    "Acv.C127_shap_partial",
    "Acv.C127_exp_claim",
    "Acv.C127_shap_claim",
    "Acv.C127_false",
    "Acv.C127_normalized_false"
   ],
   "note": "True of compute_exp_cat, compute_exp_normalized, py_shap_values_notoptimized and py_shap_values_discrete_notoptimized. False of compute_exp (both implementations), shap_values and shap_values_normalized (C127_false, C127_normalized_false); for shap_values only the sum over all columns and classes is 0 (C127_shap_partial)."
  },
  {
   "property": "C128",
   "status": "partial",
   "theorems": [
    "Acv.C128_order",
    "Acv.C128_parts",
    "Acv.C128_again",
    "Acv.C128_wsdp_again",
    "Acv.C128_grow_claim",
    "Acv.C128_grow_order_claim",
    "Acv.C128_grow_false",
    "Acv.C128_grow_values"
   ],
   "note": "Proved for remove_in and, for a second call, remove_in_wsdp. The part about growing a rule is false of find_union: a neighbour that does not fit is deleted and not tried again (C128_grow_false)."
  },
  {
   "property": "C129",
   "status": "proved",
   "theorems": [
    "Acv.C129_sdp",
    "Acv.C129_classes",
    "Acv.C129_search",
    "Acv.C129_v0",
    "Acv.C129_exp",
    "Acv.C129_percentile",
    "Acv.C129_quantile",
    "Acv.C129_quantile_diff",
    "Acv.C129_leaves",
    "Acv.C129_clf",
    "Acv.C129_quantile_claim",
    "Acv.C129_quantile_false"
   ],
   "note": "All stated parts are proved. Quantiles do not follow conversions that are not affine, because the percentile interpolates (C129_quantile_false)."
  },
  {
   "property": "C13",
   "status": "proved",
   "theorems": [
    "Acv.C13_race_free_schedule_independent",
    "Acv.C13_complete_schedule_exists",
    "Acv.C13_race_loses_update",
    "Acv.C13_row_loop",
    "Acv.C13_shapley_schedule_independent",
    "Acv.C13_accumulation",
    "Acv.C13_exp",
    "Acv.C13_exp_cat",
    "Acv.C13_sdp_clf_cat",
    "Acv.C13_sdp_clf",
    "Acv.C13_shapley_any_arithmetic",
    "Acv.C13_tables_any_arithmetic",
    "Acv.C13_exact_instance",
    "Acv.C13_tables_exact_instance"
   ],
   "note": "General theorem on interleavings of loads and stores, for cells of any type, instantiated end to end to the leaf loops of the Shapley routine, of compute_exp, compute_exp_cat, compute_sdp_clf_cat and compute_sdp_clf, and to the row loops. The leaf loops are also proved schedule independent for an arbitrary arithmetic on which no law is assumed, so also with floating point rounding."
  },
  {
   "property": "C130",
   "status": "partial",
   "theorems": [
    "Acv.C130_leaves",
    "Acv.C130_cat",
    "Acv.C130_forest",
    "Acv.C130_percentile_equal",
    "Acv.C130_percentile_partial",
    "Acv.C130_quantile_partial",
    "Acv.C130_percentile_false",
    "Acv.C130_quantile_false",
    "Acv.C130_model_false"
   ],
   "note": "Proved for raised leaf values (compute_exp in both implementations, compute_exp_cat), for compute_exp_cat of two different models, for expectations and distribution functions of the projected forest, and for quantiles when the raised outputs keep their order, when all non-zero weights are equal or when the forest has one tree. The rest is false of the code: with unequal weights a raised output that overtakes another can lower a quantile (C130_percentile_false, C130_quantile_false), and compute_exp of two different models depends on the order of the tests (C130_model_false)."
  },
  {
   "property": "C131",
   "status": "partial",
   "theorems": [
    "Acv.C131_reported",
    "Acv.C131_python",
    "Acv.C131_explained_partial",
    "Acv.C131_explained_false"
   ],
   "note": "What the search reports is proved for all forests and groups; the values are those of the Python compute_sdp_reg before its clamp. That every observation is explained is proved for one tree and outputs other than 0; it is false for forests (C131_explained_false: the value of the full set is 0 for an observation of the background)."
  },
  {
   "property": "C132",
   "status": "partial",
   "theorems": [
    "Acv.C132_up_to_fifteen",
    "Acv.C132_sixteen",
    "Acv.C132_answers_iff",
    "Acv.C132_all_explained",
    "Acv.C132_hard_sample",
    "Acv.C132_no_stop",
    "Acv.C132_reported_partial",
    "Acv.C132_claim_false"
   ],
   "note": "Proved for all inputs: the same as the searches of C29 up to 15 players; always a result with 16 columns and stop=True; with 17 or more, a result exactly if every sample has a set that reaches the level among the enumerated sizes; what is reported is correct. False: one hard sample takes the result of the others away, and stop=False with 16 players or more never has a result."
  },
  {
   "property": "C133",
   "status": "partial",
   "theorems": [
    "Acv.C133_shapley",
    "Acv.C133_normalized",
    "Acv.C133_active",
    "Acv.C133_search_partial",
    "Acv.C133_sdp_order",
    "Acv.C133_search_false",
    "Acv.C133_stop_false"
   ],
   "note": "Full for the three kinds of Shapley values. For the searches with stop=False the same samples reach the level with the same probability. False: the reported set when two sets tie, and with stop=True which samples reach the level, since the search stops by the size of the last group."
  },
  {
   "property": "C134",
   "status": "proved",
   "theorems": [
    "Acv.C134_efficiency",
    "Acv.C134_forest",
    "Acv.C134_new_observation"
   ],
   "note": "For an observation that is not a background row the weights can all be 0 (C134_new_observation)."
  },
  {
   "property": "C135",
   "status": "partial",
   "theorems": [
    "Acv.C135_cdf",
    "Acv.C135_rules_partial",
    "Acv.C135_numbering_false",
    "Acv.C135_python_false"
   ],
   "note": "False for trees that number a child before its parent (C135_numbering_false) and for the Python versions (C135_python_false); the set-based theorem also asks that the cell before the tree looks like a leaf, as C24."
  },
  {
   "property": "C136",
   "status": "partial",
   "theorems": [
    "Acv.C136_depth_partial",
    "Acv.C136_joined_partial",
    "Acv.C136_false",
    "Acv.C136_python_partial"
   ],
   "note": "False for a first tree whose preceding memory cell holds a test on the chosen columns (C136_false); true of every tree whose preceding cell looks like a leaf or padding. Strengthens C119, which walks both forests to the same depth."
  },
  {
   "property": "C137",
   "status": "partial",
   "theorems": [
    "Acv.C137_forest",
    "Acv.C137_exp",
    "Acv.C137_sdp_partial",
    "Acv.C137_repeated_false",
    "Acv.C137_reg",
    "Acv.C137_reg_python_partial",
    "Acv.C137_reg_repeated_false"
   ],
   "note": "Order never matters; repetitions do not matter in the projected forest, in the expectations of a tree ensemble and in the compiled regression probabilities. For the other same decision probabilities of tree ensembles and black boxes the claim with repetitions is false: a list as long as the number of columns is taken for all of them, and witnesses are proved for six functions (C137_repeated_false, C137_reg_repeated_false)."
  },
  {
   "property": "C138",
   "status": "partial",
   "theorems": [
    "Acv.C138_dominance",
    "Acv.C138_bounds",
    "Acv.C138_compare",
    "Acv.C138_normalised",
    "Acv.C138_swing_bounds",
    "Acv.C138_swing",
    "Acv.C138_exp_partial",
    "Acv.C138_exp_order_partial",
    "Acv.C138_sign_false"
   ],
   "note": "Proved in full for the game of the leaves (with and without normalisation) and for the swing values and their threshold test. Stated with compute_exp it holds if neither the observation nor a background row lies on a threshold; C138_sign_false is a witness on a threshold."
  },
  {
   "property": "C139",
   "status": "proved",
   "theorems": [
    "Acv.C139_groups",
    "Acv.C139_companions",
    "Acv.C139_normalized"
   ],
   "note": "For shap_values and shap_values_normalized (the latter if every leaf holds a background row) with any valid groups."
  },
  {
   "property": "C14",
   "status": "proved",
   "theorems": [
    "Acv.C14_binomial_exact",
    "Acv.C14_rejected_argument",
    "Acv.C14_rounded",
    "Acv.C14_double",
    "Acv.C14_double_false"
   ],
   "note": "Exact for all naturals in integer arithmetic; with the rounding of double precision exact while products stay at most 2^53 (all N up to 51), and wrong by one at N = 55, k = 26. The exponent range of doubles is not modelled."
  },
  {
   "property": "C140",
   "status": "proved",
   "theorems": [
    "Acv.C140_value",
    "Acv.C140_zero",
    "Acv.C140_dummy_false"
   ],
   "note": "For swing_sv_clf_slow. C140_value is the exact value, C140_zero the condition under which it is 0, and C140_dummy_false a witness that an unused column can have a positive value."
  },
  {
   "property": "C15",
   "status": "partial",
   "theorems": [
    "Acv.C15_buffers_too_small",
    "Acv.C15_max_var_is_last_tree",
    "Acv.C15_buffers_large_enough_partial",
    "Acv.C15_fits_iff"
   ],
   "note": "False of the code: max_var is that of the last tree. Exact condition proved."
  },
  {
   "property": "C16",
   "status": "proved",
   "theorems": [
    "Acv.C16_null_variables_zero",
    "Acv.C16_straddling_coalition_nonzero",
    "Acv.C16_empty_active_nan"
   ],
   "note": "Cython routine; every S*, N*, C that does not straddle S*; witnesses show the two side conditions are needed."
  },
  {
   "property": "C17",
   "status": "proved",
   "theorems": [
    "Acv.C17_active_is_shapley_value",
    "Acv.C17_active_efficiency",
    "Acv.C17_empty_leaf_nan"
   ],
   "note": "Cython routine; every leaf must contain a background row because the code divides unguarded."
  },
  {
   "property": "C18",
   "status": "proved",
   "theorems": [
    "Acv.C18_adaptive_rows",
    "Acv.C18_documented_layout_differs",
    "Acv.nullRow_length"
   ],
   "note": "Rows built by get_null_coalition; includes the complete coalition. The documented layout of N_star gives other values (witness)."
  },
  {
   "property": "C19",
   "status": "partial",
   "theorems": [
    "Acv.C19_python_sdp_probability",
    "Acv.C19_cat_sdp_probability",
    "Acv.C19_cython_false",
    "Acv.C19_cython_endpoints_partial",
    "Acv.C19_cat_is_frequency",
    "Acv.C19_python_formula",
    "Acv.C19_cython_formula"
   ],
   "note": "Proved for the Python and categorical implementations; the Cython compute_sdp_clf is not clamped and returns 36/35 on a concrete tree (negation proved); its endpoints are proved."
  },
  {
   "property": "C20",
   "status": "partial",
   "theorems": [
    "Acv.C20_cython_false",
    "Acv.C20_python_false",
    "Acv.C20_background_row_on_threshold",
    "Acv.C20_full_coalition_is_prediction_partial",
    "Acv.C20_exp_is_leaf_game",
    "Acv.C20_python_combination",
    "Acv.C20_cat_is_conditional_mean"
   ],
   "note": "False on thresholds (closed intervals count a boundary point in two leaves, negation proved); proved off the thresholds, up to the base offset; combination with coefficients in [0,1] and the categorical version proved for all inputs."
  },
  {
   "property": "C21",
   "status": "partial",
   "theorems": [
    "Acv.C21_sdp_ddp_are_probabilities",
    "Acv.C21_sum_is_live_fraction",
    "Acv.C21_complement_false",
    "Acv.C21_complement_partial",
    "Acv.C21_is_mean_frequency"
   ],
   "note": "Range proved for all inputs; SDP+DDP is the fraction of trees with a non-empty cell, so the complement is false when a cell is empty (witness) and proved otherwise."
  },
  {
   "property": "C22",
   "status": "proved",
   "theorems": [
    "Acv.C22_cell_is_same_route",
    "Acv.C22_full_set_is_leaf"
   ],
   "note": "Proved for set and vector variants, for memories whose cell before each tree looks like a leaf (see C24)."
  },
  {
   "property": "C23",
   "status": "partial",
   "theorems": [
    "Acv.C23_python_min_size",
    "Acv.C23_cython_false",
    "Acv.C23_cython_min_size_partial",
    "Acv.C23_cython_cell_may_be_empty"
   ],
   "note": "Proved for the Python versions; false for the Cython versions (witness); partial when enough rows agree with x on S."
  },
  {
   "property": "C24",
   "status": "partial",
   "theorems": [
    "Acv.C24_reads_outside_false",
    "Acv.C24_depends_on_forest_only_partial",
    "Acv.C24_interior_trees",
    "Acv.C24_balanced"
   ],
   "note": "False in general: cell -1 before the first tree is read (witness). Proved when that cell looks like a leaf, for interior trees of a padded array, and for balanced trees."
  },
  {
   "property": "C25",
   "status": "partial",
   "theorems": [
    "Acv.C25_huge_values_false",
    "Acv.C25_rule_contains_instance_partial"
   ],
   "note": "Proved for values in (-1e10, 1e10]; false beyond (witness)."
  },
  {
   "property": "C26",
   "status": "proved",
   "theorems": [
    "Acv.C26_same_sdp_in_rule",
    "Acv.C26_rule_sdp_is_sdp"
   ],
   "note": "For every memory content."
  },
  {
   "property": "C27",
   "status": "partial",
   "theorems": [
    "Acv.C27_weights",
    "Acv.C27_sum_one_false",
    "Acv.C27_sum_one_partial"
   ],
   "note": "All parts proved; the sum is 1 only when no cell is empty (witness)."
  },
  {
   "property": "C28",
   "status": "partial",
   "theorems": [
    "Acv.C28_cdf",
    "Acv.C28_partial",
    "Acv.C28_empty_cell_false"
   ],
   "note": "Monotone, in [0,1], 0 below all outputs; 1 above all outputs and mean within range only when no cell is empty (witness)."
  },
  {
   "property": "C29",
   "status": "partial",
   "theorems": [
    "Acv.C29_reported_partial",
    "Acv.C29_full_one",
    "Acv.C29_not_found",
    "Acv.C29_clf_reported_partial",
    "Acv.C29_full_set_false"
   ],
   "note": "False for the set of all columns, which is reported with SDP 1 whatever its SDP is (witness with a real forest); everything else proved for every SDP function, groups, pi in (0,1], minimal and stop."
  },
  {
   "property": "C30",
   "status": "proved",
   "theorems": [
    "Acv.C30_independent_rf",
    "Acv.C30_independent_clf",
    "Acv.C30_independent_msdp"
   ],
   "note": "The report of a sample is a function of its own probabilities only."
  },
  {
   "property": "C31",
   "status": "proved",
   "theorems": [
    "Acv.C31_frequency_rf",
    "Acv.C31_frequency_clf",
    "Acv.C31_frequency_msdp"
   ],
   "note": "Every batch and every pi; msdp for at most 15 players (beyond, the code raises)."
  },
  {
   "property": "C32",
   "status": "proved",
   "theorems": [
    "Acv.C32_all_sufficient",
    "Acv.C32_global"
   ],
   "note": "Every SDP function, not assumed monotone; also the global frequency returned beside."
  },
  {
   "property": "C33",
   "status": "partial",
   "theorems": [
    "Acv.C33_complete_partial",
    "Acv.C33_each_once",
    "Acv.C33_cut",
    "Acv.C33_false_16",
    "Acv.C33_read_beyond"
   ],
   "note": "Proved up to 15 players (all calls of the forest searches); false from 16 players on: the list of sizes is cut (witness) or read beyond its end."
  },
  {
   "property": "C34",
   "status": "proved",
   "theorems": [
    "Acv.C34_partition",
    "Acv.C34_of_search"
   ],
   "note": "General rows and end to end from the search."
  },
  {
   "property": "C35",
   "status": "proved",
   "theorems": [
    "Acv.C35_local"
   ],
   "note": "NaN if no sample has an explanation."
  },
  {
   "property": "C36",
   "status": "proved",
   "theorems": [
    "Acv.C36_max_rule",
    "Acv.C36_returns",
    "Acv.C36_one_column_raises",
    "Acv.C36_volume_grows",
    "Acv.C36_contains_instance"
   ],
   "note": "For every oracle of random draws and acceptance decisions. With one column the function raises (np.squeeze)."
  },
  {
   "property": "C37",
   "status": "partial",
   "theorems": [
    "Acv.C37_contains_original",
    "Acv.C37_bounds",
    "Acv.C37_algo2_contains",
    "Acv.C37_union_one_column_partial",
    "Acv.C37_algo2_one_column_partial",
    "Acv.C37_corner_false",
    "Acv.C37_one_neighbour"
   ],
   "note": "The extended rule always contains the original and takes its bounds from the rules. The union claim is proved for one column; it is false with two columns (C37_corner_false: two neighbours sharing a corner produce a rule covering observations of neither)."
  },
  {
   "property": "C38",
   "status": "partial",
   "theorems": [
    "Acv.C38_remove_in",
    "Acv.C38_unique_sorted",
    "Acv.C38_wsdp_partial",
    "Acv.C38_wsdp_coverage_false",
    "Acv.C38_wsdp_duplicates_vanish",
    "Acv.C38_old_wsdp_pairing_false"
   ],
   "note": "remove_in keeps exactly the maximal rules and the coverage (full), sorted and without duplicates (C38_unique_sorted). remove_in_wsdp keeps the pairing but removes the larger rule of a nested pair and every duplicate; the coverage claim is false for it. The older version in utils.py breaks the pairing."
  },
  {
   "property": "C39",
   "status": "partial",
   "theorems": [
    "Acv.C39_classifier_partial",
    "Acv.C39_regression_partial",
    "Acv.C39_classifier_unfiltered",
    "Acv.C39_regression_unfiltered",
    "Acv.C39_fitted_classifier",
    "Acv.C39_false",
    "Acv.C39_raises",
    "Acv.C39_small_coverage",
    "Acv.C39_nan_hides"
   ],
   "note": "Full statement proved when the coverage filters no covering rule (as with the default coverage=0) and accuracies are numbers, and for fit followed by predict. False in general: ValueError when covered only by rules of insufficient coverage, an answer of insufficient coverage on accuracy ties, NaN accuracy of a rule without rows."
  },
  {
   "property": "C40",
   "status": "proved",
   "theorems": [
    "Acv.C40_sample",
    "Acv.C40_inside",
    "Acv.C40_returns",
    "Acv.C40_old_sampler",
    "Acv.C40_end_to_end",
    "Acv.C40_greedy"
   ],
   "note": "The older sampler of utils.py raises when an interval holds no training value (C40_old_sampler characterises it)."
  },
  {
   "property": "C41",
   "status": "partial",
   "theorems": [
    "Acv.C41_partial",
    "Acv.C41_false",
    "Acv.C41_frozen",
    "Acv.C41_predict",
    "Acv.C41_not_fitted",
    "Acv.C41_failed_fit",
    "Acv.C41_rules"
   ],
   "note": "False after a refit (witness); proved for histories in which no fit follows an explanation, with the exact behaviour of all others (the cells stay those of the first explanation)."
  },
  {
   "property": "C42",
   "status": "partial",
   "theorems": [
    "Acv.C42_partial",
    "Acv.C42_structure",
    "Acv.C42_weights",
    "Acv.C42_columns_false",
    "Acv.C42_one_hot_false",
    "Acv.C42_nan_false"
   ],
   "note": "Proved for numeric splits, no categorical columns, and missing values below every border; refuted with witnesses for categorical columns, one-hot splits and nan_mode Max. scale_and_bias is ignored by the loader and not modelled."
  },
  {
   "property": "C43",
   "status": "partial",
   "theorems": [
    "Acv.C43_partial",
    "Acv.C43_buffer_partial",
    "Acv.C43_buffer_iff",
    "Acv.C43_false",
    "Acv.C43_sindex",
    "Acv.C43_threshold",
    "Acv.C43_structure",
    "Acv.C43_tree",
    "Acv.C43_double_false",
    "Acv.C43_gbtree",
    "Acv.C43_layout"
   ],
   "note": "Round trip of the whole binary format, decoding of every 32-bit split index, thresholds for every pair of floats and predictions for every row of floats are proved. False exactly when base_score starts with one of the bytes b, i, n, f (for instance 0.9), because lstrip removes bytes and not a prefix; and false for rows of doubles in models whose input type is left at double."
  },
  {
   "property": "C44",
   "status": "partial",
   "theorems": [
    "Acv.C44_partial",
    "Acv.C44_structure",
    "Acv.C44_complete",
    "Acv.C44_nan_false",
    "Acv.C44_zero_false",
    "Acv.C44_category_false",
    "Acv.C44_raises",
    "Acv.C44_category"
   ],
   "note": "Proved for every nested numeric tree and every observation whose missing values the loader sends where LightGBM does; refuted with witnesses for NaN with missing_type None, zero as missing, and categorical splits. A one-leaf tree makes the loader raise and the whole model is left without trees."
  },
  {
   "property": "C45",
   "status": "proved",
   "theorems": [
    "Acv.C45_defined",
    "Acv.C45_range",
    "Acv.C45_monotone",
    "Acv.C45_sorter",
    "Acv.C45_zero_weight",
    "Acv.C45_scale",
    "Acv.C45_value_partial",
    "Acv.C45_forest"
   ],
   "note": "Definedness, range, monotonicity, zero weights, scaling of the weights and the forest quantile are proved in full; the exact value is proved for distinct outputs."
  },
  {
   "property": "C46",
   "status": "proved",
   "theorems": [
    "Acv.C46_parts",
    "Acv.C46_signs",
    "Acv.C46_counts",
    "Acv.C46_coalitions"
   ],
   "note": "Both Cython versions share the loops; parts for any players and value function, counts for at most 32 players (the mask counter is 32-bit). The Python swing_tree_shap functions are not modelled."
  },
  {
   "property": "C47",
   "status": "partial",
   "theorems": [
    "Acv.C47_selection",
    "Acv.C47_local",
    "Acv.C47_regional",
    "Acv.C47_run_partial",
    "Acv.C47_regression_level_false"
   ],
   "note": "True of the selection and of classifiers. False of regressions: run_local_counterfactual_rules passes acc_level as pi_level."
  },
  {
   "property": "C48",
   "status": "partial",
   "theorems": [
    "Acv.C48_rf_rule_weights_partial",
    "Acv.C48_own_target_is_sdp",
    "Acv.C48_cond",
    "Acv.C48_intv",
    "Acv.C48_intv_false",
    "Acv.C48_ddp_intv"
   ],
   "note": "Holds of the rf, rule, weights and cond functions (and of the regression branch of the interventional one). False of compute_cdp_intv_weights / importance_cdp_intv for classifiers: they sum the rows whose output differs from the target (C48_intv_false), i.e. return the interventional DDP."
  },
  {
   "property": "C49",
   "status": "proved",
   "theorems": [
    "Acv.C49_python_equals_cython",
    "Acv.C49_singleton_group_raises",
    "Acv.C49_empty_leaf_nan"
   ],
   "note": "Both versions agree for covered leaves and groups of at least two columns; the two exceptions are proved too."
  },
  {
   "property": "C50",
   "status": "partial",
   "theorems": [
    "Acv.C50_padded_partial",
    "Acv.C50_padded_clf_partial",
    "Acv.C50_padded_msdp",
    "Acv.C50_null_row",
    "Acv.C50_stale_false"
   ],
   "note": "Proved without groups (and for the Python search with groups); false for the Cython searches with groups: stale cells (witness)."
  },
  {
   "property": "C51",
   "status": "partial",
   "theorems": [
    "Acv.C51_background_partial",
    "Acv.C51_gap_false"
   ],
   "note": "Holds for every background row in the rule; the full statement is false, witness: an observation between two background rows whose cell is empty in one tree."
  },
  {
   "property": "C52",
   "status": "partial",
   "theorems": [
    "Acv.C52_partial",
    "Acv.C52_close_rules_false"
   ],
   "note": "Distinct rules kept once; the explanation is the rule's own unless another given rule is equal up to np.allclose. False for close rules."
  },
  {
   "property": "C53",
   "status": "partial",
   "theorems": [
    "Acv.C53_coverage_partial",
    "Acv.C53_classifier",
    "Acv.C53_regression",
    "Acv.C53_empty_coverage_false",
    "Acv.C53_frequency"
   ],
   "note": "Everything is proved except the coverage for an empty set of columns, which is reported as 1/N (C53_empty_coverage_false)."
  },
  {
   "property": "C54",
   "status": "proved",
   "theorems": [
    "Acv.C54_rows_kept",
    "Acv.C54_cells",
    "Acv.C54_weights",
    "Acv.C54_point"
   ],
   "note": "Exact characterisation of the rows (C54_cells) assumes a well-formed stored forest and that min_node_size does not stop the walk early, as the statement of the property says of the rows used; C54_rows_kept and C54_weights hold for any memory."
  },
  {
   "property": "C55",
   "status": "partial",
   "theorems": [
    "Acv.C55_partial",
    "Acv.C55_vanishes"
   ],
   "note": "False: two leaves equal on the divergent set give a repeated rule and remove_in_wsdp deletes both. Proved when the selected rules are distinct."
  },
  {
   "property": "C56",
   "status": "proved",
   "theorems": [
    "Acv.C56_enlarged",
    "Acv.C56_returns",
    "Acv.C56_all_leaves"
   ],
   "note": ""
  },
  {
   "property": "C57",
   "status": "partial",
   "theorems": [
    "Acv.C57_leaves",
    "Acv.C57_accuracy_partial",
    "Acv.C57_row_false",
    "Acv.C57_accuracy_false"
   ],
   "note": "False: rounding to two decimals can empty a leaf, whose NaN accuracy wins np.argmax. Proved for leaves that contain a training row."
  },
  {
   "property": "C58",
   "status": "partial",
   "theorems": [
    "Acv.C58_coverage_partial",
    "Acv.C58_coverage_false"
   ],
   "note": "The reported coverage is always 1."
  },
  {
   "property": "C59",
   "status": "partial",
   "theorems": [
    "Acv.C59_order_partial",
    "Acv.C59_ties_false"
   ],
   "note": "Proved for distinct outputs; false with tied outputs of different weights (witness)."
  },
  {
   "property": "C60",
   "status": "partial",
   "theorems": [
    "Acv.C60_shapley_partial",
    "Acv.C60_efficiency",
    "Acv.C60_direct_false",
    "Acv.C60_direct_value",
    "Acv.C60_direct_first_value",
    "Acv.C60_direct_last_value",
    "Acv.C60_direct_steps"
   ],
   "note": "swing_sv_clf_slow: Shapley value off the split values, efficiency always. swing_sv_clf (direct) is not efficient: refuted for every content of its unset variables. What its steps are is proved in C60_direct_value, C60_direct_first_value and C60_direct_last_value."
  },
  {
   "property": "C61",
   "status": "proved",
   "theorems": [
    "Acv.C61_regressor",
    "Acv.C61_classifier",
    "Acv.C61_boosting",
    "Acv.C61_single"
   ],
   "note": "Complete observations (sklearn trees do not accept missing values). Leaves of classifiers hold non-negative counts that are not all zero."
  },
  {
   "property": "C62",
   "status": "proved",
   "theorems": [
    "Acv.C62_tree",
    "Acv.C62_refused",
    "Acv.C62_forest",
    "Acv.C62_boosting"
   ],
   "note": "Exact rationals; a node whose class statistics sum to zero divides by zero in numpy, which the model reads as 0."
  },
  {
   "property": "C63",
   "status": "proved",
   "theorems": [
    "Acv.C63_stacked",
    "Acv.C63_incomplete"
   ],
   "note": ""
  },
  {
   "property": "C64",
   "status": "partial",
   "theorems": [
    "Acv.C64_boosting_partial",
    "Acv.C64_forest",
    "Acv.C64_forest_false",
    "Acv.C64_rounds_false",
    "Acv.C64_shap_false"
   ],
   "note": "True for summed ensembles. False for averaged forests (scaled by L/n), for rounds of multi-class models (the limit counts single trees) and for Shapley values, which use all trees."
  },
  {
   "property": "C65",
   "status": "partial",
   "theorems": [
    "Acv.C65_scores",
    "Acv.C65_partial",
    "Acv.C65_false"
   ],
   "note": "Probabilities that sum to 1, but the average of the sigmoids of the trees, not the sigmoid of the sum; the preferred class can differ."
  },
  {
   "property": "C66",
   "status": "partial",
   "theorems": [
    "Acv.C66_leaf",
    "Acv.C66_inner",
    "Acv.C66_predict_partial",
    "Acv.C66_one_column_false"
   ],
   "note": "Holds when each tree was grown on at least two columns. A tree on one column raises IndexError: the leaf marker -2 is used as an index into the tree's columns. sklearn's average path length is an arbitrary function."
  },
  {
   "property": "C67",
   "status": "partial",
   "theorems": [
    "Acv.C67_structure",
    "Acv.C67_partial",
    "Acv.C67_predict_partial",
    "Acv.C67_categorical_false"
   ],
   "note": "Holds without categorical splits; a categorical split is loaded as a numerical one and the claim is refuted. Infinite thresholds are left out."
  },
  {
   "property": "C68",
   "status": "partial",
   "theorems": [
    "Acv.C68_structure",
    "Acv.C68_partial",
    "Acv.C68_threshold_false",
    "Acv.C68_gap"
   ],
   "note": "Holds off the split conditions; a value equal to a split condition goes the other way (XGBoost tests <, the explainer <=). A gap in the numbering becomes a leaf of value 0 and arbitrary weight."
  },
  {
   "property": "C69",
   "status": "partial",
   "theorems": [
    "Acv.C69_frequency_partial",
    "Acv.C69_small_tolerance",
    "Acv.C69_offset_partial",
    "Acv.C69_python",
    "Acv.C69_zero_false",
    "Acv.C69_offset_false"
   ],
   "note": "Exact for ensembles without base offset off the thresholds, except when no agreeing row is distant and the mean of y(z)^2-2y(x)y(z) is 0 (then 0 is returned; never happens if tX < y(x)^2). False with a base offset."
  },
  {
   "property": "C70",
   "status": "partial",
   "theorems": [
    "Acv.C70_independent_partial",
    "Acv.C70_all_columns_partial",
    "Acv.C70_python",
    "Acv.C70_independent_false",
    "Acv.C70_range_false",
    "Acv.C70_unreachable_leaves",
    "Acv.C70_three_trees"
   ],
   "note": "Proved for one tree (independence, full set) and for the clamped Python version (range, full and empty set). False for two trees: the same row given twice gets two values; false range for one tree."
  },
  {
   "property": "C71",
   "status": "partial",
   "theorems": [
    "Acv.C71_reported_partial",
    "Acv.C71_independent",
    "Acv.C71_frequency",
    "Acv.C71_single_tree_partial",
    "Acv.C71_groups_false"
   ],
   "note": "Proved for the discrete search and for the leaf search of one tree without groups, except that the set of all columns is reported with 1. False for the leaf search with groups."
  },
  {
   "property": "C72",
   "status": "partial",
   "theorems": [
    "Acv.C72_convex_combination",
    "Acv.C72_is_normalised_game",
    "Acv.C72_extremes_partial",
    "Acv.C72_extremes_false",
    "Acv.C72_empty_leaf_nan"
   ],
   "note": "Convex combination proved for all inputs with covered leaves; the extreme cases are false for entries on a threshold and proved off thresholds."
  },
  {
   "property": "C73",
   "status": "partial",
   "theorems": [
    "Acv.C73_is_shapley_value",
    "Acv.C73_efficiency_partial",
    "Acv.C73_efficiency_false",
    "Acv.C73_unused_variable_zero",
    "Acv.C73_not_values_of_exp_normalized"
   ],
   "note": "Shapley values of the leafwise normalised game and efficiency, when every leaf holds a background row; false otherwise."
  },
  {
   "property": "C74",
   "status": "partial",
   "theorems": [
    "Acv.C74_cache_agrees_false",
    "Acv.C74_cache_agrees_partial",
    "Acv.C74_cache_exact"
   ],
   "note": "Proved for observations with no entry on a threshold; false on a threshold, where the cached version returns the uncached values of the observation moved up a little (C74_cache_exact, for every observation)."
  },
  {
   "property": "C75",
   "status": "partial",
   "theorems": [
    "Acv.C75_enumeration_is_shapley_value",
    "Acv.C75_notoptimized_partial",
    "Acv.C75_discrete",
    "Acv.C75_discrete_needs_equal_row"
   ],
   "note": "The enumeration and the discrete version are proved for all inputs; the normalised version with covered leaves and off thresholds."
  },
  {
   "property": "C76",
   "status": "partial",
   "theorems": [
    "Acv.C76_divergent_partial",
    "Acv.C76_counterfactual_partial",
    "Acv.C76_intv_partial",
    "Acv.C76_not_found",
    "Acv.C76_frequency",
    "Acv.C76_independent",
    "Acv.C76_full_set_false"
   ],
   "note": "The set of all columns is reported with probability 1 whatever its probability is; everything else holds."
  },
  {
   "property": "C77",
   "status": "partial",
   "theorems": [
    "Acv.C77_sets_partial",
    "Acv.C77_probabilities_shifted",
    "Acv.C77_divergent_false"
   ],
   "note": "False twice: the probability is asked for the set itself, not for its complement, and the list of probabilities is cut at the wrong level (first sample dropped, mark -1 kept)."
  },
  {
   "property": "C78",
   "status": "partial",
   "theorems": [
    "Acv.C78_cython_is_python",
    "Acv.C78_quantile",
    "Acv.C78_diff",
    "Acv.C78_diff_defined",
    "Acv.C78_diff_reflect_partial",
    "Acv.C78_diff_ties_false"
   ],
   "note": "Proved in full except that the reflection q -> 100-q of the difference quantile needs distinct outputs: with ties of unequal weight it is false of the code (C78_diff_ties_false), since the sort is stable in both directions. The difference version has no minimum-size fallback, so it raises an error when every cell is empty (C78_diff_defined)."
  },
  {
   "property": "C79",
   "status": "partial",
   "theorems": [
    "Acv.C79_rule",
    "Acv.C79_contains_partial",
    "Acv.C79_huge_values_false",
    "Acv.C79_fails_iff",
    "Acv.C79_no_columns",
    "Acv.C79_forest_rows_false",
    "Acv.C79_sdp_false",
    "Acv.C79_never_extended"
   ],
   "note": "The shape of the rule, its minimum size per tree and the exact failure condition are proved. False of the code: containment beyond 1e10, the minimum size for the intersection of the trees, the returned probability (always 0), and the extension (never happens for pi > 0)."
  },
  {
   "property": "C80",
   "status": "partial",
   "theorems": [
    "Acv.C80_is_mean_frequency",
    "Acv.C80_versions_agree",
    "Acv.C80_early_stop_false",
    "Acv.C80_rule_partial",
    "Acv.C80_maxrule",
    "Acv.C80_search_partial"
   ],
   "note": "All proved, with the exceptions found for the current versions (values beyond 1e10, full set of columns counted as probability 1). The two versions differ after an early stop when the nodes of a level are not numbered from left to right (C80_early_stop_false)."
  },
  {
   "property": "C81",
   "status": "partial",
   "theorems": [
    "Acv.C81_is_mean_frequency",
    "Acv.C81_probability",
    "Acv.C81_exp",
    "Acv.C81_python_is_cython_partial",
    "Acv.C81_python_is_cython_false"
   ],
   "note": "The Python functions are mean frequencies and probabilities for every input. Agreement with Cython is proved when at least min_node_size rows travel like x in every tree; in general Python keeps the larger cell and Cython the smaller (negation proved)."
  },
  {
   "property": "C82",
   "status": "partial",
   "theorems": [
    "Acv.C82_clusters",
    "Acv.C82_partition",
    "Acv.C82_groups_partial",
    "Acv.C82_groups_false",
    "Acv.C82_groups_twice"
   ],
   "note": "without groups proved in full; with groups the statement is false (None, or a cluster twice): the clusters still consist of the columns and cover them when the call returns"
  },
  {
   "property": "C83",
   "status": "proved",
   "theorems": [
    "Acv.C83_variables",
    "Acv.C83_coalitions",
    "Acv.C83_coalition_value"
   ],
   "note": "without groups, as stated"
  },
  {
   "property": "C84",
   "status": "proved",
   "theorems": [
    "Acv.C84_python_swing",
    "Acv.C84_python_swing_clf",
    "Acv.C84_efficiency",
    "Acv.C84_python_is_cython"
   ],
   "note": "groups of at least two columns (chain_l fails on a group of one column); agreement with Cython for at most 32 players (int shift)"
  },
  {
   "property": "C85",
   "status": "partial",
   "theorems": [
    "Acv.C85_active_python_value_partial",
    "Acv.C85_active_python_is_cython",
    "Acv.C85_active_python_efficiency",
    "Acv.C85_active_python_null",
    "Acv.C85_on_split_false"
   ],
   "note": "proved for observations on no split; on a split the statement is false (C85_on_split_false): the observation is tested against closed rectangles and counted in two leaves"
  },
  {
   "property": "C86",
   "status": "proved",
   "theorems": [
    "Acv.C86_msdp_clf",
    "Acv.C86_msdp_reg",
    "Acv.C86_msdp_range",
    "Acv.C86_sufficient",
    "Acv.C86_threshold",
    "Acv.C86_not_monotone",
    "Acv.C86_search",
    "Acv.C86_search_values",
    "Acv.C86_players_15"
   ],
   "note": "For a non-empty background (the mean over no row is NaN). With groups, at most 15 players, as without groups always; the value below pi is only exhaustive without the early stop."
  },
  {
   "property": "C87",
   "status": "proved",
   "theorems": [
    "Acv.C87_search",
    "Acv.C87_stop",
    "Acv.C87_value",
    "Acv.C87_empty",
    "Acv.C87_range_false",
    "Acv.C87_importance"
   ],
   "note": "At most 15 players. The reported value is not clipped: it can exceed 1 (C87_range_false)."
  },
  {
   "property": "C88",
   "status": "proved",
   "theorems": [
    "Acv.C88_rebuild",
    "Acv.C88_others",
    "Acv.C88_children",
    "Acv.C88_leaves_proba",
    "Acv.C88_leaves_proba_empty"
   ],
   "note": "Recursion over the tree arrays bounded by the number of nodes, shown enough for every well-formed tree; exact rationals."
  },
  {
   "property": "C89",
   "status": "partial",
   "theorems": [
    "Acv.C89_compatible",
    "Acv.C89_range",
    "Acv.C89_tree_mean",
    "Acv.C89_tree_frequency_partial",
    "Acv.C89_clf_frequency_partial",
    "Acv.C89_reg_frequency_partial",
    "Acv.C89_boxes_false",
    "Acv.C89_empty_false",
    "Acv.C89_forest_mean",
    "Acv.C89_reg_forest_partial",
    "Acv.C89_reg_forest_number",
    "Acv.C89_forest_false"
   ],
   "note": "Visited leaves, boxes and range proved for all inputs. The share is proved, for trees, classifier forests and regression forests, when the visited leaves have the same rows in their boxes on S and no row lies on a split (for a regression forest also that all trees mark the same rows); it is false otherwise (C89_boxes_false, C89_forest_false), and for cond_sdp_forest without columns (C89_empty_false)."
  },
  {
   "property": "C90",
   "status": "partial",
   "theorems": [
    "Acv.C90_search_agrees_partial",
    "Acv.C90_search_returns",
    "Acv.C90_search_returns_16",
    "Acv.C90_reg_agrees",
    "Acv.C90_search_out_of_bounds",
    "Acv.C90_claim_false",
    "Acv.C90_shap_nopa",
    "Acv.C90_shap_parallel",
    "Acv.C90_active_nopa",
    "Acv.C90_exp",
    "Acv.C90_exp_cat",
    "Acv.C90_sdp_clf_cat",
    "Acv.C90_sdp_clf"
   ],
   "note": "Shapley values and Active Shapley values (NaN included): proved for every sample, forest and schedule (the sequential one is right even where the parallel tables are too small). Searches: whenever the sequential search returns it returns the result of the parallel one with stop=True; it returns for at most 15 players, or 16 columns without groups. The full claim is false: with 17 columns or more the sequential search reads past the end of its enumeration when one sample stays unresolved (C90_search_out_of_bounds, C90_claim_false). Expectations and same decision probabilities: equal under every complete schedule, for the same table of leaf values (C90_exp, C90_exp_cat, C90_sdp_clf_cat, C90_sdp_clf); which table the methods pass is C97."
  },
  {
   "property": "C91",
   "status": "partial",
   "theorems": [
    "Acv.C91_coverage",
    "Acv.C91_accuracy_regression",
    "Acv.C91_accuracy_binary_partial",
    "Acv.C91_accuracy_changed",
    "Acv.C91_accuracy_false",
    "Acv.C91_original_false",
    "Acv.C91_alltests_false",
    "Acv.C91_alltests_raises",
    "Acv.C91_alltests_outside",
    "Acv.C91_alltests_figures"
   ],
   "note": "Coverage and the regression accuracy are what they claim. For a classifier the accuracy counts changed classes: right for two classes, wrong with three (C91_accuracy_false). The constructor drops the argument model, so accuracy_local_original is always NaN. The sampling for all test rows raises IndexError as soon as a test row is inside a region with a counterfactual rule, and otherwise reports coverage 0."
  },
  {
   "property": "C92",
   "status": "partial",
   "theorems": [
    "Acv.C92_weights",
    "Acv.C92_rule_partial",
    "Acv.C92_same_in_rule",
    "Acv.C92_same_probability",
    "Acv.C92_scalar_raises",
    "Acv.C92_scalar_false",
    "Acv.C92_classifier_ignores_t",
    "Acv.C92_answers"
   ],
   "note": "All but the documented scalar t, which raises for every regressor (negation proved)."
  },
  {
   "property": "C93",
   "status": "partial",
   "theorems": [
    "Acv.C93_returned",
    "Acv.C93_chosen_partial",
    "Acv.C93_unique_false",
    "Acv.C93_regional",
    "Acv.C93_binary",
    "Acv.C93_leaves",
    "Acv.C93_origin",
    "Acv.C93_no_target",
    "Acv.C93_regression_raises",
    "Acv.C93_original_accuracy"
   ],
   "note": "Returned rules, regional alignment, leaves and agreement with utils_cr.py proved. The pairing of rules with probabilities and the choice of the most probable rule are false of the code with several rules (C93_unique_false); C93_chosen_partial covers a single rule."
  },
  {
   "property": "C94",
   "status": "partial",
   "theorems": [
    "Acv.C94_number_raises",
    "Acv.C94_number_false",
    "Acv.C94_answers_partial",
    "Acv.C94_sdp",
    "Acv.C94_agree",
    "Acv.C94_cdf_partial",
    "Acv.C94_cdf_raises",
    "Acv.C94_cdf_false",
    "Acv.C94_quantile",
    "Acv.C94_columns",
    "Acv.C94_importance_partial",
    "Acv.C94_sufficient_partial",
    "Acv.C94_wide_raises",
    "Acv.C94_acx"
   ],
   "note": "False of the code for the documented number t (also the default): the Cython functions take a matrix (a vector for the CDF), so every such call raises; ACXplainer.compute_cdf_rf never answers for a classifier or without t; importance_sdp_rf of ACVTree raises for wide data if the model has no importances. Proved: exactly which calls answer, the values then returned, agreement with ACXplainer, and the searched columns."
  },
  {
   "property": "C95",
   "status": "partial",
   "theorems": [
    "Acv.C95_no_new_points",
    "Acv.C95_rule_kept",
    "Acv.C95_all_points_partial",
    "Acv.C95_points_lost",
    "Acv.C95_best",
    "Acv.C95_tolerance",
    "Acv.C95_adjacent",
    "Acv.C95_overapprox",
    "Acv.C95_edges",
    "Acv.C95_best_last"
   ],
   "note": "No new points and the rule kept: proved for any number of columns and all shuffles. Nothing lost: proved for one and two columns; false from three columns on (C95_points_lost). Bounds must be further apart than the tolerance of np.allclose (C95_tolerance shows why). Adjacency, over-approximation and corners: proved."
  },
  {
   "property": "C96",
   "status": "partial",
   "theorems": [
    "Acv.C96_conditional",
    "Acv.C96_best",
    "Acv.C96_unique",
    "Acv.C96_error",
    "Acv.C96_given",
    "Acv.C96_order",
    "Acv.C96_marginal",
    "Acv.C96_independent",
    "Acv.C96_shape_partial",
    "Acv.C96_shape_false"
   ],
   "note": "Everything is proved when at least one column is given. With no column given the functions return the parameters of all columns whatever is asked for (C96_shape_false), which is kept as the partial statement."
  },
  {
   "property": "C97",
   "status": "partial",
   "theorems": [
    "Acv.C97_partial",
    "Acv.C97_iff",
    "Acv.C97_neighbour",
    "Acv.C97_false"
   ],
   "note": "Proved exactly when it holds: models with one output per class, or binary boosted models (not histogram boosting) through the methods that test for them. The full claim is false: the _nopa and swing methods read a missing column for binary boosted classifiers and get the value of the next node."
  },
  {
   "property": "C98",
   "status": "partial",
   "theorems": [
    "Acv.C98_print_partial",
    "Acv.C98_print_false",
    "Acv.C98_local",
    "Acv.C98_global",
    "Acv.C98_output_partial",
    "Acv.C98_output_false",
    "Acv.C98_page",
    "Acv.C98_page_partial",
    "Acv.C98_page_false"
   ],
   "note": "Which conditions, outputs and probabilities are shown is proved for all rules. The three readings of a displayed rule are proved up to the cases in which they are false, each refuted: values beyond 1e10, probability below 1 of a regression counterfactual, observations on a displayed lower bound."
  },
  {
   "property": "C99",
   "status": "partial",
   "theorems": [
    "Acv.C99_plot",
    "Acv.C99_no_plot",
    "Acv.C99_page",
    "Acv.C99_page_partial",
    "Acv.C99_page_false"
   ],
   "note": "The plot is proved for all values. The line f(x) of the page is characterised exactly; it is the prediction only when test and training set have the same mean prediction and the index is below 100."
  }
 ]
}