{"id": "C01", "title": "Leaf rectangles partition the input space and agree with predict", "statement": "For every loaded tree and every complete (non-missing) observation x, exactly one of the tree's leaf rectangles (lo, hi] contains x, and it is the rectangle of the leaf whose value ACVTree.predict adds for that tree.", "quantifier": "every tree array (any number of nodes, any depth, any thresholds incl. repeated features on a path) and every observation", "why_tests_cant": "the set of trees and of observations, including observations lying exactly on a threshold, is infinite; tests only sample non-boundary points", "anchors": ["acv_explainers/utils.py:get_partition", "acv_explainers/base_tree.py:BaseTree.__init__", "acv_explainers/cext_acv/acv_tree.h:tree_predict"]}
{"id": "C02", "title": "Leaf variable list is complete", "statement": "The variables that the explainer records for a leaf are exactly the variables tested on the path to the leaf, and whether an observation belongs to the leaf rectangle depends only on those variables.", "quantifier": "every tree array, leaf and pair of observations that agree on the recorded variables", "why_tests_cant": "a missing variable in the list would silently drop Shapley terms only for particular trees and observations", "anchors": ["acv_explainers/utils.py:get_partition", "acv_explainers/base_tree.py:BaseTree.__init__"]}
{"id": "C03", "title": "predict is offset plus the sum of one leaf value per tree, unaffected by padding", "statement": "ACVTree.predict(x) equals base_offset plus, for each of the first tree_limit trees, the value of the leaf that the tree alone reaches from x; packing trees of different sizes into one padded array never changes it.", "quantifier": "every list of trees of any sizes, every tree_limit, every observation with any missing pattern", "why_tests_cant": "padding errors show only for specific size mixes and specific paths", "anchors": ["acv_explainers/cext_acv/acv_tree.h:dense_tree_predict", "acv_explainers/cext_acv/acv_tree.h:tree_predict", "acv_explainers/base_tree.py:BaseTree.__init__", "acv_explainers/base_tree.py:BaseTree.predict"]}
{"id": "C04", "title": "Reported depth is the height of the tree", "statement": "The max_depth obtained when loading a tree is exactly the number of edges of the longest root-to-leaf path, so a descent of max_depth steps always ends in a leaf and some descent needs that many.", "quantifier": "every tree array of any shape", "why_tests_cant": "unbounded tree shapes", "anchors": ["acv_explainers/cext_acv/acv_tree.h:compute_expectations"]}
{"id": "C05", "title": "Node sample weights are conserved", "statement": "After recomputing node weights from a dataset, each node's weight is the number of rows whose descent passes through it: the root has all rows, each internal node has the sum of its children, and each leaf has the number of rows in its rectangle.", "quantifier": "every tree array and every dataset of any length with any missing pattern", "why_tests_cant": "conservation must hold for all datasets and orders of rows", "anchors": ["acv_explainers/cext_acv/acv_tree.h:tree_update_weights", "acv_explainers/cext_acv/acv_tree.h:dense_tree_update_weights"]}
{"id": "C06", "title": "Shapley values are the Shapley values of the leaf game", "statement": "The value returned by the leaf estimator for a variable (or group) equals the textbook Shapley value, over all variables (or groups), of the game v(S) = sum over leaves of value * [x_S in leaf_S] * #(data in leaf) / #(data in leaf on S), with v(empty)= mean leaf value over the data, although only the variables of each leaf are enumerated.", "quantifier": "every number of features, every leaf rectangle, every background dataset, every x whose conditional counts are nonzero, every disjoint grouping", "why_tests_cant": "equality of two sums over exponentially many coalitions for every d; tests compare a few small models with tolerance", "anchors": ["acv_explainers/py_acv.py:shap_values_leaves", "acv_explainers/cyext_acv/cyext_acv.pyx:shap_values_leaves_pa"]}
{"id": "C07", "title": "Efficiency of Shapley values", "statement": "For every x whose leaf in each tree contains at least one background row, the Shapley values over variables (or groups) sum to predict(x) minus the mean of predict over the background data.", "quantifier": "every ensemble, background dataset and observation", "why_tests_cant": "an additivity identity over all inputs; the repo's test checks it on a few fitted models up to tolerance", "anchors": ["acv_explainers/py_acv.py:shap_values_leaves", "acv_explainers/cyext_acv/cyext_acv.pyx:shap_values_leaves_pa"]}
{"id": "C08", "title": "Unused variables get zero Shapley value", "statement": "A variable (or a group none of whose variables) that no split of the ensemble tests gets Shapley value exactly 0.", "quantifier": "every ensemble, data, observation and unused variable", "why_tests_cant": "universal statement", "anchors": ["acv_explainers/py_acv.py:shap_values_leaves", "acv_explainers/cyext_acv/cyext_acv.pyx:shap_values_leaves_pa"]}
{"id": "C09", "title": "Members of a group share one value", "statement": "With coalition argument C, every column of a group receives the same value.", "quantifier": "every disjoint grouping, ensemble, data and observation", "why_tests_cant": "universal statement", "anchors": ["acv_explainers/py_acv.py:shap_values_leaves", "acv_explainers/cyext_acv/cyext_acv.pyx:shap_values_leaves_pa"]}
{"id": "C10", "title": "Shapley values are additive over trees and linear in leaf values", "statement": "The Shapley values of an ensemble are the sum of those of its trees, and multiplying all leaf values by a constant multiplies them by that constant.", "quantifier": "every ensemble split into two, every scaling", "why_tests_cant": "universal statement", "anchors": ["acv_explainers/py_acv.py:shap_values_leaves", "acv_explainers/base_tree.py:BaseTree.shap_values", "acv_explainers/acv_tree.py:ACVTree.py_shap_values"]}
{"id": "C11", "title": "Grouped-variable handling of shap_values_leaves_v2 keeps ungrouped variables", "statement": "With coalitions, an ungrouped variable used by the tree still takes part in the game: the values sum to predict(x) minus the mean prediction.", "quantifier": "every grouping, leaf, data and observation", "why_tests_cant": "depends on the combination of grouping and leaf variables", "anchors": ["acv_explainers/py_acv.py:shap_values_leaves_v2"]}
{"id": "C12", "title": "Cached and uncached Shapley values agree", "statement": "ACVTree(cache=True).shap_values(X) equals ACVTree(cache=False).shap_values(X) for the same coalition argument.", "quantifier": "every ensemble, data, X and grouping", "why_tests_cant": "equality of two programs on all inputs", "anchors": ["acv_explainers/cyext_acv/cyext_acv_cache.pyx:leaves_cache", "acv_explainers/cyext_acv/cyext_acv_cache.pyx:shap_values_leaves_cache", "acv_explainers/cyext_acv/cyext_acv.pyx:shap_values_leaves_pa"]}
{"id": "C13", "title": "Parallel loops give schedule-independent results", "statement": "For every assignment of loop iterations to threads and every interleaving, the parallel Shapley/SDP loops return what the sequential loop returns.", "quantifier": "every interleaving of any number of iterations' steps", "why_tests_cant": "interleavings cannot be enumerated by tests", "anchors": ["acv_explainers/cyext_acv/cyext_acv.pyx:shap_values_leaves_pa", "acv_explainers/cyext_acv/cyext_acv.pyx:compute_sdp_rf", "acv_explainers/cyext_acv/cyext_acv.pyx:compute_exp", "acv_explainers/cyext_acv/cyext_acv.pyx:compute_sdp_clf"]}
{"id": "C14", "title": "Binomial weights are exact", "statement": "The binomial routine used for the Shapley weights returns the mathematical binomial coefficient (0 when k > n), with every intermediate division exact. In double precision this holds as long as the coefficient times the number of loop passes is at most 2^53, in particular for every n up to 51 and every k; from n = 55 on a rounded product can be floored to a wrong integer.", "quantifier": "every pair of naturals; for double precision every rounding that keeps the integers up to 2^53", "why_tests_cant": "unbounded domain", "anchors": ["acv_explainers/cyext_acv/cyext_acv.pyx:_comb_int_long", "acv_explainers/cyext_acv/cyext_acv.pyx:binomialC"]}
{"id": "C15", "title": "Scratch buffers sized from max_var are large enough for every leaf", "statement": "The per-leaf coalition buffers (2**max_var entries) are large enough for every leaf of every tree, so coalition counters never index past them.", "quantifier": "every ensemble", "why_tests_cant": "depends on the order of the trees in the ensemble", "anchors": ["acv_explainers/base_tree.py:BaseTree.__init__", "acv_explainers/base_agnostree.py:BaseAgnosTree.__init__", "acv_explainers/cyext_acv/cyext_acv.pyx:shap_values_leaves_pa"]}
{"id": "C16", "title": "Active Shapley values: null variables get zero", "statement": "In Active Shapley values every variable outside the active coalition S* gets exactly 0.", "quantifier": "every S*, N*, ensemble, data and observation", "why_tests_cant": "universal statement", "anchors": ["acv_explainers/py_acv.py:shap_values_acv_leaves", "acv_explainers/cyext_acv/cyext_acv.pyx:shap_values_acv_leaves"]}
{"id": "C17", "title": "Active Shapley values: efficiency over the active coalition", "statement": "When S* and N* partition the variables, the Active Shapley values sum over S* to predict(x) minus the mean prediction, for x strictly inside its leaf and leaf containing data.", "quantifier": "every S*, N*, ensemble, data and observation", "why_tests_cant": "exponential sums for every d", "anchors": ["acv_explainers/py_acv.py:shap_values_acv_leaves", "acv_explainers/cyext_acv/cyext_acv.pyx:shap_values_acv_leaves"]}
{"id": "C18", "title": "Adaptive Active Shapley values process each sample independently with its own coalition", "statement": "Row i of shap_values_acv_adap equals the Active Shapley values of x_i with the coalition (S*_i, N*_i), and equals the ordinary Shapley values when S*_i is all variables.", "quantifier": "every batch, sizes and coalitions", "why_tests_cant": "universal over batches", "anchors": ["acv_explainers/cyext_acv/cyext_acv.pyx:shap_values_acv_leaves_adap", "acv_explainers/utils.py:get_null_coalition"]}
{"id": "C19", "title": "Tree SDP is a probability", "statement": "The same decision probability returned for tree-based classifiers lies in [0,1], is 1 for S = all variables and 0 for S empty.", "quantifier": "every classifier ensemble, data, observation and S", "why_tests_cant": "range of a ratio of data-dependent sums on all inputs", "anchors": ["acv_explainers/cyext_acv/cyext_acv.pyx:compute_sdp_clf", "acv_explainers/cyext_acv/cyext_acv.pyx:compute_sdp_clf_cat", "acv_explainers/utils_sdp.py:compute_sdp_clf"]}
{"id": "C20", "title": "Conditional expectation at S = all is the prediction", "statement": "compute_exp with S = all variables returns predict(x), and every value returned for one tree is a combination of leaf values, for observations whose leaf contains data.", "quantifier": "every ensemble, data and observation, including observations on a threshold", "why_tests_cant": "boundary observations have measure zero and are not sampled", "anchors": ["acv_explainers/utils_exp.py:compute_exp", "acv_explainers/cyext_acv/cyext_acv.pyx:compute_exp"]}
{"id": "C21", "title": "Projected-forest SDP is a probability and DDP is its complement", "statement": "compute_sdp_rf and compute_ddp_rf lie in [0,1], and SDP + DDP = 1 for the same x, y, S.", "quantifier": "every forest, data, S, min_node_size and observation", "why_tests_cant": "universal statement over forests and data", "anchors": ["acv_explainers/cyext_acv/cyext_acv.pyx:single_compute_sdp_rf", "acv_explainers/cyext_acv/cyext_acv.pyx:single_compute_ddp_rf"]}
{"id": "C22", "title": "Projected cell is the set of rows that travel like x", "statement": "With no early stop, the rows used by the projected forest for (x, S) in a tree are exactly the background rows z whose projected descent (branch at splits on S, both children otherwise) visits the same nodes as that of x; in particular with S = all variables they are the rows in the leaf of x.", "quantifier": "every tree, dataset, S and x", "why_tests_cant": "needs an argument over all node sets and levels", "anchors": ["acv_explainers/cyext_acv/cyext_acv.pyx:single_compute_sdp_rf", "acv_explainers/utils_exp.py:compute_shaff_sdp_clf"]}
{"id": "C23", "title": "Projected forest uses at least min_node_size rows", "statement": "Each tree's contribution to a projected-forest estimate is averaged over at least min_node_size background rows (whenever the background has that many).", "quantifier": "every forest, data, S, x and min_node_size", "why_tests_cant": "violations appear only on particular paths", "anchors": ["acv_explainers/cyext_acv/cyext_acv.pyx:single_compute_sdp_rf", "acv_explainers/utils_exp.py:compute_shaff_exp"]}
{"id": "C24", "title": "Projected forest reads only nodes of the forest", "statement": "The projected descent only inspects nodes of the tree it is walking, so the result is a function of the forest, the data and the query alone.", "quantifier": "every forest with leaves at different depths", "why_tests_cant": "out-of-range reads usually return harmless memory in tests", "anchors": ["acv_explainers/cyext_acv/cyext_acv.pyx:single_compute_sdp_rf"]}
{"id": "C25", "title": "Sufficient rule contains the instance", "statement": "The rule returned by compute_sdp_rule for x contains x (lo < x_j <= hi for every feature j).", "quantifier": "every forest, data, S, min_node_size and x", "why_tests_cant": "universal statement", "anchors": ["acv_explainers/cyext_acv/cyext_acv.pyx:single_compute_sdp_rule"]}
{"id": "C26", "title": "All observations in a rule have the same SDP", "statement": "Every observation z in the rule of x (lo < z_j <= hi) has, for the same target and S, the same SDP and the same rule as x.", "quantifier": "every forest, data, S, min_node_size, x and z", "why_tests_cant": "quantifies over all z in a box", "anchors": ["acv_explainers/cyext_acv/cyext_acv.pyx:single_compute_sdp_rule", "acv_explainers/acv_agnosticX.py:ACXplainer.compute_sdp_rule"]}
{"id": "C27", "title": "Rule weights form a probability distribution carrying the SDP", "statement": "The weights returned with a rule are non-negative, sum to 1, are positive exactly on the rows used by some tree, and the SDP is the weighted frequency of rows with the same output.", "quantifier": "every forest, data, S, x", "why_tests_cant": "universal statement", "anchors": ["acv_explainers/cyext_acv/cyext_acv.pyx:single_compute_sdp_rule_weights", "acv_explainers/cyext_acv/cyext_acv.pyx:compute_sdp_maxrule"]}
{"id": "C28", "title": "Projected CDF is a distribution function", "statement": "compute_cdf_rf is non-decreasing in the threshold, lies in [0,1], is 0 below all outputs and 1 above all outputs; compute_exp_rf lies between the smallest and largest background output.", "quantifier": "every forest, data, S, x and pair of thresholds", "why_tests_cant": "universal statement", "anchors": ["acv_explainers/cyext_acv/cyext_acv.pyx:single_compute_cdf_rf", "acv_explainers/cyext_acv/cyext_acv.pyx:single_compute_exp_rf"]}
{"id": "C29", "title": "Minimal sufficient explanation is sufficient, minimal and best of its size", "statement": "For each sample that importance_sdp_rf reports with SDP >= pi, the reported set has SDP equal to the reported value, no smaller explored set reaches pi, and no explored set of the same size has larger SDP.", "quantifier": "every SDP function, number of players, sample set, pi, minimal and stop", "why_tests_cant": "the search history over all subsets and samples", "anchors": ["acv_explainers/cyext_acv/cyext_acv.pyx:global_sdp_rf", "acv_explainers/acv_agnosticX.py:ACXplainer.importance_sdp_rf"]}
{"id": "C30", "title": "Samples are searched independently", "statement": "The explanation of a sample does not depend on which other samples are explained in the same call.", "quantifier": "every batch and SDP function", "why_tests_cant": "batches are unbounded; removal of finished rows from the work list could corrupt others", "anchors": ["acv_explainers/cyext_acv/cyext_acv.pyx:global_sdp_rf", "acv_explainers/cyext_acv/cyext_acv.pyx:global_sdp_clf"]}
{"id": "C31", "title": "Global importance is a frequency", "statement": "sdp_importance[j] is the fraction of samples whose reported sufficient explanation (SDP >= pi) contains j; it lies in [0,1].", "quantifier": "every batch and SDP function", "why_tests_cant": "universal statement", "anchors": ["acv_explainers/cyext_acv/cyext_acv.pyx:global_sdp_rf", "acv_explainers/utils_sdp.py:importance_msdp_clf_search"]}
{"id": "C32", "title": "All sufficient explanations: exactly the minimal ones", "statement": "sufficient_expl_rf returns for each sample exactly the sets S of explored players with SDP >= pi that contain no smaller returned set, i.e. the inclusion-minimal sufficient sets, each once.", "quantifier": "every SDP function (not assumed monotone), number of players and pi", "why_tests_cant": "all subsets of all sizes", "anchors": ["acv_explainers/cyext_acv/cyext_acv.pyx:sufficient_expl_rf", "acv_explainers/acv_agnosticX.py:ACXplainer.sufficient_expl_rf"]}
{"id": "C33", "title": "Candidate enumeration is complete", "statement": "The candidate subsets examined by the searches are all subsets of the players, each once, by increasing size.", "quantifier": "every number of players", "why_tests_cant": "exponential; truncated at 2**15", "anchors": ["acv_explainers/cyext_acv/cyext_acv.pyx:global_sdp_rf", "acv_explainers/utils.py:powerset", "acv_explainers/utils_sdp.py:importance_msdp_clf_search"]}
{"id": "C34", "title": "Active/null split is a partition", "statement": "get_active_null_coalition_list returns for each sample two disjoint lists that together contain every feature exactly once.", "quantifier": "every explanation table and sizes", "why_tests_cant": "universal statement", "anchors": ["acv_explainers/utils.py:get_active_null_coalition_list", "acv_explainers/utils.py:get_null_coalition"]}
{"id": "C35", "title": "Local explanatory importance is a frequency", "statement": "compute_local_sdp returns for each feature the average, over samples having at least one sufficient explanation, of the fraction of the sample's explanations that contain it; it lies in [0,1].", "quantifier": "every list of lists of explanations", "why_tests_cant": "universal statement", "anchors": ["acv_explainers/acv_agnosticX.py:ACXplainer.compute_local_sdp", "acv_explainers/acv_tree.py:ACVTree.compute_local_sdp"]}
{"id": "C36", "title": "Maximal rule contains the original rule and no bad sample", "statement": "Whatever the random choices, the rule returned by the annealing of compute_sdp_maxrules contains the original rule of x, and if it differs from it, it contains no background sample whose SDP is below pi; its volume is the largest among the candidates seen.", "quantifier": "every sequence of random draws, every rule set and dataset", "why_tests_cant": "the random choices are unbounded", "anchors": ["acv_explainers/utils.py:rules_by_annealing", "acv_explainers/utils.py:rules_simulated_annealing", "acv_explainers/utils.py:generate_valid_rule", "acv_explainers/utils.py:generate_newrule"]}
{"id": "C37", "title": "Rule extension only grows the rule inside the union of compatible rules", "statement": "Extending a rule with neighbouring compatible rules (algo2) returns a rule containing the original one and covered by the union of the original and the compatible rules.", "quantifier": "every set of rules and dimension", "why_tests_cant": "depends on geometric configurations", "anchors": ["acv_explainers/utils.py:find_union", "acv_explainers/utils.py:extend_rec", "acv_explainers/utils.py:find_nbor"]}
{"id": "C38", "title": "Removing nested rules keeps the coverage", "statement": "Removing rules included in another rule (counterfactual rule post-processing) keeps the union of the rules: every observation in a removed rule is in a kept one, no kept rule is included in another kept rule, and each kept rule keeps its own probability.", "quantifier": "every list of rules, including duplicates", "why_tests_cant": "configurations of nested/duplicate rules", "anchors": ["acv_explainers/utils_cr.py:remove_in", "acv_explainers/utils_cr.py:remove_in_wsdp", "acv_explainers/utils.py:remove_in_wsdp"]}
{"id": "C39", "title": "Global rule model answers with a covering rule of sufficient coverage", "statement": "predict_global_rules returns for x the output of a rule that contains x, has coverage at least the requested one and accuracy at least min_acc and maximal among such rules; otherwise None.", "quantifier": "every rule base and x", "why_tests_cant": "tie patterns between rules", "anchors": ["acv_explainers/utils.py:global_rules_model", "acv_explainers/utils.py:compute_rules_metrics"]}
{"id": "C40", "title": "Counterfactual sampling changes only the allowed variables within the rule", "statement": "Whatever the random draws, the sample produced for a counterfactual rule with non-empty intervals equals x outside S and takes, for each variable of S, a value inside the rule's interval; its score is the best of all rows generated. Chained after the rule search, the sample satisfies every condition of the best rule returned.", "quantifier": "every draw sequence, outlier score, x, rule and training set", "why_tests_cant": "random draws and empty candidate sets", "anchors": ["acv_explainers/utils.py:generate_candidate", "acv_explainers/utils.py:simulated_annealing", "acv_explainers/utils_cr.py:generate_candidate", "acv_explainers/utils_cr.py:simulated_annealing", "acv_explainers/counterfactual_rules.py:CR.run_sampling_local_counterfactuals"]}
{"id": "C41", "title": "Refitting an explainer refreshes its explanations", "statement": "After any sequence of fit and explain calls, explanations are computed with the forest of the latest fit, the same one predict uses.", "quantifier": "every history of fit / explain / predict calls", "why_tests_cant": "histories are unbounded and the stale state shows only after a second fit", "anchors": ["acv_explainers/acv_agnosticX.py:ACXplainer.fit", "acv_explainers/acv_agnosticX.py:ACXplainer.check_is_explainer"]}
{"id": "C42", "title": "CatBoost oblivious trees are loaded faithfully", "statement": "The heap-shaped tree built from a CatBoost symmetric tree reaches, for every x, the leaf whose index is given by the split bits, with that leaf's value and weight.", "quantifier": "every depth, split list, leaf values and x", "why_tests_cant": "unbounded depth", "anchors": ["acv_explainers/base_tree.py:CatBoostTreeModelLoader.get_trees"]}
{"id": "C43", "title": "XGBoost binary nodes are decoded faithfully", "statement": "Decoding the packed node record recovers the split feature, the default direction, the children and leaf flag for every node, and consecutive reads cover the buffer without overlap.", "quantifier": "every 32-bit field value and buffer", "why_tests_cant": "2^32 values per field", "anchors": ["acv_explainers/base_tree.py:XGBTreeModelLoader"]}
{"id": "C44", "title": "LightGBM nested dictionaries are flattened faithfully", "statement": "The array tree built from a nested LightGBM tree description predicts, for every x, the same leaf value as walking the nested description.", "quantifier": "every nested tree and x", "why_tests_cant": "unbounded tree shapes", "anchors": ["acv_explainers/base_tree.py:SingleTree.__init__"]}
{"id": "C45", "title": "Weighted percentile is monotone and within range", "statement": "The quantile returned for weights and outputs lies between the smallest and largest output having positive weight, and is non-decreasing in q.", "quantifier": "every list of samples, weights and q", "why_tests_cant": "universal statement", "anchors": ["acv_explainers/utils.py:weighted_percentile", "acv_explainers/utils_exp.py:compute_shaff_quantile"]}
{"id": "C46", "title": "Swing Shapley decomposition", "statement": "For swing Shapley values (both versions), the positive and negative parts sum to the Shapley value, the positive part is not negative and the negative part not positive, and for every column the three swing counts together count every coalition of the other players exactly once.", "quantifier": "every value function, every partition of the columns into at most 32 players and every column", "why_tests_cant": "exponential enumeration of coalitions by bit masks, for every number of players", "anchors": ["acv_explainers/acv_tree.py:swing_sv_clf", "acv_explainers/cyext_acv/cyext_acv.pyx:swing_sv_clf", "acv_explainers/cyext_acv/cyext_acv.pyx:swing_sv_clf_direct"]}
{"id": "C47", "title": "Counterfactual rules meet the probability level or are the best available", "statement": "The counterfactual rules returned reach the level pi_level of the call, or, if none does, exactly one rule of maximal probability is selected; each rule comes with the probability and weights of that very rule and fixes x (or the regional rule) on the variables outside the divergent set.", "quantifier": "every forest, list of candidate leaves, observation, level and draw sequence", "why_tests_cant": "universal statement over all candidate lists and levels", "anchors": ["acv_explainers/utils_cr.py:return_counterfactuals", "acv_explainers/utils_cr.py:return_ge_counterfactuals", "acv_explainers/counterfactual_rules.py:CR.run_local_counterfactual_rules"]}
{"id": "C48", "title": "Counterfactual decision probability has one meaning", "statement": "For classifiers, every CDP function (rf, rule, weights, intv) returns the weighted frequency of background rows whose output equals the target.", "quantifier": "every forest, data, target", "why_tests_cant": "universal statement", "anchors": ["acv_explainers/cyext_acv/cyext_acv.pyx:single_compute_cdp_rf", "acv_explainers/cyext_acv/cyext_acv.pyx:single_compute_cdp_intv_rule_weights"]}
{"id": "C49", "title": "Python and Cython Shapley values agree", "statement": "ACVTree.py_shap_values returns the same values as ACVTree.shap_values whenever every leaf contains a background row and no group is a singleton; a singleton group makes the Python version raise and an empty leaf makes it return NaN.", "quantifier": "every ensemble, background dataset, disjoint grouping, observation, column and output", "why_tests_cant": "equality of two programs on all inputs", "anchors": ["acv_explainers/py_acv.py:shap_values_leaves", "acv_explainers/cyext_acv/cyext_acv.pyx:shap_values_leaves_pa", "acv_explainers/utils.py:chain_l"]}
{"id": "C50", "title": "Rows of the explanation table contain exactly the explanation", "statement": "In the table returned by importance_sdp_rf and importance_sdp_clf each row holds the columns of the sample's explanation followed by -1, so that get_null_coalition returns exactly the other columns.", "quantifier": "every SDP function, batch, groups of columns, pi, minimal and stop", "why_tests_cant": "stale cells depend on the whole history of candidates of a sample", "anchors": ["acv_explainers/cyext_acv/cyext_acv.pyx:global_sdp_rf", "acv_explainers/utils_sdp.py:importance_msdp_clf_search", "acv_explainers/utils.py:get_null_coalition"]}
{"id": "C51", "title": "Every observation in the maximal rule is explained at level pi", "statement": "If the explanation S of x has same decision probability at least pi, every observation that falls in the rule returned by compute_sdp_maxrules also has it.", "quantifier": "every forest, background data, S, x, pi, sequence of random draws and observation in the rule", "why_tests_cant": "the rule is an infinite box found by a random search; tests only sample points of it", "anchors": ["acv_explainers/acv_agnosticX.py:ACXplainer.compute_sdp_maxrules", "acv_explainers/utils.py:rules_by_annealing", "acv_explainers/cyext_acv/cyext_acv.pyx:compute_sdp_maxrule"]}
{"id": "C52", "title": "Each fitted global rule keeps its own explanation", "statement": "fit_global_rules keeps every distinct given rule exactly once and associates it with a sufficient explanation that was given with that rule.", "quantifier": "every list of rules and explanations", "why_tests_cant": "depends on pairs of different but close rules", "anchors": ["acv_explainers/utils.py:unique_rules_s_star", "acv_explainers/acv_agnosticX.py:ACXplainer.fit_global_rules"]}
{"id": "C53", "title": "Metrics of a global rule describe the rows that meet it", "statement": "The coverage of a fitted rule is the proportion of rows that meet it; for 0/1 labels its output is their majority label and its accuracy the proportion of that label, at least one half; for regression its output is their mean and its error their mean squared error, the smallest any constant output could have.", "quantifier": "every data set, rule and set of columns", "why_tests_cant": "universal statement over data sets; corner cases (empty set of columns)", "anchors": ["acv_explainers/utils.py:compute_rules_metrics", "acv_explainers/acv_agnosticX.py:ACXplainer.fit_global_rules"]}
{"id": "C54", "title": "Conditioning on a rule keeps every background row that satisfies it", "statement": "When a decision probability is conditioned on x over S and on a rule for the other variables, every tree uses every background row that satisfies the condition, and uses exactly the rows on the decided side of the splits reached under the condition; the returned weights are non-negative and sum to 1 as soon as one background row satisfies the condition, CDP and DDP for the same target then sum to 1; a condition that pins variables to x gives the plain CDP.", "quantifier": "every forest, data set, x, S, rule with lo <= hi, target and min_node_size", "why_tests_cant": "the splits decided by an interval depend on every forest and every rule", "anchors": ["acv_explainers/cyext_acv/cyext_acv.pyx:single_compute_cdp_cond_rule_weights", "acv_explainers/cyext_acv/cyext_acv.pyx:single_compute_ddp_cond_rule_weights", "acv_explainers/cyext_acv/cyext_acv.pyx:single_compute_cdp_intv_rule_weights"]}
{"id": "C55", "title": "A counterfactual search that ends without error returns a rule", "statement": "If the local counterfactual search ends without exception for an observation, it returns at least one rule.", "quantifier": "every forest, observation, divergent set and draw sequence", "why_tests_cant": "the failing combination needs two leaves equal on the divergent set", "anchors": ["acv_explainers/utils_cr.py:return_global_counterfactuals", "acv_explainers/utils_cr.py:remove_in_wsdp", "acv_explainers/counterfactual_rules.py:CR.run_local_counterfactual_rules"]}
{"id": "C56", "title": "Enlarged compatible leaves only cover rows of compatible leaves", "statement": "Whatever the random draws, the enlarged rule of a leaf contains the leaf, and every training row it contains lies in the leaf or in another compatible leaf; it has the largest volume of all rules tried.", "quantifier": "every draw sequence, training set and list of leaves", "why_tests_cant": "random search", "anchors": ["acv_explainers/utils_cr.py:rules_by_annealing", "acv_explainers/utils_cr.py:return_leaf_cnt", "acv_explainers/utils_cr.py:return_possible_values"]}
{"id": "C57", "title": "Compatible leaves are accurate", "statement": "Each compatible leaf returned contains a training row with the wanted output and reaches acc_level on the training set, or it is the only one returned and the most accurate.", "quantifier": "every forest, training set, level and draw sequence", "why_tests_cant": "fails only for leaves emptied by rounding to two decimals", "anchors": ["acv_explainers/utils_cr.py:get_compatible_leaf", "acv_explainers/utils_cr.py:get_compatible_leaf_reg"]}
{"id": "C58", "title": "Regional coverage reflects observations without counterfactual", "statement": "The coverage reported by the regional sampling is below 1 when some test observation lies in a region without counterfactual rule.", "quantifier": "every list of regional rules and test set", "why_tests_cant": "the reported number is plausible on any single run", "anchors": ["acv_explainers/counterfactual_rules.py:CR.run_sampling_regional_counterfactuals"]}
{"id": "C59", "title": "A weighted percentile does not depend on the order of the samples", "statement": "Permuting the samples together with their weights does not change the percentile returned.", "quantifier": "every list of weighted samples, every permutation and every q", "why_tests_cant": "there are n! orders for every list", "anchors": ["acv_explainers/utils.py:weighted_percentile"]}
{"id": "C60", "title": "Swing values are Shapley values of the threshold game", "statement": "The swing values of an observation are the Shapley values of the game in which a coalition wins when its same decision probability reaches the threshold (the empty coalition loses, the full one wins), so they add up to 1 over the players.", "quantifier": "every forest, background data, observation, threshold and partition of the columns into at most 32 players", "why_tests_cant": "the sum over all coalitions and the two implementations have to agree for every forest", "anchors": ["acv_explainers/acv_tree.py:swing_sv_clf", "acv_explainers/acv_tree.py:swing_sv_clf_slow", "acv_explainers/cyext_acv/cyext_acv.pyx:swing_sv_clf", "acv_explainers/cyext_acv/cyext_acv.pyx:compute_sdp_swing_diff"]}
{"id": "C61", "title": "Loaded ensembles predict what the fitted ensemble predicts", "statement": "For a loaded random forest or extra trees model, predict returns the average over the fitted trees of the value (for classifiers the class frequencies) of the leaf of the observation, and for classifiers these are probabilities that sum to 1; for gradient boosting it returns the initial value plus the learning rate times the sum of the leaf values; each loaded tree alone predicts what the fitted tree predicts.", "quantifier": "every list of fitted trees, class counts, learning rate and observation", "why_tests_cant": "the scaling and normalisation have to be right for every ensemble and leaf", "anchors": ["acv_explainers/base_tree.py:BaseTree.__init__", "acv_explainers/base_tree.py:SingleTree", "acv_explainers/base_tree.py:BaseTree.predict"]}
{"id": "C62", "title": "Spark trees are loaded faithfully or refused", "statement": "A Spark tree with only continuous splits is loaded into a tree of the same size in which every complete observation ends in a leaf holding Spark's prediction (class shares for a classifier) times the tree's weight, and its number of training rows. A tree with a categorical split anywhere is refused with NotImplementedError. The leaves of a random forest add up to the average of the trees weighted by treeWeights, those of a boosting model to the weighted sum.", "quantifier": "every Spark tree of any shape and depth, every list of trees and weights, every complete observation", "why_tests_cant": "The preorder numbering must be right for every tree shape; tests load a few small models.", "anchors": ["acv_explainers/base_tree.py:SingleTree.__init__", "acv_explainers/base_tree.py:BaseTree.__init__"]}
{"id": "C63", "title": "One output per class in stacked models", "statement": "For a boosted multi-class model with one tree per class and round, output k of predict is the offset plus the sum over the rounds of the value of the tree of class k; a model with an incomplete round is rejected.", "quantifier": "every number of classes and rounds, all trees and observations, missing values included", "why_tests_cant": "indices modulo the number of classes, for every number of rounds", "anchors": ["acv_explainers/base_tree.py:BaseTree.__init__"]}
{"id": "C64", "title": "A tree limit gives the model of the first trees", "statement": "predict with a tree limit returns the prediction of the model that consists of the first trees (rounds), and Shapley values explain the limited prediction when the model has a default limit.", "quantifier": "every ensemble, limit and observation", "why_tests_cant": "relates two models for every limit", "anchors": ["acv_explainers/base_tree.py:BaseTree.predict", "acv_explainers/acv_tree.py:shap_values"]}
{"id": "C65", "title": "Class scores of binary boosted classifiers are the model's probabilities", "statement": "For a binary boosted classifier, the class scores from which the same decision probability is computed are probabilities that sum to 1, and they are the class probabilities of the model.", "quantifier": "all leaf values and offsets", "why_tests_cant": "real functions over all leaf values", "anchors": ["acv_explainers/base_tree.py:BaseTree.__init__", "acv_explainers/acv_tree.py:compute_sdp_clf"]}
{"id": "C66", "title": "Isolation forests predict mean path lengths", "statement": "A fitted isolation forest is loaded so that a leaf's value is its number of edges from the root plus the average path length of its rows, an inner node's value is the average of its children weighted by rows, and predict returns the mean over the trees of the path length of the observation, each tree seeing only its own columns.", "quantifier": "every fitted isolation forest, every assignment of columns to trees, every complete observation", "why_tests_cant": "Column subsets and tree shapes are random in fitting; tests cover forests in which every tree sees all columns.", "anchors": ["acv_explainers/base_tree.py:IsoTree", "acv_explainers/base_tree.py:BaseTree.__init__"]}
{"id": "C67", "title": "Histogram gradient boosting is loaded faithfully", "statement": "For a fitted HistGradientBoosting model, every observation, missing values included, ends in each loaded tree in the leaf in which scikit-learn ends, and predict is the baseline plus the values of these leaves.", "quantifier": "every fitted predictor without infinite thresholds, every observation with or without missing values", "why_tests_cant": "Missing-value directions and categorical splits depend on the training data; tests use a handful of numerical models.", "anchors": ["acv_explainers/base_tree.py:BaseTree.__init__", "acv_explainers/base_tree.py:SingleTree.__init__"]}
{"id": "C68", "title": "XGBoost JSON dumps are loaded faithfully", "statement": "A tree given as XGBoost's JSON dump is loaded so that every observation ends in a leaf with the value XGBoost predicts, and the loaded tree is well formed (its leaves partition the space).", "quantifier": "every dump, with any numbering of the nodes, and every observation with or without missing values", "why_tests_cant": "Equality with a threshold and gaps left by pruning are rare in test data.", "anchors": ["acv_explainers/base_tree.py:SingleTree.__init__"]}
{"id": "C69", "title": "The discrete SDP of a regressor is a conditional frequency", "statement": "For a tree ensemble regressor, compute_sdp_reg_cat(X, tX, S, data)[i] is the share, among the background rows equal to X[i] on S, of the rows whose prediction differs from that of X[i] by at most sqrt(tX). It is between 0 and 1. py_compute_sdp_reg_cat agrees with it for S neither empty nor full.", "quantifier": "All tree ensembles, backgrounds, tolerances, sets S and observations", "why_tests_cant": "The value is a quotient of differences of second moments over pairs of leaves of all pairs of trees; tests on one forest do not show that it is the frequency for every forest, nor that the quotient degenerates when the outputs sum to 0.", "anchors": ["acv_explainers/cyext_acv/cyext_acv.pyx:compute_sdp_reg_cat", "acv_explainers/utils_sdp.py:compute_sdp_reg_cat", "acv_explainers/acv_tree.py:ACVTree.compute_sdp_reg_cat"]}
{"id": "C70", "title": "The leaf SDP of a regressor is a property of one observation", "statement": "compute_sdp_reg(X, tX, S, data)[i] depends on X[i] only, not on the other rows of X; it is between 0 and 1; it is 1 when S contains all columns.", "quantifier": "All tree ensembles, backgrounds, tolerances, sets S and batches X", "why_tests_cant": "Whether a normalising array is set before it is read depends on the order of the loops and on the batch; a test with one tree or one row never sees it.", "anchors": ["acv_explainers/cyext_acv/cyext_acv.pyx:compute_sdp_reg", "acv_explainers/utils_sdp.py:compute_sdp_reg", "acv_explainers/acv_tree.py:ACVTree.compute_sdp_reg"]}
{"id": "C71", "title": "Sufficient explanations of a regressor have the probability they report", "statement": "importance_sdp_reg_cat and importance_sdp_reg report for each observation a set of columns whose SDP, as computed by compute_sdp_reg_cat or compute_sdp_reg, is the reported one, such that no smaller explored set reaches pi_level and no explored set of the same size has a larger SDP; the report of an observation does not depend on the others; the importance of a column is the fraction of reported observations that use it.", "quantifier": "All tree ensembles, backgrounds, batches, groups, levels and option values", "why_tests_cant": "The statement quantifies over all explored sets for every observation, and over all groupings of columns.", "anchors": ["acv_explainers/cyext_acv/cyext_acv.pyx:global_sdp_reg_cat", "acv_explainers/cyext_acv/cyext_acv.pyx:global_sdp_reg", "acv_explainers/acv_tree.py:ACVTree.importance_sdp_reg_cat", "acv_explainers/acv_tree.py:ACVTree.importance_sdp_reg"]}
{"id": "C72", "title": "The normalised expectation is a weighted mean of leaf values", "statement": "compute_exp_normalized(X, S, data) is a number; for each tree it is a mean of leaf values with non-negative weights of sum 1, carried by leaves that a point equal to X[i] on S can reach. With S = all columns it is the prediction and with S empty the mean prediction over data (minus the base offset).", "quantifier": "All tree ensembles whose leaves all hold a background row, backgrounds, sets S, observations and outputs", "why_tests_cant": "Weights are quotients of counts over the leaves of arbitrary trees; sums to 1 and the extreme cases must hold for every tree, dataset and set of columns.", "anchors": ["acv_explainers/cyext_acv/cyext_acv.pyx:compute_exp_normalized", "acv_explainers/acv_tree.py:ACVTree.compute_exp_normalized"]}
{"id": "C73", "title": "Normalised Shapley values are Shapley values and are efficient", "statement": "shap_values_normalized(X, C) returns the Shapley values of a game on the players given by C; they sum to prediction minus mean prediction, and a column that no tree tests gets 0.", "quantifier": "All tree ensembles, backgrounds, coalition arguments, observations and outputs", "why_tests_cant": "The value is a sum over exponentially many coalitions with a normaliser accumulated over leaves; efficiency depends on every leaf of every tree.", "anchors": ["acv_explainers/cyext_acv/cyext_acv.pyx:shap_values_leaves_normalized", "acv_explainers/acv_tree.py:ACVTree.shap_values_normalized"]}
{"id": "C74", "title": "Cached and uncached normalised Shapley values agree", "statement": "An explainer built with cache and cache_normalized returns from shap_values_normalized_cache the values that shap_values_normalized computes for the same data and coalitions.", "quantifier": "All tree ensembles, backgrounds, coalition arguments and observations", "why_tests_cant": "Agreement is needed at every cell of five-index tables and for observations on thresholds, which random test data does not contain.", "anchors": ["acv_explainers/cyext_acv/cyext_acv_cache.pyx:leaves_cache_normalized", "acv_explainers/cyext_acv/cyext_acv_cache.pyx:shap_values_leaves_normalized_cache", "acv_explainers/acv_tree.py:ACVTree.shap_values_normalized_cache"]}
{"id": "C75", "title": "The enumerating versions return the Shapley values of their value function", "statement": "py_shap_values_notoptimized(X, data, C) returns the Shapley values of S -> compute_exp_normalized(X, S, data), and py_shap_values_discrete_notoptimized those of S -> compute_exp_cat(X, S, data), the mean prediction of the background rows equal to X[i] on S; the latter sum to prediction minus mean prediction when a background row equals X[i].", "quantifier": "All tree ensembles, backgrounds, coalition arguments without group of one column, observations and outputs", "why_tests_cant": "Sums over all subsets of players; correctness of the weights and of the collapsing of groups must hold for every number of columns and grouping.", "anchors": ["acv_explainers/py_acv.py:shap_values_leaves_notoptimized", "acv_explainers/py_acv.py:shap_values_discrete_notoptimized", "acv_explainers/acv_tree.py:ACVTree.py_shap_values_notoptimized", "acv_explainers/acv_tree.py:ACVTree.py_shap_values_discrete_notoptimized"]}
{"id": "C76", "title": "Divergent and counterfactual explanations name the columns that must change", "statement": "For each sample that importance_ddp_rf (importance_cdp_rf) reports at pi or more, the reported columns S are a set of explored players, the reported number is the probability of a changed decision (of the target) when the columns outside S are fixed at their values in the sample, no smaller explored set reaches pi, and no explored set of the same size does better; a sample reported below pi has none (stop=False); the report does not depend on the batch and the global importance is a frequency. importance_ddp_intv and importance_cdp_intv do the same with the columns outside S kept in their intervals.", "quantifier": "All forests, backgrounds, samples, groups of columns, orders of importance, thresholds pi, starting sizes and stop rules", "why_tests_cant": "The search visits exponentially many sets and the claim compares the answer with all of them, for any probability function the forest induces.", "anchors": ["acv_explainers/acv_agnosticX.py:ACXplainer.importance_ddp_rf", "acv_explainers/acv_agnosticX.py:ACXplainer.importance_cdp_rf", "acv_explainers/acv_agnosticX.py:ACXplainer.importance_ddp_intv", "acv_explainers/acv_agnosticX.py:ACXplainer.importance_cdp_intv", "acv_explainers/cyext_acv/cyext_acv.pyx:global_ddp_rf", "acv_explainers/cyext_acv/cyext_acv.pyx:global_cdp_rf", "acv_explainers/cyext_acv/cyext_acv.pyx:global_ddp_intv", "acv_explainers/cyext_acv/cyext_acv.pyx:global_cdp_intv"]}
{"id": "C77", "title": "All contrastive explanations: the minimal divergent sets with their probabilities", "statement": "sufficient_cxpl_rf returns for each sample exactly the inclusion-minimal explored sets whose change alters the decision with probability at least pi (the other columns fixed), and, aligned with them, their probabilities.", "quantifier": "All forests, backgrounds, batches of samples, groups of columns, thresholds pi and starting sizes", "why_tests_cant": "Compares the returned list with every subset of the players, for every sample of a batch of any length.", "anchors": ["acv_explainers/acv_agnosticX.py:ACXplainer.sufficient_cxpl_rf", "acv_explainers/cyext_acv/cyext_acv.pyx:sufficient_cxpl_rf"]}
{"id": "C78", "title": "Quantiles of the projected forest", "statement": "compute_quantile_rf returns, for every observation and coalition, the same value as its Python twin: the weighted percentile of the background outputs, between outputs of rows that share a cell with the observation, each cell holding at least min_node_size rows, and non-decreasing in the percentile. compute_quantile_diff_rf returns the weighted percentile of the difference between the output at the observation and the outputs of the rows in its cells; percentile q of the difference is y(x) minus percentile 100-q of the output.", "quantifier": "every forest, every memory around the tree arrays, every coalition, observation, background sample, outputs, minimum size, depth and percentile", "why_tests_cant": "the agreement of the two array-based and set-based walks, and the reflection of the percentiles, hold only if all cut-offs and weights coincide for every forest; tests compare a few rows", "anchors": ["acv_explainers/cyext_acv/cyext_acv.pyx:compute_quantile_rf", "acv_explainers/cyext_acv/cyext_acv.pyx:compute_quantile_diff_rf", "acv_explainers/acv_tree.py:compute_quantile_rf"]}
{"id": "C79", "title": "Biased sufficient rules", "statement": "compute_sdp_rule_biased returns for each observation a rectangle that contains the observation; each tree contributes the splits of its first levels, as many levels as leave more than min_node_size background rows on the side of the observation, and columns outside the coalition are not restricted. The call fails only if the first split of some tree already leaves too few rows. The probability returned with the rule is the SDP of the coalition, and the maximal version extends the rule with the rules of rows of sufficient SDP.", "quantifier": "every forest, coalition, observation, background sample, minimum size and depth", "why_tests_cant": "which levels are kept depends on counts over all trees and all depths; a test fixes one forest and one sample", "anchors": ["acv_explainers/cyext_acv/cyext_acv.pyx:compute_sdp_rule_biased", "acv_explainers/cyext_acv/cyext_acv.pyx:compile_rules", "acv_explainers/cyext_acv/cyext_acv.pyx:compute_sdp_maxrule_biased", "acv_explainers/acv_tree.py:compute_sdp_rule_biased"]}
{"id": "C80", "title": "First versions of SDP, rules and search of the projected forest", "statement": "The v0 functions return the same SDP and row weights as the current ones, with the squared tolerance t read as the interval of radius sqrt(t) around the output of the observation; the SDP is a mean over the trees of a frequency; the rule contains the observation and every observation in the rule has the same SDP and rule; the maximal rule contains the rule and takes its bounds from rules of rows of sufficient SDP (and, in the restricted version, rows that share a cell with the observation); the search reports smallest, best sufficient sets.", "quantifier": "every forest, coalition, observation, background sample, outputs, tolerance, minimum size, depth and search arguments", "why_tests_cant": "agreement of two walks that visit the nodes in different orders must hold for every forest, including after early stops", "anchors": ["acv_explainers/cyext_acv/cyext_acv.pyx:compute_sdp_rf_v0", "acv_explainers/cyext_acv/cyext_acv.pyx:compute_sdp_rule_v0", "acv_explainers/cyext_acv/cyext_acv.pyx:compute_sdp_maxrule_v0", "acv_explainers/cyext_acv/cyext_acv.pyx:compute_sdp_maxrule_opti", "acv_explainers/cyext_acv/cyext_acv.pyx:global_sdp_rf_v0", "acv_explainers/acv_tree.py:importance_sdp_rf_v0"]}
{"id": "C81", "title": "Python and Cython SDPs on the projected forest", "statement": "The Python SDP of the projected forest is the mean over trees of the frequency of the label of the observation among the rows of its projected cell, a probability; the Python expectation is the mean of the outputs of these rows; and both agree with the Cython functions of the same name.", "quantifier": "every forest, data set, observation, coalition and minimal node size", "why_tests_cant": "the cells depend on the forest, the data and the minimal size together; agreement must hold for all of them", "anchors": ["acv_explainers/utils_exp.py", "acv_explainers/acv_tree.py:ACVTree.compute_sdp_shaff", "acv_explainers/cyext_acv/cyext_acv.pyx:compute_sdp_rf"]}
{"id": "C82", "title": "Clusters of sufficient variables", "statement": "local_sdp splits the columns of an observation into clusters: first a smallest set of columns whose value reaches proba, the best of its size, then a smallest such set among the other columns for the decayed threshold, and so on; when no set of the remaining columns reaches proba the last cluster is all of them. Every column is in exactly one cluster.", "quantifier": "every value function, level, threshold, decay, number of columns and grouping of the columns", "why_tests_cant": "the search is a recursion over all subsets of the remaining columns; a test fixes one value function", "anchors": ["acv_explainers/py_acv.py:local_sdp", "acv_explainers/acv_tree.py:ACVTree.py_compute_local_sdp_reg", "acv_explainers/acv_tree.py:ACVTree.py_compute_local_sdp_clf"]}
{"id": "C83", "title": "Global importance from the clusters", "statement": "global_sdp_importance gives every variable the proportion of observations whose cluster of the variable has a value of at least pi_level, a number of [0, 1], and the mean of these values, at least pi_level; and every coalition the proportion of observations that have it as a cluster with such a value and the mean of these values.", "quantifier": "every number of observations and columns, value functions, levels, threshold and decay, without groups", "why_tests_cant": "the counts aggregate the searches of all observations", "anchors": ["acv_explainers/py_acv.py:global_sdp_importance", "acv_explainers/acv_tree.py:ACVTree.py_global_sdp_importance_clf"]}
{"id": "C84", "title": "Python swing values", "statement": "The Python swing functions return for every column the Shapley value of the player that contains it, the parts of this value due to coalitions that gain and to coalitions that lose, and the numbers of coalitions that gain, lose and stay; they agree with the Cython functions for the same value function, and the values add up to what everybody gains over nobody.", "quantifier": "every number of columns, grouping, value function and threshold", "why_tests_cant": "the loops visit all coalitions; agreement must hold for every game", "anchors": ["acv_explainers/py_acv.py:swing_tree_shap", "acv_explainers/py_acv.py:swing_tree_shap_clf", "acv_explainers/acv_tree.py:ACVTree.py_swing_sv_clf"]}
{"id": "C85", "title": "Python Active Shapley values", "statement": "py_shap_values_acv returns, for an active column, the Shapley value of its player in the active game; it agrees with shap_values_acv, the values add up to the prediction minus the mean prediction, and columns outside the active list get 0.", "quantifier": "every forest, data set that reaches every leaf, grouping without active group of one column, split of the columns into active and null ones, and observation", "why_tests_cant": "the sums range over all coalitions of the players of every leaf; agreement must hold for every forest and observation", "anchors": ["acv_explainers/py_acv.py:shap_values_acv_leaves", "acv_explainers/acv_tree.py:ACVTree.py_shap_values_acv"]}
{"id": "C86", "title": "Marginal SDP and its minimal explanations", "statement": "compute_msdp_clf and compute_msdp_reg return, for every model, background and set of columns, the frequency of background rows for which the model keeps the class of the sample (or stays within the threshold) once the chosen columns are fixed to the sample's values; it is a probability, 1 when all columns are fixed or the model reads only fixed columns, and grows with the threshold. importance_msdp_clf and importance_msdp_reg report a set of columns of smallest size whose marginal SDP reaches pi, with the largest probability for that size, and a sample is reported below pi only if no set of the search space reaches it.", "quantifier": "every model, non-empty background, sample, threshold, set of columns, groups, search space of at most 15 players, pi in (0,1]", "why_tests_cant": "the model is arbitrary and the search space is exponential", "anchors": ["acv_explainers/utils_sdp.py:single_msdp", "acv_explainers/utils_sdp.py:single_msdp_reg", "acv_explainers/utils_sdp.py:importance_msdp_clf_search", "acv_explainers/utils_sdp.py:importance_msdp_reg_search", "acv_explainers/acv_tree.py:importance_msdp_clf"]}
{"id": "C87", "title": "Minimal explanations with trees in parallel", "statement": "importance_sdp_clf_ptrees reports every sample at level pi with a smallest set of players whose SDP reaches pi and, among those of that size, a largest SDP; the reported value is the SDP of the set (1 for all columns); the result does not depend on stop; the level test agrees with py_compute_sdp_clf for sets neither empty nor full; the empty set has the share of the class in the background or 0.", "quantifier": "every value function, ensemble, background, sample, groups with at most 15 players, pi in (0,1], minimal size", "why_tests_cant": "exponential search space and arbitrary ensembles and backgrounds", "anchors": ["acv_explainers/cyext_acv/cyext_acv.pyx:global_sdp_clf_ptrees", "acv_explainers/acv_tree.py:importance_sdp_clf_ptrees"]}
{"id": "C88", "title": "Refilling a tree with new data gives every node the count and the mean of the rows that reach it", "statement": "rebuild_acvtree (and rebuild_tree, for one output) called on the root of a tree writes in each node the number of the rows whose descent passes through it and the means of their targets (NaN when no row does), so that weights and totals of a node are the sums of those of its children and the root holds those of all the data. leaves_proba counts the rows inside the closed box of the leaf: all rows that end in the leaf, and only these for rows off the splits and all the features; with no feature it returns 1 whatever the data.", "quantifier": "every well-formed tree, every list of rows and targets, every previous content of the arrays; every leaf, data set and non-empty list of features", "why_tests_cant": "Tests refill a few trees; the claim is about every tree shape, data set and node, with empty nodes and rows on a split.", "anchors": ["acv_explainers/utils.py:rebuild_acvtree", "acv_explainers/utils.py:rebuild_tree", "acv_explainers/utils.py:leaves_proba", "acv_explainers/utils.py:get_partition_tree"]}
{"id": "C89", "title": "The forest same decision probabilities of py_acv are shares of rows with the decision of the observation", "statement": "cond_sdp_forest_clf and cond_sdp_forest look, in each tree, at exactly the leaves that an observation with the entries of x on S can reach, with their boxes; they return a number in [0,1] (or NaN), which is the share of the rows near x on S that get the decision of x (averaged over the trees for classifiers).", "quantifier": "every well-formed tree or forest, every set of columns, data set, observation, leaf values and decision", "why_tests_cant": "Tests compare a few numbers; the set of visited leaves, the range and the meaning as a share are claims over every tree, data set and set of columns.", "anchors": ["acv_explainers/py_acv.py:cond_sdp_forest_clf", "acv_explainers/py_acv.py:cond_sdp_forest", "acv_explainers/utils.py:get_tree_partition", "acv_explainers/utils.py:explore_partition"]}
{"id": "C90", "title": "Variants without parallelism", "statement": "importance_sdp_clf_nopa, importance_sdp_reg_nopa, importance_sdp_reg_cat_nopa, shap_values_nopa, shap_values_acv_nopa, compute_exp_nopa, compute_exp_cat_nopa, compute_sdp_clf_nopa and compute_sdp_clf_cat_nopa return exactly what importance_sdp_clf, importance_sdp_reg, importance_sdp_reg_cat (with stop=True), shap_values, shap_values_acv, compute_exp, compute_exp_cat, compute_sdp_clf and compute_sdp_clf_cat return for the same arguments.", "quantifier": "every set of samples, number of columns, grouping, level, minimal size, probability function, forest and schedule of the parallel functions", "why_tests_cant": "the two families have different code paths; they differ only for forests or column counts beyond some size, and for particular probabilities", "anchors": ["acv_explainers/acv_tree.py:ACVTree.importance_sdp_clf_nopa", "acv_explainers/acv_tree.py:ACVTree.shap_values_nopa", "acv_explainers/cyext_acv/cyext_acv_nopa.pyx:global_sdp_clf_nopa", "acv_explainers/cyext_acv/cyext_acv_nopa.pyx:global_sdp_reg_cat_nopa", "acv_explainers/cyext_acv/cyext_acv_nopa.pyx:shap_values_leaves_nopa", "acv_explainers/cyext_acv/cyext_acv_nopa.pyx:shap_values_acv_leaves_nopa"]}
{"id": "C91", "title": "The figures reported for sampled counterfactuals", "statement": "After sampling, coverage_local is the share of the observations for which a counterfactual rule was found; accuracy_local is the share of the samples whose prediction is the wanted class (or in the wanted interval); accuracy_local_original is the same for the model given to CR; the sampling for all test rows reports the same figures for the test set.", "quantifier": "every set of observations, rules, random numbers, explainer and model", "why_tests_cant": "a single run gives a plausible number; what it counts can only be seen over all outcomes, and one of the figures is never a number", "anchors": ["acv_explainers/counterfactual_rules.py:CR.__init__", "acv_explainers/counterfactual_rules.py:CR.run_sampling_local_counterfactuals", "acv_explainers/counterfactual_rules.py:CR.run_sampling_regional_counterfactuals_alltests"]}
{"id": "C92", "title": "Divergent rules and weights", "statement": "compute_ddp_rule returns for every sample the sufficient rule of compute_sdp_rule and the probability of another output; compute_ddp_weights returns the same probability with weights over the background rows; the probability is in [0,1] and is the weighted frequency of the rows with another output (or outside the interval given for the sample, or outside the quantiles of the model if none is given); every observation in the rule has the same probability, rule and weights. For a regressor t may be a number, as documented.", "quantifier": "every forest, set of samples, background data, sets of columns, minimal node size and argument t", "why_tests_cant": "the three methods have separate copies of the walk; agreement must hold for every forest and every sample, and the documented form of t is never exercised", "anchors": ["acv_explainers/acv_agnosticX.py:ACXplainer.compute_ddp_rule", "acv_explainers/acv_agnosticX.py:ACXplainer.compute_ddp_weights", "acv_explainers/cyext_acv/cyext_acv.pyx:single_compute_ddp_rule", "acv_explainers/cyext_acv/cyext_acv.pyx:single_compute_ddp_rule_weights"]}
{"id": "C93", "title": "First counterfactual rules: returned rules, probabilities and the rule used for sampling", "statement": "The first versions of the counterfactual rules (utils.return_global_counterfactuals, the regional and the regression versions, and RunExperiments) return exactly the conditions of the compatible leaves whose probability reaches pi_level, in the regional version each with its own probability and weights; a compatible leaf contains a training row, has the required share of wanted outputs, and is the enlarged leaf of a row with the wanted output. The k-th probability is that of the k-th rule and the rule used for sampling is the most probable one (false when several rules are returned: rules and probabilities pass separately through np.unique). With binary outputs the probabilities equal those of utils_cr.py; if no training row has class 1 - y, nothing is returned.", "quantifier": "every forest in memory, training data, outputs, observation, S*, weights and levels", "why_tests_cant": "needs two leaves whose sorted order differs from the order of their probabilities; any test with one rule passes", "anchors": ["acv_explainers/utils.py:return_xy_cnt", "acv_explainers/utils.py:return_leaf_cnt", "acv_explainers/utils.py:get_compatible_leaf", "acv_explainers/utils.py:return_counterfactuals", "acv_explainers/utils.py:return_global_counterfactuals", "acv_explainers/utils.py:return_ge_counterfactuals", "acv_explainers/utils.py:RunExperiments"]}
{"id": "C94", "title": "Projected forest of ACVTree: which calls answer, and with what", "statement": "ACVTree.compute_sdp_rf, compute_exp_rf, compute_cdf_rf, importance_sdp_rf and sufficient_expl_rf answer for valid samples and the documented number t, with the probabilities, expectations and explanations ACXplainer returns for the same forest; with at most ten columns all columns are searched, otherwise the ten most important ones for the model, or the ten used by most leaves.", "quantifier": "all forests in memory, samples, background data, coalitions, forms of t, importances and leaf variables, orders of ties, groups and levels", "why_tests_cant": "which calls raise and which columns are searched must hold for every input; the tests only call the methods with arrays prepared for them", "anchors": ["acv_explainers/acv_tree.py:ACVTree.compute_sdp_rf", "acv_explainers/acv_tree.py:ACVTree.compute_cdf_rf", "acv_explainers/acv_tree.py:ACVTree.importance_sdp_rf", "acv_explainers/acv_tree.py:ACVTree.sufficient_expl_rf", "acv_explainers/acv_tree.py:ACVTree.compute_exp_rf", "acv_explainers/acv_agnosticX.py:ACXplainer.compute_cdf_rf", "acv_explainers/cyext_acv/cyext_acv.pyx:compute_cdf_rf"]}
{"id": "C95", "title": "Merging rectangles of a region", "statement": "return_largest_rectangle and return_best keep the region described by the given rectangles: every point of a returned rectangle lies in a given one, every point of a given rectangle lies in a returned one, and if a given rectangle contains the rule, the rectangle return_best returns contains it. overapprox_rule returns the smallest rectangle containing the rule and all rectangles linked to it by adjacency; return_edges returns exactly the corners.", "quantifier": "every list of rectangles, number of columns, rule, sequence of shuffles and point", "why_tests_cant": "the result depends on random shuffles over up to 5001 rounds and on which rectangles touch; losses occur only from three columns on", "anchors": ["acv_explainers/utils.py:return_largest_rectangle", "acv_explainers/utils.py:return_best", "acv_explainers/utils.py:extend_rec_r", "acv_explainers/utils.py:return_adjacent_rec", "acv_explainers/utils.py:overapprox_rule", "acv_explainers/utils.py:return_edges"]}
{"id": "C96", "title": "Conditional and marginal Gaussian parameters", "statement": "condMVN returns the parameters of the conditional law: for every population with the given means and covariances the error of the conditional mean has mean zero, no covariance with the columns given and the covariance returned; it is the best affine prediction and the only one with these properties; it raises exactly if the columns given are collinear; given columns keep their values; the order of the columns given does not matter. marMVN returns the means and covariances of the columns asked for, and agrees with condMVN exactly if there is no covariance. Both return one value per column asked for (false when no column is given: all columns are returned, and sampleMVN cannot reshape its draws).", "quantifier": "every mean vector, covariance matrix, list of columns asked for and given, values and population", "why_tests_cant": "the defining property of a conditional law ranges over all populations and all values given; a test compares numbers for one matrix", "anchors": ["acv_explainers/utils.py:condMVN", "acv_explainers/utils.py:marMVN", "acv_explainers/utils.py:sampleMVN"]}
{"id": "C97", "title": "A score for every class", "statement": "For a loaded classifier, every method of ACVTree for classifiers (importance_sdp_clf and its search variants, compute_sdp_clf, compute_sdp_clf_cat, their _nopa versions, swing_sv_clf and its variants) scores a sample in a leaf by the leaf's value for the class the model predicts for that sample.", "quantifier": "every kind of supported classifier, number of classes, method, tree, leaf and predicted class", "why_tests_cant": "the tables are read without bounds checks; a wrong column returns a plausible number from the neighbouring node, which no assertion notices", "anchors": ["acv_explainers/acv_tree.py:ACVTree.swing_sv_clf", "acv_explainers/acv_tree.py:ACVTree.compute_sdp_clf", "acv_explainers/acv_tree.py:ACVTree.importance_sdp_clf_nopa", "acv_explainers/base_tree.py:BaseTree.__init__"]}
{"id": "C98", "title": "Displayed rules describe the computed rules", "statement": "A rule shown to the user means the rule computed. print_rule prints, in the order of the columns, the interval of every bounded column and the given output and probability, and an observation meets the printed conditions exactly when it is in the rule (false beyond 1e10). show_local_counterfactuals and show_global_counterfactuals show every counterfactual once, with its own rule, probability and output; for a regression the output shown is one of the wanted outputs (false when the probability is below 1). An observation that meets the conditions shown on the explanation page has the same decision probability as the observation explained (false on a lower bound, which is shown as included).", "quantifier": "every rule, list of column names, observation, list of counterfactuals, forest, training set and draw", "why_tests_cant": "the meaning of a displayed rule ranges over all observations; a test of the printed text says nothing about the observations it selects, in particular on the bounds", "anchors": ["acv_explainers/utils_cr.py:print_rule", "acv_explainers/counterfactual_rules.py:CR.show_local_counterfactuals", "acv_explainers/counterfactual_rules.py:CR.show_global_counterfactuals", "acv_app/sdp_app.py:compute_sdp_rule"]}
{"id": "C99", "title": "The plot of Shapley values adds up to the prediction", "statement": "The arrows of the waterfall plot, one per row, form a path from f(x) to the base value; every arrow has the value of the feature it names as length; the features without an arrow of their own are counted and summed in the last arrow, and none of them is larger in magnitude than a feature shown. On the page of the web application, for every observation offered, f(x) is the prediction of that observation (false: the base value is the mean prediction of the test set although the values are relative to the training set; and only the first 100 observations work).", "quantifier": "every base value, vector of values, order of ties, max_display, forest, training set, test set and observation offered", "why_tests_cant": "a plot is not compared with numbers in tests, and the sum holds or fails for all vectors of values at once", "anchors": ["acv_app/plots.py:waterfall", "acv_app/sv_app.py:write_pg"]}
{"id": "C100", "title": "Text dumps of XGBoost are loaded faithfully", "statement": "The text dump of an XGBoost tree, written with statistics, is accepted and loaded as the same tree as its JSON dump: same children, default children, columns, split conditions, covers and leaf values, so that the loaded tree predicts what XGBoost predicts (false for observations equal to a split condition and for columns with names such as x1, x2, which are read as the next columns). A dump with a categorical split is refused. A dump whose last line end was stripped is refused or loaded with the same covers (false: it loses the last digit of the last cover).", "quantifier": "every tree, numbering of its nodes, decimal texts of its numbers, way of reading decimal numbers, scaling, naming of the columns and observation", "why_tests_cant": "the parser splits strings on keys that may occur in names and numbers; tests cover a few dumps, not every text that XGBoost can write", "anchors": ["acv_explainers/base_tree.py:SingleTree.__init__", "acv_explainers/base_tree.py:BaseTree.__init__"]}
{"id": "C101", "title": "The stages of a counterfactual analysis belong together", "statement": "Whatever was called before on a CR object, with exceptions or not, run_local_divergent_set, run_local_counterfactual_rules and run_sampling_local_counterfactuals on the same observations give the sets, rules and samples they give on a new object, each rule and sample computed from its own observation and set; the same holds for the regional stages. A stage works on the observations given to it (false: the rules of other observations are silently computed with the sets stored before), the regional stages work on their own (false: without an earlier local sampling there is no isolation forest and AttributeError is raised), and the i-th sample belongs to the i-th observation (false when an earlier observation has no rule).", "quantifier": "every sequence of calls on the object before, set of observations, targets, levels, random numbers, forest, training and test set", "why_tests_cant": "the stages communicate through attributes of the object, so a test sees one order of calls; every history and every mixture of observations is meant", "anchors": ["acv_explainers/counterfactual_rules.py:CR", "acv_explainers/utils_cr.py:return_global_counterfactuals", "acv_explainers/utils_cr.py:return_ge_global_counterfactuals"]}
{"id": "C102", "title": "The compiled predictions stay inside their arrays", "statement": "predict of a tree model or of a single tree, and the computation of the depth of a loaded tree, end, read and write only inside the arrays they are given, and put in the cell of each observation and output the offset plus the leaf values of that observation alone, whatever the memory holds at missing entries", "quantifier": "every list of trees of any sizes, number of outputs, number of observations and columns, pattern of missing values, tree limit and offset", "why_tests_cant": "The compiled loops index flat arrays with 32-bit unsigned numbers and check no shape: a wrong cell only shows for particular sizes, and a read outside an array may give a plausible number", "anchors": ["acv_explainers/cext_acv/acv_tree.h:tree_predict", "acv_explainers/cext_acv/acv_tree.h:dense_tree_predict", "acv_explainers/cext_acv/acv_tree.h:single_tree_predict", "acv_explainers/cext_acv/acv_tree.h:compute_expectations", "acv_explainers/cext_acv/_cext.cc:_cext_dense_tree_predict", "acv_explainers/base_tree.py:BaseTree.predict", "acv_explainers/base_tree.py:SingleTree.predict"]}
{"id": "C103", "title": "Predictions and Shapley values in double precision are the exact ones up to rounding", "statement": "Computed with a rounding to double precision after every operation, predict returns for every row a value that differs from offset plus leaf values by at most (number of trees used + 1) * 2^-52 times the sum of the sizes of the offset and of these leaf values. The Shapley values of shap_values, for at most 52 columns and at most 2^53 background rows, differ from the exact Shapley values by at most E * 2^-51 times the sum of the sizes of all leaf values, where E is the number of columns plus 7 plus the number of table cells the routine adds up, for every number of threads and every schedule; and their sum differs from prediction minus mean prediction by at most the number of columns times a bound of this kind. No better can be expected: the prediction may depend on the order of the trees, and a model that always predicts 0 may get a Shapley value that is not 0. Overflow and underflow are excluded.", "quantifier": "all ensembles of well-formed trees, offsets, rows, background data, coalitions, outputs, tree limits, schedules, previous contents of the scratch tables, and all roundings of bounded relative error", "why_tests_cant": "A test compares some values with a tolerance chosen by hand; that the error grows at most linearly in the number of operations, for every ensemble and every schedule, is a statement about all of them.", "anchors": ["acv_explainers/cext_acv/acv_tree.h:dense_tree_predict", "acv_explainers/cyext_acv/cyext_acv.pyx:shap_values_leaves_pa", "acv_explainers/cyext_acv/cyext_acv.pyx:binomialC", "acv_explainers/base_tree.py:BaseTree.predict"]}
{"id": "C104", "title": "Probabilities and expectations in double precision are the exact ones up to rounding", "statement": "The same and different decision probabilities, conditional expectations, distribution functions and weights of the projected forest, and the conditional expectations of a tree ensemble, computed in double precision, differ from their exact values by at most a small multiple of 2^-52 that grows with the number of additions only. A probability further from the level pi than this error is compared with pi as the exact one, and a set reported as minimal sufficient explanation is sufficient, minimal and best of its size up to this error. Wished as well: a computed probability never exceeds 1, and a probability that reaches a level is computed as one that reaches it.", "quantifier": "all forests, background data, observations, column sets, levels, search arguments and interleavings of the leaf loops", "why_tests_cant": "Rounding errors depend on all values and on the number and order of the additions; tests compare with a tolerance on a few inputs", "anchors": ["acv_explainers/cyext_acv/cyext_acv.pyx:compute_sdp_rf", "acv_explainers/cyext_acv/cyext_acv.pyx:compute_ddp_rf", "acv_explainers/cyext_acv/cyext_acv.pyx:compute_exp_rf", "acv_explainers/cyext_acv/cyext_acv.pyx:compute_cdf_rf", "acv_explainers/cyext_acv/cyext_acv.pyx:compute_exp", "acv_explainers/acv_agnosticX.py:importance_sdp_rf"]}
{"id": "C105", "title": "Groups of columns are accepted wherever they come from", "statement": "compute_fcluster_bydistance splits the columns into groups: every column is in exactly one group, and two columns are together exactly when the clustering gives them the same label. These groups can be given to the explanation functions: the compiled shap_values returns the Shapley value of each group, and the Python functions py_compute_local_sdp and py_shap_values accept them (false: a column alone in its cluster makes them raise ValueError). With groups of at least two columns without common column they raise nothing, and the recursion of py_compute_local_sdp ends for any groups.", "quantifier": "every list of labels, value function, level, decay, tree model, background data and observation", "why_tests_cant": "the exception depends on a group meeting a path of a tree or the remaining columns; a test uses a few groups", "anchors": ["acv_explainers/utils.py:compute_fcluster_bydistance", "acv_explainers/utils.py:chain_l", "acv_explainers/py_acv.py:local_sdp", "acv_explainers/py_acv.py:shap_values_leaves"]}
{"id": "C106", "title": "Predictions and explanations read the same observation", "statement": "predict assigns an observation to the same leaves as the explanation methods: the value it returns is the sum of the values of the leaves whose rectangles contain the observation, so that Shapley values sum to the prediction minus its mean over the background rows. This holds for models whose predict reads the observations in single precision (scikit-learn, skopt, skranger and imblearn trees and forests, XGBClassifier, CatBoostClassifier) if every tested value is a number of single precision or is further from the threshold than the rounding; it fails for an observation that the rounding moves across a threshold.", "quantifier": "all ensembles of well-formed trees, all observations and background rows of rational numbers, all outputs", "why_tests_cant": "A test uses a few random rows, which almost never lie within a rounding error of a threshold; the claim is about every row and every threshold.", "anchors": ["acv_explainers/base_tree.py:BaseTree.predict", "acv_explainers/base_tree.py:BaseTree.__init__", "acv_explainers/acv_tree.py:ACVTree.shap_values"]}
{"id": "C107", "title": "A model that is accepted can be explained", "statement": "The constructor of a tree explainer recognises a model by the classes it is an instance of, in any imported module of its list, so that subclasses are accepted too, and raises for any other model; an object that it returns has the trees of the model and its methods answer. The second part fails: CatBoostRegressor and CatBoost models are accepted without reading their trees, and LightGBM, GPBoost and CatBoostClassifier models whose trees cannot be read are accepted without trees; NGBoost models are always refused; a LightGBM Booster with several classes has one output, the sum of the scores of all classes.", "quantifier": "all models (any set of classes and type text), all states of the imported modules, all results of the loaders", "why_tests_cant": "The behaviour depends on which libraries are imported and on the class hierarchy of the model; a test has one installation and a few models.", "anchors": ["acv_explainers/base_tree.py:BaseTree.__init__", "acv_explainers/base_agnostree.py:BaseAgnosTree.__init__", "acv_explainers/utils.py:safe_isinstance"]}
{"id": "C108", "title": "A wrapped model predicts one value per observation", "statement": "ModelW returns, for a matrix, the class probabilities, the probability of the second class or the prediction of the wrapped model, row by row and in order; for one observation given as a vector it returns the prediction of this observation. The second part fails: a vector of d values is read as d observations of one column, so models of two or more columns raise.", "quantifier": "all wrapped models that answer row by row, all matrices and vectors", "why_tests_cant": "A test wraps one model and calls it on one matrix; the claim is about every model, mode and shape.", "anchors": ["acv_explainers/utils.py:ModelW"]}
{"id": "C109", "title": "The searches by simulated annealing follow their temperature", "statement": "In the searches for maximal rules and for counterfactual samples a candidate that is worse than the current one is accepted with probability exp(-loss / t), where t = temp / log(i + 1) is the temperature of iteration i, so that a smaller temp makes the search greedier. This fails: the sign of the exponent is wrong and every candidate is accepted for every positive temp, so that the result does not depend on temp nor on the random numbers drawn for acceptance.", "quantifier": "all positive temperatures, all sequences of random numbers, all rules, data, batches and numbers of iterations", "why_tests_cant": "A test of a random search can only compare a few seeds and temperatures; the claim is about every temperature and every sequence of random numbers.", "anchors": ["acv_explainers/utils.py:rules_simulated_annealing", "acv_explainers/utils_cr.py:rules_simulated_annealing", "acv_explainers/utils_cr.py:simulated_annealing", "acv_explainers/utils.py:simulated_annealing"]}
{"id": "C110", "title": "The synthetic data set keeps its promises", "statement": "The features made by return_strong_features determine the target whatever is drawn: there is one pair per target, and the target is 1 exactly if c is a value of C+ or z is above the pivot. return_c_values gives two disjoint sets without repetition whose sizes add up to the cardinality; the magic encoding gives different categories different integers and places all of C+ before all of C-; get_feature_names gives every column but those that start with y (and c on request). The cardinality fails for odd numbers and for numbers above 1352, and below 2 the generator raises.", "quantifier": "all targets, cardinalities, pivots, drawn numbers and outcomes of the coin and the choices; all columns of categories", "why_tests_cant": "The data set is random: a test sees one draw of one size, and the claim is about every draw.", "anchors": ["acv_explainers/utils.py:return_c_values", "acv_explainers/utils.py:return_strong_features", "acv_explainers/utils.py:encode_as_magic_int", "acv_explainers/utils.py:get_feature_names"]}
{"id": "C111", "title": "The search for a regression forest reports the values of its sets", "statement": "importance_sdp_reg reports for each observation a set of smallest size whose same decision probability reaches pi_level, the largest of its size, with its probability as compute_sdp_reg gives it, independently of the other observations of the call; the importances are the fractions of observations reported with a column. For forests the values fail: normalisation numbers of the previous set and of the previous observation are used, so that equal observations get different sets, and the reported value is not that of compute_sdp_reg. For one tree, without groups, everything holds.", "quantifier": "all forests, backgrounds, observations, levels, tolerances and disjoint groups of columns, up to 15 players", "why_tests_cant": "The numbers carried over depend on the whole history of the call: a test with one tree or with one observation cannot see them.", "anchors": ["acv_explainers/acv_tree.py:ACVTree.importance_sdp_reg", "acv_explainers/cyext_acv/cyext_acv.pyx:global_sdp_reg"]}
{"id": "C112", "title": "Stages of the counterfactual workflow", "statement": "When the stages of a CR object succeed, then for every observation the divergent set and its complement split the columns, the weights are those of the training rows when the complement is fixed at that observation, each rule carries the probability of that observation's own target, fixes the complement at the observation, and each sample lies in a rule of largest probability and agrees with the observation outside the set. For regions: each rule keeps the region outside the set, each sample of a test row of the region lies in a rule of largest probability and agrees with the test row outside the set; the set is one of which the change gives the wanted output, and the weights are those with the set free.", "quantifier": "all forests, training sets, test sets, observations, targets, regions, levels, random draws and histories in which the stages raise nothing", "why_tests_cant": "The stages depend on each other through attributes, lists in step and random searches; a test checks a few observations of one data set.", "anchors": ["acv_explainers/counterfactual_rules.py:run_local_divergent_set", "acv_explainers/counterfactual_rules.py:run_local_counterfactual_rules", "acv_explainers/counterfactual_rules.py:run_sampling_local_counterfactuals", "acv_explainers/counterfactual_rules.py:run_regional_divergent_set", "acv_explainers/counterfactual_rules.py:run_regional_counterfactual_rules", "acv_explainers/counterfactual_rules.py:run_sampling_regional_counterfactuals", "acv_explainers/cyext_acv/cyext_acv.pyx:single_compute_cdp_intv_rule_weights"]}
{"id": "C113", "title": "The background is a sample, not a sequence", "statement": "An explanation depends on the background data only through the shares of its rows: putting the rows in another order, or repeating every row the same number of times (with min_node_size multiplied by that number), leaves same-decision probabilities, conditional expectations, distribution functions, rules, searches for sufficient explanations, Shapley values and Active Shapley values unchanged; the weight of a row is shared equally between its copies.", "quantifier": "all backgrounds, reorderings and numbers of copies, ensembles, coalitions, observations and parameters", "why_tests_cant": "the claim relates two runs of the program on arbitrarily many pairs of backgrounds; tests compare a few backgrounds", "anchors": ["acv_explainers/cyext_acv/cyext_acv.pyx:single_compute_sdp_rf", "acv_explainers/cyext_acv/cyext_acv.pyx:shap_values_leaves_pa", "acv_explainers/cyext_acv/cyext_acv.pyx:compute_exp", "acv_explainers/utils_cr.py:return_xy_cnt"]}
{"id": "C114", "title": "Shapley values explain what compute_exp reports", "statement": "The Shapley value returned for a column is the Shapley value of its player (the column, or its group) in the game that gives a coalition what compute_exp returns for its columns; so players that compute_exp does not distinguish get equal values, players that never change it get 0, and the values add up to compute_exp of all columns minus compute_exp of none.", "quantifier": "all ensembles, backgrounds, groups, observations and outputs", "why_tests_cant": "relates two separate implementations over all coalitions of arbitrarily many columns", "anchors": ["acv_explainers/cyext_acv/cyext_acv.pyx:shap_values_leaves_pa", "acv_explainers/cyext_acv/cyext_acv.pyx:compute_exp"]}
{"id": "C115", "title": "Explanations do not depend on the units of the columns", "statement": "If the entries of every column, the thresholds that split on it and the bounds of conditions are converted by a strictly increasing function, predictions, Shapley values, Active Shapley values, conditional expectations, same-decision probabilities, weights and counterfactual probabilities are unchanged, and the bounds of rules are converted.", "quantifier": "all strictly increasing conversions, ensembles, backgrounds, coalitions, observations and parameters", "why_tests_cant": "ranges over all monotone conversions and pairs of runs", "anchors": ["acv_explainers/cyext_acv/cyext_acv.pyx:shap_values_leaves_pa", "acv_explainers/cyext_acv/cyext_acv.pyx:single_compute_sdp_rule", "acv_explainers/utils.py:get_partition"]}
{"id": "C116", "title": "An ensemble is a set of trees, not a sequence", "statement": "Giving the same trees in another order changes no prediction of the whole ensemble, no Shapley value (plain, normalised, Active, Cython and Python), no conditional expectation, no same decision probability (from the leaves or from the projected forest), no counterfactual, conditional or interventional probability, no weight of a background row, no bound of a sufficient rule, and no result of the searches for sufficient explanations. Arithmetic is exact. With a tree limit the order decides which trees are used, so predictions may differ.", "quantifier": "all ensembles, all reorderings of their trees, all background data, observations, column sets, groups, depths and leaf sizes", "why_tests_cant": "It ranges over all ensembles and all permutations of their trees; a test compares two orders of one ensemble.", "anchors": ["acv_explainers/cyext_acv/cyext_acv.pyx:shap_values_leaves_pa", "acv_explainers/cyext_acv/cyext_acv.pyx:compute_sdp_rule", "acv_explainers/cyext_acv/cyext_acv.pyx:compute_sdp_rf", "acv_explainers/cyext_acv/cyext_acv.pyx:compute_sdp_reg_cat", "acv_explainers/cyext_acv/cyext_acv.pyx:global_sdp_rf", "acv_explainers/cext_acv/_cext.cc:dense_tree_predict"]}
{"id": "C117", "title": "Explanations do not depend on the numbering of the columns", "statement": "If the columns are renumbered in the same way in the data, in the trees, in the column sets and in the groups, predictions are unchanged; Shapley values, Active Shapley values, conditional expectations, same-decision, counterfactual, conditional and interventional probabilities and weights about a column are those of the column it was; bounds of rules move with their columns. A search that is given the columns in the renumbered order finds the renumbered sets with the same probabilities and importances. With at most ten columns the search follows the numbering, so which of several tied sets is reported depends on it; whether the level is reached and the reported probability do not.", "quantifier": "all permutations of the columns, ensembles, backgrounds, observations, column sets, groups and parameters", "why_tests_cant": "ranges over all permutations of all numbers of columns and over pairs of runs", "anchors": ["acv_explainers/cyext_acv/cyext_acv.pyx:shap_values_leaves_pa", "acv_explainers/cyext_acv/cyext_acv.pyx:compute_sdp_rf", "acv_explainers/cyext_acv/cyext_acv.pyx:compute_sdp_rule", "acv_explainers/cyext_acv/cyext_acv.pyx:global_sdp_rf", "acv_explainers/utils.py:get_partition"]}
{"id": "C118", "title": "Columns that the model does not use do not matter", "statement": "Take a tree ensemble and call a column used when some split tests it. Changing the entries of unused columns, in the data and in the explained observation, missing or not, changes no prediction, conditional expectation, Shapley value, Active Shapley value, same or different decision probability, rule, weight or counterfactual probability; nor does adding unused columns to the set of fixed columns or removing them (as long as the set stays neither empty nor complete for the leaf estimators that treat these sets separately). Adding unused columns to the table leaves the values of the old ones unchanged. A rule says nothing about an unused column. The search for sufficient explanations reports no player without a used column, unless it reports sets of the smallest explored size or all columns. The categorical estimators are the exception: fixing an unused column selects rows by equality.", "quantifier": "All well-formed ensembles, data, observations, sets, coalitions and search arguments", "why_tests_cant": "The claim compares two runs for every ensemble, data and set, and the number of unused columns is unbounded", "anchors": ["acv_explainers/acv_tree.py:shap_values", "acv_explainers/acv_tree.py:compute_exp", "acv_explainers/acv_tree.py:compute_sdp_clf", "acv_explainers/acv_agnosticX.py:compute_sdp_rf", "acv_explainers/acv_agnosticX.py:compute_sdp_rule", "acv_explainers/acv_agnosticX.py:importance_sdp_rf", "acv_explainers/acv_agnosticX.py:sufficient_expl_rf", "cext_acv/cyext_acv.pyx:single_compute_sdp_rf"]}
{"id": "C119", "title": "Explanations of two forests together are means", "statement": "Take two forests (or one forest cut into two parts) and explain the same observation with all their trees together. Every same decision, different decision or counterfactual probability, every conditional expectation, every value of the conditional distribution function and every weight of a row is the mean of the two, weighted by the numbers of trees; the rule is the intersection of the two rules. So a set of columns that is sufficient at a level in both forests is sufficient in the two together. Repeating all trees k times changes nothing, including the results of the searches.", "quantifier": "All pairs of forests, data, observations, sets of columns, conditions and levels", "why_tests_cant": "The claim relates three runs for every pair of forests; the number of trees is unbounded", "anchors": ["acv_explainers/acv_agnosticX.py:compute_sdp_rf", "acv_explainers/acv_agnosticX.py:compute_sdp_rule", "acv_explainers/acv_agnosticX.py:compute_exp_rf", "acv_explainers/acv_agnosticX.py:compute_cdf_rf", "acv_explainers/acv_agnosticX.py:compute_cdp_rf", "acv_explainers/acv_agnosticX.py:importance_sdp_rf", "cext_acv/cyext_acv.pyx:single_compute_sdp_rf"]}
{"id": "C120", "title": "What depends only on the predictions", "statement": "Two models with the same predictions on every observation have the same values of compute_exp_cat for all backgrounds, observations and sets of columns, whatever their trees, and the same sum of Shapley values. The other estimators are not determined by the predictions: compute_exp and the Shapley values of single columns differ for two trees that compute the same function and test their columns in a different order.", "quantifier": "All pairs of ensembles with the same predictions, backgrounds, observations and sets of columns", "why_tests_cant": "The claim compares all pairs of models that compute the same function", "anchors": ["acv_explainers/acv_tree.py:compute_exp_cat", "acv_explainers/acv_tree.py:compute_exp", "acv_explainers/acv_tree.py:shap_values"]}
{"id": "C121", "title": "Explanations see only the answers to the tests of the model", "statement": "Replace the observation and any rows of the background by rows that answer every test 'column f is at most threshold' of the model in the same way. The prediction, the Shapley and Active Shapley values, and with the projected forest every probability, rule, weight, expectation, search result and list of sufficient explanations stay the same; so an observation has the explanation of its cell. For compute_exp and the same decision probabilities of the leaf estimator the rows must moreover lie on the same thresholds: these count a row on a threshold on both sides. compute_exp_cat looks for equal entries and does not have the property.", "quantifier": "All ensembles, backgrounds, pairs of observations and data that answer the tests in the same way, sets of columns and parameters", "why_tests_cant": "The claim is about all pairs of inputs that the model cannot tell apart", "anchors": ["acv_explainers/acv_tree.py:shap_values", "acv_explainers/acv_tree.py:compute_exp", "acv_explainers/acv_tree.py:compute_sdp_clf", "acv_explainers/acv_agnosticX.py:compute_sdp_rf", "acv_explainers/acv_agnosticX.py:compute_sdp_rule", "acv_explainers/acv_agnosticX.py:importance_sdp_rf"]}
{"id": "C122", "title": "Raising the level of a search keeps what already reaches it and never makes explanations smaller", "statement": "Calling importance_sdp_rf, importance_sdp_clf or sufficient_expl_rf twice with everything the same except a higher level changes nothing for an observation whose explanation already reaches the higher level or which had none at the lower level; an observation explained at the higher level is explained at the lower level with at most as many columns or groups; every set returned by sufficient_expl_rf at the higher level contains one returned at the lower level. The minimal explanation at the higher level need not contain the one at the lower level.", "quantifier": "all tables of sufficiency probabilities, numbers of observations, columns, groups, smallest sizes, stop settings and pairs of levels in (0, 1]", "why_tests_cant": "a relation between two runs of the search over every table of probabilities; tests compare a few tables", "anchors": ["acv_explainers/acv_agnosticX.py:importance_sdp_rf", "acv_explainers/acv_tree.py:importance_sdp_clf", "acv_explainers/acv_agnosticX.py:sufficient_expl_rf"]}
{"id": "C123", "title": "Raising the smallest size of a search", "statement": "Calling importance_sdp_rf or sufficient_expl_rf twice with everything the same except a larger minimal keeps the explanation of every observation whose explanation is already of that size: the same columns with the same probability. Without stop, an observation explained with the larger minimal is explained with the smaller one. Every set listed by sufficient_expl_rf with the larger minimal contains one listed with the smaller; sets that are large enough stay listed. The list can gain sets: supersets of the small sets that are no longer explored.", "quantifier": "all tables of sufficiency probabilities, numbers of observations, columns, groups, levels in (0, 1], stop settings and pairs of smallest sizes", "why_tests_cant": "a relation between two runs of the search over every table of probabilities", "anchors": ["acv_explainers/acv_agnosticX.py:importance_sdp_rf", "acv_explainers/acv_agnosticX.py:sufficient_expl_rf"]}
{"id": "C124", "title": "A wider interval never makes the same decision less probable", "statement": "For a regressor, replace the interval of accepted outputs by one that contains it, or raise the tolerance. The same decision probability does not fall, the probability of reaching a target interval does not fall, and the different decision probability does not rise; the sufficient rule stays the same; an observation with a minimal sufficient explanation keeps one with at most as many columns or groups, and every sufficient set contains one of the new list. True of the projected forest; false of compute_sdp_reg and compute_sdp_reg_cat, whose value can drop from 3/4 to 0 when the last distant row becomes close.", "quantifier": "all forests, backgrounds, outputs, observations, sets of columns, node sizes, depths and pairs of nested intervals; all tables of probabilities for the searches", "why_tests_cant": "a relation between two calls over every pair of intervals", "anchors": ["acv_explainers/acv_agnosticX.py:compute_sdp_rf", "acv_explainers/acv_agnosticX.py:compute_ddp_rf", "acv_explainers/acv_agnosticX.py:compute_cdp_rf", "acv_explainers/acv_agnosticX.py:importance_sdp_rf", "acv_explainers/acv_tree.py:compute_sdp_reg", "acv_explainers/acv_tree.py:compute_sdp_reg_cat"]}
{"id": "C125", "title": "Fixing more columns never uses more of the background", "statement": "When the set of fixed columns of compute_sdp_rf or compute_sdp_rule is enlarged, the background rows used in each tree are among those used before, and rows that agree with the observation on the larger set are used by both. The first part is true of a forest in which no split on an old column lies below a split on a new one, and false in general: fixing a column can hide splits on the other columns, so rows come back and the rule loosens.", "quantifier": "all forests, backgrounds, observations, pairs of nested sets of columns and node sizes that do not stop the descent early", "why_tests_cant": "a relation between two calls over every forest and pair of sets", "anchors": ["acv_explainers/acv_agnosticX.py:compute_sdp_rf", "acv_explainers/acv_agnosticX.py:compute_sdp_rule", "acv_explainers/cyext_acv/cyext_acv.pyx:single_compute_sdp_rf"]}
{"id": "C126", "title": "Explanations stay within the range of the predictions", "statement": "A conditional expectation of the model's predictions lies between the smallest and the largest prediction: compute_exp_cat plus the base value is between any bounds on the predictions of the data rows that match the instance, the normalised compute_exp is between the sums over the trees of bounds on their leaf values, and compute_exp and the Shapley values stay in the range spanned by the leaf values (a constant model gets expectation equal to the constant and Shapley values 0).", "quantifier": "every list of well-formed trees, every data set, every instance, every set of columns or coalition structure, every output", "why_tests_cant": "The range has to hold for every model, data set and instance; a test only sees the few models it builds, and the leaf-wise estimators leave the range only for trees whose leaves test different columns.", "anchors": ["acv_explainers/cyext_acv/cyext_acv.pyx:compute_exp", "acv_explainers/cyext_acv/cyext_acv.pyx:compute_exp_cat", "acv_explainers/cyext_acv/cyext_acv.pyx:compute_exp_normalized", "acv_explainers/cyext_acv/cyext_acv.pyx:shap_values_leaves_pa", "acv_explainers/utils_exp.py:compute_exp"]}
{"id": "C127", "title": "The classes of a classifier share the explanation", "statement": "In a classifier whose leaf values are class proportions, the conditional expectations of the classes add up to 1, and the Shapley values of a column over the classes add up to 0 (what a column adds to one class it takes from the others).", "quantifier": "every list of well-formed trees whose leaf values add up to a constant per tree, every data set, instance, set of columns and coalition structure, every number of classes", "why_tests_cant": "The relation ties the outputs of all classes for every model and data set; unit tests compare single outputs, and the leaf-wise estimators break it only when the leaves of a tree test different columns.", "anchors": ["acv_explainers/cyext_acv/cyext_acv.pyx:compute_exp", "acv_explainers/cyext_acv/cyext_acv.pyx:compute_exp_cat", "acv_explainers/cyext_acv/cyext_acv.pyx:compute_exp_normalized", "acv_explainers/cyext_acv/cyext_acv.pyx:shap_values_leaves_pa", "acv_explainers/cyext_acv/cyext_acv.pyx:shap_values_leaves_normalized", "acv_explainers/acv_tree.py:ACVTree.py_shap_values_notoptimized"]}
{"id": "C128", "title": "Cleaning a list of rules settles it", "statement": "Removing nested rules from a list a second time changes nothing, and the result does not depend on the order of the rules, on repetitions or on removing nested rules from a part of the list first. Growing a rule with its compatible neighbours a second time, or with the neighbours in another order, gives the same rule.", "quantifier": "every list of rules of the same number of columns, every pair of lists with the same rules, every list of probabilities and weights; every rule, set of columns and list of neighbours", "why_tests_cant": "The order and the nesting of the rules come from the data, and all orders have to give one result; a test fixes one order.", "anchors": ["acv_explainers/utils_cr.py:remove_in", "acv_explainers/utils_cr.py:remove_in_wsdp", "acv_explainers/utils.py:find_union", "acv_explainers/utils.py:extend_rec"]}
{"id": "C129", "title": "Explanations do not depend on the units of the output", "statement": "If the outputs of the data, the prediction and the interval around it are converted by an increasing function, same-decision probabilities, sufficient rules, distribution functions and minimal explanations of the projected forest are unchanged; expectations and quantiles follow a change of units a y + b (a > 0). Renaming the classes of a classifier changes nothing. If all leaf values of a model are multiplied by a number, its expectations are multiplied by it and the same-decision probabilities of a classifier are unchanged.", "quantifier": "every forest, data set, observation, set of columns, interval, level and size; every increasing conversion for probabilities and rules, every affine one for expectations and quantiles", "why_tests_cant": "The conversion is arbitrary and the relation ties two runs on every data set; a test can only try single conversions.", "anchors": ["acv_explainers/cyext_acv/cyext_acv.pyx:compute_sdp_rf", "acv_explainers/cyext_acv/cyext_acv.pyx:compute_exp_rf", "acv_explainers/cyext_acv/cyext_acv.pyx:compute_quantile_rf", "acv_explainers/cyext_acv/cyext_acv.pyx:compute_cdf_rf", "acv_explainers/utils.py:weighted_percentile", "acv_explainers/utils_exp.py:compute_shaff_quantile", "acv_explainers/utils_sdp.py:compute_sdp_clf"]}
{"id": "C130", "title": "Larger outputs never give smaller expectations or quantiles", "statement": "If the leaf values of a model are raised, its expectations do not fall. If one model predicts at least as much as another for every data row, so do its conditional expectations. If outputs of the data are raised, expectations and quantiles of the projected forest do not fall and its distribution function does not rise.", "quantifier": "every model, every pair of models, every forest, data set, observation, set of columns, quantile level and change of the outputs", "why_tests_cant": "The relation ties two runs for every possible increase of every output; a test tries single increases.", "anchors": ["acv_explainers/cyext_acv/cyext_acv.pyx:compute_exp", "acv_explainers/cyext_acv/cyext_acv.pyx:compute_exp_cat", "acv_explainers/cyext_acv/cyext_acv.pyx:compute_exp_rf", "acv_explainers/cyext_acv/cyext_acv.pyx:compute_cdf_rf", "acv_explainers/cyext_acv/cyext_acv.pyx:compute_quantile_rf", "acv_explainers/utils.py:weighted_percentile", "acv_explainers/utils_exp.py:compute_shaff_quantile"]}
{"id": "C131", "title": "The coalition search of a regression forest reports sets that reach the level, or nothing", "statement": "global_sdp_reg_cpp_pa_coal answers for at most 25 players. Each observation is reported with the columns of a set, its value and -1 after the columns; the value reaches the level, no smaller set reaches it and no set of the same size has a larger value. Otherwise the row is empty with value 0, and without early stop no set reaches the level. The importance of a column is the fraction of observations reported with it. Without early stop every observation is explained, at least by all columns.", "quantifier": "every forest, output, background, list of observations, partition of the columns into at most 25 groups, level in (0, 1], early stop or not", "why_tests_cant": "The search runs over all sets of columns of all forests and keeps state across sets and observations; tests see a few of them.", "anchors": ["acv_explainers/cyext_acv/cyext_acv.pyx:global_sdp_reg_cpp_pa_coal", "acv_explainers/utils_sdp.py:compute_sdp_reg"]}
{"id": "C132", "title": "Searches over many columns", "statement": "With more than fifteen columns, importance_sdp_reg, importance_sdp_reg_cat and importance_msdp_clf_search return sufficient explanations as they do with fewer columns, and whether there is a result for some samples does not depend on the other samples of the call.", "quantifier": "every number of columns, set of samples, probability function, level, minimal size and value of stop", "why_tests_cant": "the enumeration is cut at 2**15 sets and its end is reached only with 17 columns or more, depending on the data", "anchors": ["acv_explainers/cyext_acv/cyext_acv.pyx:global_sdp_reg_cat", "acv_explainers/cyext_acv/cyext_acv.pyx:global_sdp_reg", "acv_explainers/utils_sdp.py:importance_msdp_clf_search", "acv_explainers/acv_tree.py:ACVTree.importance_sdp_reg"]}
{"id": "C133", "title": "Groups are a partition, not a list", "statement": "Two arguments C that group the same columns together (other order of the groups, other order inside a group, a column as a group of its own or in no group) give the same Shapley values, normalized and Active Shapley values and the same sufficient explanations.", "quantifier": "every forest, background, observation, pair of coalition arguments with the same partition, level and set of columns", "why_tests_cant": "the code walks through C in its order; an effect of the order needs a tie, a group in the last place or a group that straddles", "anchors": ["acv_explainers/cyext_acv/cyext_acv.pyx:shap_values_leaves_pa", "acv_explainers/cyext_acv/cyext_acv.pyx:shap_values_leaves_normalized", "acv_explainers/cyext_acv/cyext_acv.pyx:shap_values_acv_leaves", "acv_explainers/acv_agnosticX.py:ACXplainer.importance_sdp_rf"]}
{"id": "C134", "title": "Explaining a row of the background", "statement": "For an observation that is itself a row of the background data and any set of columns, every quantity is well behaved: the Shapley values of the groups sum to its prediction minus the mean prediction; with the projected forest SDP and DDP add up to 1, the weights of the background rows add up to 1, its own weight is at least 1/N, the SDP is at least 1/N when its own label is the explained decision, the distribution function reaches 1 and the expectation lies between the smallest and largest label.", "quantifier": "every ensemble of well-formed trees, background data, row of it, set of columns, grouping, min_node_size, depth, labels, classifier flag and interval", "why_tests_cant": "Tests evaluate a few forests and rows; that no projected cell loses the observation needs an argument over all trees, sets of columns and stopping parameters.", "anchors": ["acv_explainers/cyext_acv/cyext_acv.pyx:single_compute_sdp_rf", "acv_explainers/cyext_acv/cyext_acv.pyx:single_compute_sdp_rule_weights", "acv_explainers/acv_agnosticX.py:ACXplainer.compute_sdp_rf", "acv_explainers/acv_tree.py:ACVTree.shap_values"]}
{"id": "C135", "title": "Raising min_node_size", "statement": "When min_node_size is raised, every background row that a tree uses for an observation and a set of columns is still used: a row with positive weight keeps a positive weight, a positive SDP or distribution function stays positive, and the reported rule only widens. For compute_cdf_rf this holds for every forest, for compute_sdp_rf, compute_sdp_rule and their weights for trees that number children after parents; it is false for other numberings and for the Python versions.", "quantifier": "every forest, background, observation, set of columns, labels, decision, depth and pair of node sizes s <= s'", "why_tests_cant": "A relation between two calls with different stopping points over every forest; the walks differ from the first node where one of them stops.", "anchors": ["acv_explainers/cyext_acv/cyext_acv.pyx:single_compute_cdf_rf", "acv_explainers/cyext_acv/cyext_acv.pyx:single_compute_sdp_rf", "acv_explainers/cyext_acv/cyext_acv.pyx:single_compute_sdp_rule", "acv_explainers/cyext_acv/cyext_acv.pyx:single_compute_sdp_rule_weights", "acv_explainers/utils_exp.py:compute_shaff_sdp_clf"]}
{"id": "C136", "title": "The depth of the other trees does not matter", "statement": "Each forest is walked to the depth of its deepest tree. What a tree contributes to a same decision probability, expectation, distribution function, weight or rule does not depend on how deep the other trees of the forest are; so the estimates of two forests together are the means of the estimates of the two, each walked to its own depth. True if the memory cell before each tree does not look like a test on the chosen columns, false for a first tree preceded by such a cell.", "quantifier": "every forest, pair of depths that cover all its trees, background, observation, set of columns, min_node_size, labels and decision", "why_tests_cant": "The number of levels is unbounded, and the walk goes on below the leaves and after it has run out of rows.", "anchors": ["acv_explainers/cyext_acv/cyext_acv.pyx:single_compute_sdp_rf", "acv_explainers/cyext_acv/cyext_acv.pyx:single_compute_sdp_rule", "acv_explainers/cyext_acv/cyext_acv.pyx:single_compute_exp_rf", "acv_explainers/cyext_acv/cyext_acv.pyx:single_compute_cdf_rf", "acv_explainers/acv_agnosticX.py:ACXplainer.compute_sdp_rf"]}
{"id": "C137", "title": "The columns that are fixed are a set", "statement": "Two lists with the same columns, in any order, give the same results. In the projected forest (compute_sdp_rf, compute_ddp_rf, the rules and weights, compute_exp_rf, compute_cdf_rf, the SHAFF version) and in the expectations of a tree ensemble (compute_exp, compute_exp_cat) and the compiled regression probabilities (compute_sdp_reg, compute_sdp_reg_cat) a column listed several times counts once. In the same decision probabilities of a tree ensemble and of a black box (compute_sdp_clf, compute_sdp_clf_cat, the Python compute_sdp_reg and compute_sdp_reg_cat, single_msdp, single_msdp_reg) only the order is free: a list with as many entries as the data has columns is taken for all columns, so one column repeated that often is reported with probability 1.", "quantifier": "every pair of lists with the same members, every forest, background, observation, node size, depth and label function", "why_tests_cant": "A test compares a few lists; the statement is about every order and every repetition.", "anchors": ["acv_explainers/cyext_acv/cyext_acv.pyx:compute_sdp_rf", "acv_explainers/cyext_acv/cyext_acv.pyx:compute_ddp_rf", "acv_explainers/cyext_acv/cyext_acv.pyx:compute_exp_rf", "acv_explainers/cyext_acv/cyext_acv.pyx:compute_cdf_rf", "acv_explainers/cyext_acv/cyext_acv.pyx:compute_sdp_rule", "acv_explainers/cyext_acv/cyext_acv.pyx:compute_exp", "acv_explainers/cyext_acv/cyext_acv.pyx:compute_exp_cat", "acv_explainers/cyext_acv/cyext_acv.pyx:compute_sdp_clf", "acv_explainers/cyext_acv/cyext_acv.pyx:compute_sdp_clf_cat", "acv_explainers/utils_sdp.py:compute_sdp_clf", "acv_explainers/utils_sdp.py:single_msdp", "acv_explainers/utils_sdp.py:single_msdp_reg", "acv_explainers/cyext_acv/cyext_acv.pyx:compute_sdp_reg", "acv_explainers/cyext_acv/cyext_acv.pyx:compute_sdp_reg_cat", "acv_explainers/utils_sdp.py:compute_sdp_reg", "acv_explainers/utils_sdp.py:compute_sdp_reg_cat"]}
{"id": "C138", "title": "Larger effects get larger Shapley values", "statement": "A column that never lowers the value of what is known gets a Shapley value that is not negative; the value of a column lies between the smallest and the largest change that knowing it makes; of two columns, the one with which every set of other columns is worth more gets the larger value; and of two models, backgrounds or observations, the one in which knowing the column changes more gives it the larger value. Worth is the game of the leaves for shap_values and its normalised version, the threshold game for the swing values, and what compute_exp returns if no entry equals a threshold. On a threshold a column that raises compute_exp whatever else is fixed can get a negative value.", "quantifier": "all ensembles, backgrounds, groups, observations, outputs, columns and bounds", "why_tests_cant": "Compares weighted sums over all coalitions of arbitrarily many columns; a test sees a few small games.", "anchors": ["acv_explainers/cyext_acv/cyext_acv.pyx:shap_values_leaves_pa", "acv_explainers/cyext_acv/cyext_acv.pyx:compute_exp", "acv_explainers/cyext_acv/cyext_acv.pyx:swing_sv_clf", "acv_explainers/cyext_acv/cyext_acv.pyx:compute_sdp_swing", "acv_explainers/acv_tree.py:shap_values", "acv_explainers/acv_tree.py:swing_sv_clf_slow", "acv_explainers/cyext_acv/cyext_acv.pyx:shap_values_leaves_normalized"]}
{"id": "C139", "title": "Grouping matters only among the columns that the model uses", "statement": "Two groupings that put the same used columns together give every used column the same Shapley value, with and without normalisation. So a group in which at most one column is tested by the model gives that column the value it gets without groups, and all its companions get this value too, although they are 0 on their own.", "quantifier": "all ensembles, backgrounds, observations, outputs and pairs of valid groupings that agree on the columns tested by some split", "why_tests_cant": "The two calls enumerate different coalitions of different players; equality holds for any number of columns and groups.", "anchors": ["acv_explainers/cyext_acv/cyext_acv.pyx:shap_values_leaves_pa", "acv_explainers/acv_tree.py:shap_values", "acv_explainers/cyext_acv/cyext_acv.pyx:shap_values_leaves_normalized"]}
{"id": "C140", "title": "Swing values of columns that the model does not use", "statement": "A group of columns that no split tests gets, among n groups (n at least 2), the swing value 1/n if its columns alone reach the threshold, plus 1/n if all other columns together do not reach it. So it is 0 if and only if its columns alone do not reach the threshold and all others do; unlike the Shapley values, the swing values of unused columns can be positive.", "quantifier": "all ensembles, backgrounds, labellings, thresholds, valid groupings with 2 to 32 groups, observations and groups without a tested column", "why_tests_cant": "The value is a weighted sum over all coalitions of arbitrarily many columns; that only the first and the last coalition count has to be shown for all of them.", "anchors": ["acv_explainers/cyext_acv/cyext_acv.pyx:swing_sv_clf", "acv_explainers/cyext_acv/cyext_acv.pyx:compute_sdp_swing", "acv_explainers/acv_tree.py:swing_sv_clf_slow"]}
