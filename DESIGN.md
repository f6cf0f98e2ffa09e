# Formal model of acv00 (Active Coalition of Variables)

Source modelled: `/repo` (package `acv_explainers`), read as text only.
Prover: Lean 4.33.0 with single Mathlib modules. Project: `/verif/lean`.

## Layout

* `lean/Verif/Model/*.lean`: the code, function by function. Every definition cites file and lines in `/repo`.
* `lean/Verif/Spec/*.lean`: small specifications written without looking at the model's helpers
  (Shapley value of a game, "descent of a tree", "inclusion-minimal sufficient set", ...).
* `lean/Verif/Lemmas/*.lean`: helper lemmas.
* `lean/Verif/Props/*.lean`: one theorem (or a few) per property, with an `example` beside each that meets its hypotheses.
* `MANIFEST.json`: property -> theorem names. `seeded/LOG.jsonl`: mutation experiments.

## Trusted base

* Lean's kernel, and at most the axioms `propext`, `Classical.choice`, `Quot.sound`. `AXIOMS.md` lists them for each theorem of the
  manifest. No axiom is added, and there is no `sorry`, `native_decide` or `bv_decide`.
* The reading of the code: the model is tied to the code only by the citations.
* Numbers: floating point values are modelled as exact rationals (`Rat`); rounding, overflow, NaN payloads and float32
  conversion are not modelled. Division by zero is modelled explicitly where the code can meet it (guarded division in
  Cython returns 0; unguarded numpy division gives NaN and is an error value or an excluded case named in the theorem).
* `±inf` bounds are modelled by `Option`-like bounds (`none` = infinite).
* Random number generators are modelled as arbitrary oracles (theorems hold for all draws).
* Third-party code (numpy, sklearn, skranger, xgboost, ...) is a parameter; what is assumed is stated at the definition.
* Memory outside arrays (`boundscheck=False`) is modelled by an arbitrary function where a property is about it.

## Plan per property

| id | modelled | proof |
|----|----------|-------|
| C01 | array trees, `get_partition` (leaf-to-root walk), `tree_predict` (root-to-leaf walk) | induction on the walk; well-formed arrays = every node but the root has one parent, of smaller index |
| C02 | `node_id` accumulator of `get_partition` | same induction |
| C03 | padded arrays, `dense_tree_predict` | packed walk simulates the single walk step by step |
| C04 | `compute_expectations` recursion | structural induction against a height specification |
| C05 | `tree_update_weights` over rows | fold invariant: weight = number of rows passing |
| C06 | `shap_values_leaves` with powerset, coefficient loop and grouping | binomial identity for null players + bijection between coalitions of the leaf and coalitions of all players |
| C07 | same | Shapley efficiency + C01 |
| C08 | same | direct |
| C09 | same | direct |
| C10 | same | linearity of finite sums |
| C11 | `shap_values_leaves_v2` | expected false (type confusion in `va in remove_va`): negation with witness, `_partial` without coalitions |
| C12 | `leaves_cache` + consumer | equality of tables, by extensionality |
| C13 | interleavings of per-iteration write steps; `leafProg` (Shapley), `accProg` (expectations and SDP), `rowProg` | steps on disjoint cells commute; `shapParallelM`, `accTreesM`: the same for an arbitrary arithmetic without laws (`C13_*_any_arithmetic`) |
| C14 | `_comb_int_long` loop, exactly and with the roundings of double precision (`combRnd`, `toDouble`) | loop invariant `val = choose`; with rounding while products stay below `2 ^ 53` |
| C15 | `max_var` computation | expected false (max over the last tree only): witness and `_partial` |
| C16 | `shap_values_acv_leaves` | direct |
| C17 | same | reduction to Shapley value of the active game |
| C18 | `shap_values_acv_leaves_adap`, `get_null_coalition` | row-wise map |
| C19 | `compute_sdp_clf` (Python clamp, Cython without clamp) | clamp lemma; negation witness for the unclamped version |
| C20 | `compute_exp` | C01 + boundary witness for closed intervals |
| C21 | projected forest walk (set of nodes, set of rows) | weights sum; witness when a cell becomes empty |
| C22 | same | invariant over levels: visited nodes = reachable nodes |
| C23 | Python and Cython variants | invariant for Python; witness for Cython |
| C24 | memory as a function of a signed index | witness that the walk reads index -1; `_partial` under benign memory |
| C25, C26 | rule tightening along the walk | invariant: rule implies the same decisions |
| C27 | weights | sums |
| C28 | cdf/exp | monotone sums |
| C29-C31 | search loop over sizes and subsets for all rows | invariants over the scan; per-row projection |
| C32 | `sufficient_expl_rf` scan | scan invariant: list = minimal sufficient sets seen |
| C33 | enumeration with the `2**15` cut | combinations are complete; witness for truncation |
| C34 | coalition list helpers | set reasoning |
| C35 | `compute_local_sdp` | counting |
| C36 | annealing with oracle draws | invariant over iterations |
| C37 | `find_union` | containment by induction; negation witnesses for the union claim |
| C38 | `remove_in`, `remove_in_wsdp` | fold invariant; negation witness (duplicates vanish) |
| C39 | `global_rules_model` | witness for the coverage violation; `_partial` |
| C40 | `generate_candidate`, `simulated_annealing` | invariant for all draws |
| C41 | state machine of `ACXplainer` | witness for stale forest, `_partial` for single-fit histories |
| C42-C44 | loaders | structural induction / bit arithmetic |
| C45 | `weighted_percentile` | order arguments |
| C46 | swing Shapley values | sums |
| C47, C48 | counterfactual rules, CDP variants | scan invariant; witness for the inverted comparison |
| C49 | both versions of the leaf estimator | both equal the Shapley value of the leaf game |
| C50 | writing of `S_star` rows in the searches, with the cells of former writes | invariant of a row; witness for stale cells with groups |
| C51 | rule enlargement + probability of the covered rows | annealing invariant; witness for a point between two rows |
| C52, C53 | `unique_rules_s_star`, `compute_rules_metrics` | list reasoning; witnesses for `np.allclose` and the empty explanation |
| C54 | walks conditioned on a rule | invariant over levels, exact set of rows |
| C55-C57 | `remove_in_wsdp`, `return_leaf_cnt`, `get_compatible_leaf` | selection lemmas; witnesses for duplicates, rounding, NaN |
| C58 | counters of the regional sampling | fold invariant; witness |
| C59 | `weighted_percentile` on permuted samples | uniqueness of a sorted list with distinct keys; witness for ties |
| C60 | both swing versions | reduction to the Shapley value of the threshold game; witness for the direct version |
| C61 | scaling and normalisation of sklearn ensembles, `SingleTree.predict` | reduction to C03 through the leaves of the raw trees |
| C62 | Spark trees, preorder numbering | induction on the Spark tree, with the block of indices it occupies |
| C63 | stacked (multi-class) models | sums over rounds by column |
| C64 | `tree_limit` on boosted, averaged and stacked models | reduction to C03; witnesses |
| C65 | `values_binary` | real sigmoid; witness with leaf values 5, -2, -2 |
| C66 | isolation trees | induction on the tree with fuel; witness family of one-column trees |
| C67 | `HistGradientBoosting*` node tables | equivalence of the two step relations; witness with a categorical split |
| C68 | XGBoost JSON dumps | induction on the dump with the set of numbers it writes; witnesses for thresholds and gaps |
| C69 | `compute_sdp_reg_cat`, Cython and Python | group means are second moments of the ensemble output, then a mixture identity; two witnesses |
| C70 | `compute_sdp_reg`: cells shared by all second trees, `norm` arrays threaded through the observations | computation for one tree; two stumps as witness |
| C71 | `global_sdp_reg_cat`, `global_sdp_reg` | the search loop lemmas of C29-C31 with the SDP of C69 and C70; witness with a group |
| C72 | `compute_exp_normalized`, NaN as `none` | weights read off the sum over fitting leaves; off thresholds the extremes by the leaf partition; witnesses on a threshold and with an empty leaf |
| C73 | `shap_values_leaves_normalized`, with the accumulator that an empty leaf resets | Shapley value of a game in which players outside the leaf are null; the full coalition by joining two points; witness with an empty leaf |
| C74 | the five-index tables of `leaves_cache_normalized` | counting lemma for each table, agreement of the interval tests off thresholds; witness on a threshold |
| C75 | the two enumerating versions over an arbitrary value function | players and remaining players as in C49, weights as the case without free players |
| C76 | the search loops of C29 with the probability asked for the complement built by `list.remove`, and with the interval probabilities | the complement is the increasing list of the other columns and `remove` never raises; then C29-C31; witness for the set of all columns |
| C77 | `sufficient_cxpl_rf` with its two final slices | C32 for the sets, invariant of the mark in front of the lists for the probabilities; witnesses |
| C78 | `compute_quantile_rf` (0/1 arrays with the way back below the minimum size) and `compute_quantile_diff_rf`; the array walk is shown to be the indicator of the Python cell, then C45 applies; the difference version by reflecting the percentile function |
| C79 | level-wise bounds of `single_compute_sdp_rule_biased`, the loop of `compile_rules` with its exception; the nodes visited at each level are characterised by a depth-indexed projected descent, independent of memory outside the tree | 
| C80 | the `v0` functions: same walk with vectors; agreement through the rows that travel like x (C22), C25/C26/C37 for the rules, C29/C31 for the search |
| C81 | the Python `shaff` functions with negative indexing; frequency over the final cell, agreement with Cython by C22 when enough rows travel like x |
| C82 | `local_sdp` as a recursion on the remaining columns; partition by induction; with groups a counterexample |
| C83 | `global_sdp_importance` as counts over the clusters of all observations |
| C84 | `swing_tree_shap(_clf)` for an arbitrary value function; equal to Shapley value, its signed parts and the counts; equal to the Cython loops |
| C85 | the Python `shap_values_acv_leaves`; reduced to the players of the active groups (`pyLeaf_spec`) and to the leaf sums of C17 |
| C86 | The marginal SDP as a mean over the background with columns fixed, for an arbitrary model; the searches are `msdpSearch` with these values. Proved from `sample_reports` and `sample_none`; the full set has value 1 by definition, so no exception remains. |
| C87 | The search loop of C29 with the test `ss >= pi and ss >= best` and without early stop at half the columns; the value is the unclipped Python SDP. |
| C88 | `rebuild`, `rebuildTree` write the two arrays node after node, `partTree`, `finalPart`, `leavesProba` the box of a leaf | induction over the tree: the rows handed to a node are those whose descent passes through it; the appended intervals folded at the end are the running box of `get_partition` |
| C89 | `explorePart` walks down, `treeMean` the three means of a tree, `condSdpClf`, `condSdp` the two functions | induction over the tree for the visited leaves and their boxes; a row in all boxes ends in a visited leaf (mix of x and the row); sums over leaves are sums over rows; algebra of the quotient; witnesses by evaluation |
| C90 | `globalSdpSeq`, `shapSeq`: the loops of cyext_acv_nopa.pyx, reading the enumeration when a size is reached and adding to `phi` in place; compared with `globalSdpClf`, `globalSdpReg`, `shapCy`, `shapParallel` |
| C91 | `crLocal`, `allTests`: the loops of `CR` that fill `errs_local` and `errs_regional`, on top of `runSampling`; the figures are counted over the observations with a rule |
| C92 | `ddpRule`, `ddpWeights` and the argument handling of the `ACXplainer` methods | cells shared with C21/C26/C27; case analysis on `t` |
| C93 | `localCfOld`, `regionalCfOld`: the first versions of the counterfactual rules in utils.py; membership characterisation through `np.unique`, sortedness of the probabilities forces the chosen index, kernel-evaluated witness for the false pairing |
| C94 | `ACVTree` and `ACXplainer` wrappers of the projected forest: the forms of `t`, the checks, the columns searched | case analysis on the conversion of `t`; agreement by unfolding; C29 and C32 for the searches; top-ten columns by induction-free list lemmas. The documented number `t` raises: negation proved |
| C95 | `findNborR`, `extendRecR`, `largestRectangle` with arbitrary shuffles, `adjacentRec` with the list mutated under the loop, `overapproxRule`, `returnEdges`; invariants of the merging loop; `Linked` as specification of adjacency |
| C96 | `condMVN`, `marMVN`, `sampleShape` with Mathlib's determinant and adjugate; normal equations and their uniqueness; second moments of an arbitrary finite population |
| C97 | `ClfKind.outputs`, `ClfMethod.columns`, `read3` on the C-contiguous buffer; index arithmetic; the claim characterised by `C97_iff`, refuted by `C97_false` |
| C98 | `printRule`, `showLocal`, `showGlobal`, `ruleString`; what the lines mean is specified by `Shown.Met`, `ShownBound.Met`; induction over the columns, `C47_local` and `C48_cond` for the output shown, `forestRun_same` for the page; refutations by concrete rules |
| C99 | `waterfall` with any order by magnitude; `Path` by induction over the rows; the page by `C07_efficiency_columns`; refutation by a forest of one tree |
| C100 | `xgbText` on lists of characters with Python's `split`, `in`, `lstrip`, `int`; the dump is written by `XgbText.text`; the parser is inverted field by field (`textNode_leaf`, `textNode_split`) and the loop is the JSON extraction (`XgbText.fold`), then C68 |
| C101 | `CrState.call` for any engine of stages (`CrEngine`), histories as lists of calls; the sequence overwrites every attribute it reads, so nothing of the history is left; `crEngine` fills in the stages of the code for the witnesses of the negations |
| C102 | The compiled functions of `acv_tree.h` and their wrappers in `_cext.cc` on flat arrays with checked reads and writes and 32-bit unsigned arithmetic; proved to end inside the arrays and to refine C03 and C04, by induction on the trees, the rows and the outputs. Disproved: without a check of the columns, of the number of values and of the number of the tree. |
| C103 | `dense_tree_predict` and `shap_values_leaves_pa` with a rounding after every operation (`Rounded`, on the machine-arithmetic programs of C13); error calculus `Approx` (size and number of roundings), closed form of the table cells, weights of the subsets sum to 1; bounds by induction on trees, cells and operations; double precision as an instance. Overflow, underflow and fused operations are not modelled. |
| C104 | The accumulations of the projected forest and of `compute_exp` with a rounding after every operation; induction over the additions with the calculus of C103; the search theorem C29 applied to the computed probabilities; witnesses with six and nine rows. |
| C105 | `columnGroups` over arbitrary labels; `localSdpPy`, `local_sdp` with the exceptions of `chain_l` and `list.remove`. Partition by labels; equality with `localClusters` (C82) for groups of two or more; refusal of a group of one column for all value functions (`C105_single_raises`) and for all trees with a leaf through it and another column (`C105_python_raises`); termination by the number of columns. |
| C106 | The cast of `predict` to single precision is a rounding to 24 significant bits (`roundSingle`), applied to the row before the descent (`predictCast`). Proved: it is to nearest, keeps the order and the numbers of single precision; the descent with the cast meets the same nodes as the descent without it when every tested value is clear of its threshold (induction on the descent), so the leaves, the predictions and the sum of the Shapley values agree. Counterexample by evaluation: a row `2^-30` above a threshold. |
| C107 | `safeIsInstance` over an arbitrary state of the imported modules and arbitrary classes of the object; the `if`/`elif` chain as a table in order (`branchTable`); the result of a loader is arbitrary and each branch says what becomes of its exception. Induction over the table; counterexamples by evaluation. |
| C108 | `wrapCall`, `ModelW.__call__`, over any row-wise model; matrices by induction on the rows, vectors by cases. |
| C109 | The acceptance of both searches over the real numbers (`accepts`), with the value 1 that numpy gives in iteration 0; `annealLoopT`, `sampleLoopT` are the loops with this acceptance, compared with the loops of `MaxRule` and `Counterfactual` by induction on the iterations. |
| C110 | `return_c_values`, `return_strong_features`, `encode_as_magic_int`, `get_feature_names` with an oracle for every draw; induction on the targets, sortedness and permutation of the encoder's categories. |
| C111 | `global_sdp_reg` with the arrays `norm` carried through the whole search; reduced to the search of C29-C31 on a table of the values met (each set is visited once); witnesses with two stumps. |
| C112 | The stages of `crEngine` (sets, weights, rules, samples) are unfolded and combined with C76, C47, C57 and C40; the claims on the regional weights and on the wanted output are refuted on a data set of four corners. |
| C113 | `Repeats`/`Multiplied` (Spec/Background) describe a reordered and repeated background. Walks over the two backgrounds stay in corresponding states (simulation, by induction over nodes, levels and trees); leaf counts are all multiplied by the same number. Negations with concrete witnesses for counterfactual rules and for an unscaled `min_node_size`. |
| C114 | Combines C06 (leaf game) and C20 (`compute_exp` off thresholds) after showing that the leaf game depends only on the columns of a coalition; symmetry of the Shapley value proved in general. Negation on thresholds by efficiency. |
| C115 | `Spec/Units` converts rows, thresholds and conditions. Leaf rectangles are converted (induction along `get_partition`), so all counts agree; walks of the projected forest stay in the same state; the rule is tracked bound by bound. Negation for thresholds beyond 1e10. |
| C116 | Two runs, on a list of trees and on a permutation of it. Sums over trees and over pairs of trees are invariant under permutations; the rule of a forest is the meet of the bounds of its trees. |
| C117 | Two runs, one on columns renumbered by a permutation. Rectangles, counts, players and walks of the projected forest are equivariant; the states of the search are related by a simulation. |
| C118 | `UsesColumn` is read off the splits (Spec/Unused). A leaf box is unconstrained in unused columns, so every count and test of the leaf estimators agrees (`Lemmas/Unused`); walks of the projected forest read only nodes of the stored tree, whose features are used columns or negative. More columns: the leaf game restricted to the old players (`shapley_restrict`). Search: erase the player and compare with the smaller set. |
| C119 | The walk of a tree does not depend on the other trees, except for the rule, which is a fold of tightenings (`forestRunD_updates` of C116). Sums over cells are scaled by the number of trees; the fold of two lists of tightenings is the meet of the two folds. Copies by induction. |
| C120 | Two ensembles with the same predictions. `compute_exp_cat` is the mean of the predictions over the matching rows (C20), so it agrees; the sum of the Shapley values is the prediction less the mean prediction (C07), so it agrees. Two trees with the same predictions and swapped tests show that the leaf estimators do not. |
| C121 | Rows that answer every test of the model in the same way (`SameAnswers`). Bounds of leaf rectangles are thresholds (induction over `get_partition`), so membership in a half-open rectangle agrees coordinate by coordinate; the walks of the projected forest take the same steps at every node they can read. Counterexamples for the closed rectangles and for equal entries. |
| C122 | two runs of the modelled searches at levels `pi ≤ pi'`: induction over the sizes for one observation, then the reports of C29 and the lists of C32; the nesting of minimal explanations is refuted on a table of four columns. |
| C123 | two runs of the modelled searches from sizes `m ≤ m'`: the first run goes through the extra sizes and then through the sizes of the second one from another state below the level; two states below the level find the same. |
| C124 | the indicator of an interval grows with the interval; cell sums are monotone; the search of one observation with larger probabilities stops at the same size or earlier (induction over the sizes). For tree ensembles the frequency of C69. |
| C125 | the nodes visited with the smaller set are visited with the larger one or lie below a split on a new column (induction over the descent); with C22 this orders the cells. A ladder of three splits refutes the general claim. |
| C126 | conditional means and convex combinations stay between bounds (C20, C72); Shapley weights are non-negative and add up to 1 (efficiency on the dictator game), and shares of leaves are in [0, 1], which bounds the leaf-wise estimators. A constant model with two kinds of leaves refutes the full claim for them. |
| C127 | leaf totals give totals of predictions, hence of conditional means (C20) and convex combinations (C72); Shapley values of games with a constant sum add up to 0 (C75, C07). A tree with two classes refutes the claim for the leaf-wise estimators. |
| C128 | `remove_in` returns the sorted maximal rules (C38), so equal sets of rules give equal lists; `remove_in_wsdp` leaves rules of which none contains another, so nothing is removed again. Two neighbours of a square refute the claim for `find_union`. |
| C129 | tests of outputs are unchanged by increasing conversions and cells do not depend on outputs; sums over cells are linear; sorting, midpoints and interpolation of `weighted_percentile` are followed through an affine conversion. For leaf estimators the factor is pulled out of the sums and cancels in quotients. |
| C130 | Each sum over leaves or rows is monotone in its values. For quantiles the sorted samples are compared one by one: they have the same weights if the order is kept or all weights are equal, and interpolation is monotone in the ordinates. Two concrete forests show where quantiles fall. |
| C131 | The loop of `global_sdp_reg_cpp_pa_coal` is the search of `Search` on values below the level replaced by -1 and without the rule for the full set; the lemmas of C29-C33 then apply. For one tree the full set has value 1 as in C70. A forest of two stumps shows an observation without explanation. |
| C132 | Model: `lazyLoop`, which reads the list of each size when it is reached, with the cut of the enumeration. Proof: induction over sizes; a result exists exactly if all samples are resolved before the cut. Counterexample: one easy and one hard sample with 20 columns. |
| C133 | Model: `shapCy`, `shapNorm`, `activeCy`, `importanceSdpRf`. Proof: C06, C17 and C73 reduce the values to Shapley values of games that see only columns; a bijection of the players keeps them. Searches: each set of players has a set of as many players with the same columns in the other search. Counterexamples: a tie, and a large group in the last place. |
| C134 | Model: `shapCy`, `sdpRf`, `ddpRf`, `ruleWeights`, `cdfRf`, `expRf`. Proof: a background row agrees with itself on every set of columns, so no step of the projected run drops it and no cell is empty; its share of a cell is at least 1/N; the leaf of the row contains the row, which is the hypothesis of C07. |
| C135 | Model: `cellsVec`, `cellsSet`, `cellPy`, `sdpRule`, `ruleWeights`. Proof: two walks that differ in `min_node_size` agree until the one with the larger size stops; from then on it revisits the first cell of its list, whose test is already applied, so its rows and rule no longer change while the other walk only loses rows. For sets the first cell is the lowest number, hence the numbering. |
| C136 | Model: `Mem.run`, `forestRun`. Proof: invariant over levels: a cell in the list is settled (its test applied, its children in the list) or has at most `k` levels of tests below it; a walk that is short of rows only looks at its first cell, which is settled or within `k` levels too. With `k = 0` a level changes neither rows nor rule. |
| C137 | The runs of the projected forest read the list of columns only through membership: induction on trees, levels and nodes. The tests of the tree ensembles are conjunctions over the list. The early return for as many entries as columns is the only reader of the length, equal for lists without repetition; a concrete list with repetitions refutes the rest. |
| C138 | Lemmas on weighted sums over coalitions: nonnegative weights that add up to 1 give bounds and monotonicity; splitting the coalitions by the other player gives the order of two players. Transferred by C06, C73, C60 and C114. Witness on a threshold by evaluation. |
| C139 | The game of the leaves reads only used columns, so players without one are null and can be dropped; the rest correspond to the classes of used columns, which are the same for the two groupings. Shapley values are transported along this bijection. |
| C140 | The swing value is the Shapley value of the threshold game. Apart from its two early returns `compute_sdp_swing` reads only used columns, so only the empty coalition and the coalition of all other groups contribute, each with weight 1/n. |

Rows C50 and later were added after the first version of this plan, while the model grew.

## What is modelled

| module | code in `/repo/acv_explainers` |
|--------|------|
| `Tree` | array trees of `base_tree.py`: `get_partition`, `predict`, `tree_predict`, `dense_tree_predict`, `compute_expectations`, `tree_update_weights`, `node_sample_weight` |
| `Comb`, `LeafShap`, `LeafShapPy`, `LeafCache` | `binomialC`, `shap_values_leaves_pa`, `shap_values_leaves_v2`, Python `shap_values_leaves`, `leaves_cache` |
| `CombDouble` | `binomialC`, `_comb_int_long` with IEEE rounding to 53 bits, unbounded exponent |
| `Parallel` | `prange` loops as interleavings of loads and stores |
| `ParallelAcc` | the leaf loops of `compute_exp`, `compute_exp_cat`, `compute_sdp_clf_cat`, `compute_sdp_clf` under every interleaving; `shap_values_acv_leaves_nopa` |
| `ParallelMachine` | the leaf loops of cyext_acv.pyx:1350-1485, 52-80, 194-222, 266-314, 377-428 over an arbitrary arithmetic |
| `MaxVar` | sizes of scratch buffers |
| `ActiveShap` | `shap_values_acv_leaves`, `_adap`, `get_null_coalition` |
| `TreeSdp` | `compute_sdp_clf` (Cython, Python, categorical), `compute_exp` |
| `Swing` | `swing_sv_clf` in the two Cython versions |
| `Ensemble` | scaling, normalising, stacking and limiting in `BaseTree.__init__`, `SingleTree.predict`, `values_binary` |
| `Normalized` | `compute_exp_normalized`, `shap_values_leaves_normalized`, `leaves_cache_normalized`, `shap_values_leaves_normalized_cache`, `shap_values_leaves_notoptimized`, `shap_values_discrete_notoptimized` |
| `Divergent` | `global_ddp_rf`, `global_cdp_rf`, `global_ddp_intv`, `global_cdp_intv`, `sufficient_cxpl_rf` and their callers |
| `QuantileRf` | cyext_acv.pyx `compute_quantile_rf`, `compute_quantile_diff_rf` 4335–4510 |
| `Biased` | cyext_acv.pyx 4826–5128 (biased rules, `compile_rules`, `maxrule_biased`, `maxrule_biased_v2`, `maxrule_opti`), 4030–4236 and 4680–4819 (`v0`); acv_tree.py 1142–1242 |
| `Shaff` | utils_exp.py 111–141 and 270–305; acv_tree.py 804–822 and 1290–1308 |
| `Clusters` | py_acv.py 503–651; acv_tree.py 489–496 and 508–518 |
| `SwingPy` | py_acv.py 397–500; acv_tree.py 497–507, 579–583 |
| `ActivePy` | py_acv.py 191–295; acv_tree.py 461–470 |
| `Marginal` | `single_msdp(_reg)`, `msdp(_reg)`, `importance_msdp_reg_search`, utils_sdp.py:366-394, 486-604; wrappers acv_tree.py:720-801 | model arbitrary, row by row; NaN for an empty background |
| `Ptrees` | `global_sdp_clf_ptrees`, cyext_acv.pyx:3075-3255; acv_tree.py:528-543 | values below pi masked (`considerPi_eq`); trees in order |
| `Rebuild` | `rebuild_tree`, `rebuild_acvtree`, `get_partition_tree`, `get_final_partition`, `leaves_proba` (utils.py:182-271) |
| `CondForest` | `explore_partition`, `get_tree_partition` (utils.py:588-732), `cond_sdp_forest_clf`, `cond_sdp_forest` (py_acv.py:297-396) |
| `Sequential` | cyext_acv_nopa.pyx: `global_sdp_clf_nopa`, `global_sdp_reg_cat_nopa`, `global_sdp_reg_nopa`, `shap_values_leaves_nopa`. The other functions of that file (`compute_exp_nopa`, `compute_exp_cat_nopa`, `compute_sdp_*_nopa`, `leaves_cache*_nopa`, `shap_values_*_cache_nopa`, `shap_values_acv_leaves_adap_nopa`, `single_shap_values*_nopa`, `swing_sv_clf_direct_nopa`) are textually the parallel ones with `range` for `prange`, so the models of the latter apply |
| `CrMetrics` | counterfactual_rules.py: `CR.__init__` (as far as `model` is concerned), `run_sampling_local_counterfactuals`, `run_sampling_regional_counterfactuals_alltests`; `predict`, the isolation forest and the random numbers are parameters |
| `DdpRule` | acv_agnosticX.py:279-326,469-580; cyext_acv.pyx:5406-5650 |
| `CfOld` | utils.py:1336-1528, 1866-2012 (first versions of the counterfactual rules) and the choices of `RunExperiments` 1621-1863; sampling itself (hard-coded DGP) not modelled |
| `AcvTreeRf` | acv_tree.py:831-1094,1132-1285, acv_agnosticX.py:233-278,424-468,1220-1310: wrappers of the projected forest |
| `Rects` | utils.py:1102-1299: `find_nbor_r`, `extend_rec_r`, `is_subset`, `find_mergable`, `remove_rule`, `return_largest_rectangle`, `return_best`, `return_adjacent_rec`, `overapprox_rectangle`, `overapprox_rule`, `return_edges`. `mc_approx_rules` (1302-1335) is not modelled: it always raises, because the import of `HoleFinder` is commented out |
| `SearchCoal` | cyext_acv.pyx:2637-2866: `global_sdp_reg_cpp_pa_coal`, which no Python function calls |
| `ManyColumns` | cyext_acv.pyx:893-965,1020-1265, utils_sdp.py:395-484: the searches with the lists of sets read when their size is reached |
| `CondGauss` | utils.py:274-300: `condMVN`, `marMVN`, the shape of `sampleMVN`. Not modelled: the draws of scipy (and its refusal of singular covariances), `sampleMarMVN` (always a `TypeError`: it omits an argument of `marMVN`) |
| `SequentialAcc` | cyext_acv_nopa.pyx:26-89, 166-448: `compute_exp_nopa`, `compute_exp_cat_nopa`, `compute_sdp_clf_cat_nopa`, `compute_sdp_clf_nopa` |
| `ClassColumns` | acv_tree.py:188-338, 402-437, 528-543, 563-592 and base_tree.py:144-193, 234-283, 335-353, 435-484, 507-551: which table of leaf values a method for classifiers passes, its number of columns, unchecked reads. Not modelled: multi-class CatBoost, NGBoost |
| `Display` | utils_cr.py:271-284, counterfactual_rules.py:295-360 and acv_app/sdp_app.py:53-63, 65-80: the values formatted into the lines shown. Not modelled: the conversion of numbers to text, the tables of the page |
| `Waterfall` | acv_app/plots.py:90-320 and acv_app/sv_app.py: arrows, labels and lines of the plot. Not modelled: sizes, colours of texts, ticks |
| `LoadText` | `base_tree.py` 1040-1092: the text dump of XGBoost; `float` is any reading of texts, `int` refuses signs |
| `CrWorkflow` | `counterfactual_rules.py` 6-243: attributes read and written by the stages of `CR`, exceptions included; the means and coverages are in `CrMetrics`; the regions of `compute_sdp_maxrules` are a parameter |
| `CMemory` | `cext_acv/acv_tree.h` 15-38, 85-98, 142-168, 197-322 and `cext_acv/_cext.cc` 76-241, 356-470 on memory, with the calls of `base_tree.py` 742-762, 1105-1142 |
| `Rounded` | `roundDouble`, `roundMachine`, `coefLoopRnd`, `shapRnd`, `ensemblePredictRnd`: predictions and Shapley values with rounding | `acv_tree.h:247-283`, `cyext_acv.pyx:1272-1485, 3994-4024`, `base_tree.py:710-775` |
| `RoundedSdp` | `compute_sdp_rf`, `compute_ddp_rf`, `compute_exp_rf`, `compute_cdf_rf`, rule weights and `compute_exp` with a rounding after every operation (cyext_acv.pyx:29-87, 4242-4570, 5303-5316, 5803-5972) |
| `Groups` | utils.py:115-136 (`compute_fcluster_bydistance`), 309-321 (`chain_l`); py_acv.py:503-578 with exceptions. The clustering is an arbitrary list of labels. |
| `InputCast` | `X.astype(self.input_dtype)` of `BaseTree.predict` (base_tree.py:742-743) for the models read in single precision, with an unbounded exponent |
| `Recognise` | `safe_isinstance`, the choice of the branch in `BaseTree.__init__` and `BaseAgnosTree.__init__`, exceptions of the loaders, number of stacked models |
| `Wrapper` | `ModelW` |
| `Temperature` | the acceptance of candidates in `rules_simulated_annealing` and `simulated_annealing` |
| `Synthetic` | the synthetic data set of utils.py:406-463, 517-537; `return_weak_features_and_targets` and the data frames are not modelled |
| `SearchReg` | `global_sdp_reg`, `importance_sdp_reg` for any number of trees |
| `CrStages` (Props) | what the stages of a `CR` object compute for each observation and region |
| `SdpReg` | `compute_sdp_reg`, `compute_sdp_reg_cat` (Cython, Python), `global_sdp_reg_cat`, `global_sdp_reg` (one tree) |
| `LoadSpark` | the pyspark branches of `SingleTree` and `BaseTree` |
| `LoadIso` | `IsoTree` |
| `LoadHist` | the `HistGradientBoosting*` branches of `BaseTree.__init__` |
| `LoadJson` | the JSON dump branch of `SingleTree` |
| `Projected`, `Cdp` | projected forest walks of SDP, DDP, CDP, CDF, expectation, with rule, weights, condition, intervention |
| `Search` | minimal sufficient explanations, all sufficient explanations, enumeration of subsets, importance |
| `MaxRule`, `Rules` | maximal rules (annealing, `algo2`), nested rules, global rule model |
| `Counterfactual` | `utils_cr.py` and `CR` of `counterfactual_rules.py` |
| `Quantile` | `weighted_percentile`, `compute_shaff_quantile` |
| `Explainer` | attributes of `ACXplainer` over a history of calls |
| `LoadLgb`, `LoadCat`, `LoadXgb` | the LightGBM, CatBoost and binary XGBoost loaders |

## Disagreements between the code and the stated properties

Each has a theorem that proves the negation on a concrete input (suffix `_false`, or the name given).

* C11: `shap_values_leaves_v2` compares a column with a list of lists, so ungrouped columns get 0 as soon as a group is given.
* C15: `max_var` is the number of variables of the leaves of the last tree only.
* C16: a group across the border of `S*` gives a null variable a value; an empty `S*` gives NaN.
* C17, C49: an empty leaf is an unguarded division in the Python and active versions; a group of one column makes the Python version raise.
* C18: the layout of `N_star` in the docstring is not the one `get_null_coalition` produces.
* C19: the Cython `compute_sdp_clf` is not clamped (36/35 on a small tree).
* C20: leaf rectangles are tested with both bounds closed, so a value on a threshold is in two leaves.
* C21, C27, C28: an empty projected cell contributes 0, so probabilities do not sum to 1.
* C23: the Cython walks check `min_node_size` after the cell was already reduced.
* C24: walks read the cell before the first node (index -1).
* C25: rules start at `[-1e10, 1e10]`.
* C29: the set of all columns is reported with SDP 1 without computing it.
* C33: enumeration is cut at `2**15` subsets.
* C36: one column makes `np.squeeze` drop an axis and the loop raise.
* C37: merging two neighbours that touch in a corner covers observations of neither.
* C38, C55: `remove_in_wsdp` deletes the larger of two nested rules and all copies of a repeated rule.
* C39: `ValueError` when only rules of insufficient coverage apply; accuracy ties; NaN accuracy.
* C41: explanations after a second `fit` use the first forest; a failed `fit` still changes the number of columns.
* C42: categorical columns, one-hot splits and `nan_mode` Max are loaded with another meaning.
* C43: `lstrip(b'binf')` also strips the first bytes of `base_score` (0.9 is an example); a double between two floats may go the other way.
* C44: NaN with `missing_type` None, zero as missing, categorical splits; a tree with one leaf leaves the model without trees.
* C47: regressions use `acc_level` in place of `pi_level`.
* C48: the interventional CDP of a classifier counts the rows with a *different* output.
* C50: with groups, rows of the explanation table keep cells of an earlier, longer explanation.
* C51: observations between two background rows are in the maximal rule but not at level `pi`.
* C52: two rules equal up to `np.allclose` share one explanation.
* C53: the coverage of an empty explanation is 1/N.
* C57: rounding a leaf to cents can empty it, and its NaN accuracy wins `np.argmax`.
* C58: the coverage of regional counterfactuals is always 1.
* C59: equal outputs with different weights make the percentile depend on the order.
* C60: `swing_sv_clf` is not efficient; it reads variables that were never set.
* C64: `tree_limit` scales an averaged forest by the share of trees kept, counts single trees instead of rounds for stacked models, and is ignored by Shapley values.
* C65: averaging sigmoids tree by tree does not give the probability of a boosted classifier; the predicted class can flip.
* C66: an isolation tree grown on one column raises `IndexError` when it is loaded.
* C67: categorical splits of histogram gradient boosting are read as numerical ones.
* C68: XGBoost dumps are read with `<=` where XGBoost tests `<`; gaps in the numbering become leaves of value 0 with uninitialised weights.
* C69: the discrete SDP of a regressor is 0 where the model predicts 0; a base offset is ignored in the second moment.
* C70: `compute_sdp_reg` adds all second trees into the same cells and reads `norm[b]` before it is set, so a row given twice gets two values, one negative; not clamped.
* C71: `global_sdp_reg` tests only the first `len(va_id)` columns for membership in a leaf when groups are given.
* C72: `compute_exp_normalized` is NaN when a leaf that fits the observation has no background row; two leaves share an observation on a threshold.
* C73: `n = n + ... if den != 0 else 0` sets the normaliser back to 0 at a leaf without background row; the values are not those of `compute_exp_normalized`.
* C74: the cached version tests `lo <= x < hi`, the uncached one `lo < x <= hi`.
* C75: without a background row equal to the observation the discrete values do not sum to prediction minus mean.
* C76: a sample whose decision never changes is still reported with the set of all columns and probability 1.
* C77: `sufficient_cxpl_rf` fixes the columns of the set instead of the other ones, and returns the probabilities of samples 1, 2, ... (each list behind a -1) instead of those of samples 0, 1, ...
* C78: with tied outputs of unequal weight, percentile q of the difference is not `y(x)` minus percentile 100−q of the output; `compute_quantile_diff_rf` has no fallback to the minimum size and fails on empty cells.
* C79: the probability of a biased rule is always 0, so the maximal biased rules are never extended; the minimum size is ensured per tree only; for an empty coalition the call raises.
* C80: the vector and the set walk visit nodes in different orders, so SDPs differ after an early stop. `ACVTree.compute_sdp_rf`, `compute_sdp_rule`, `compute_exp_rf`, `importance_sdp_rf` pass the default `t=20` to a Cython parameter typed `double[:, :]`, which raises a TypeError (not modelled).
* C81: below `min_node_size` the Python functions keep the last cell that was large enough, the Cython functions the first one that is too small.
* C82: the documentation of `local_sdp` says that `proba` is multiplied by `decay`; the code multiplies the threshold. The test for the last size compares a number of players with a number of columns, so with groups the function can return `None` or the same cluster twice. `py_compute_local_sdp_clf` passes arguments the function does not take and `py_compute_local_sdp_reg` passes a list where Cython asks for a memory view: both raise `TypeError`.
* C83: the values of the clusters are recomputed on `data`, not on `data_bground`, with the threshold before decay; a cluster found by the search can fail the level.
* C84: `py_swing_values_clf` passes `tX`, which `swing_tree_shap_clf` does not take (`TypeError`).
* C85: `py_shap_values_acv` tests the observation against `[lo, hi]` and the background against `(lo, hi]`; an observation on a split is in two leaves and the values differ from `shap_values_acv`.
* C86: fixing more columns can lower the marginal SDP (`C86_not_monotone`), so the minimal sets found are minimal in size but supersets of a sufficient set need not be sufficient.
* C87: `importance_sdp_clf_ptrees` does not clip the SDP, so it can report a probability above 1 (`C87_range_false`); its default `minimal=0` lets it report the empty set.
* C88: `leaves_proba` with no feature returns 1 instead of the number of rows (`C88_leaves_proba_empty`); a row on a split is counted in the leaves of both sides.
* C89: each visited leaf is conditioned on its own box, so the result is no share when the boxes differ (`C89_boxes_false`); without columns `cond_sdp_forest` divides counts by 1 (`C89_empty_false`); equal means of the two sides give NaN. For a regression forest each tree marks the rows to which this tree gives a distant value, so the result is the share for the forest only if the trees mark the same rows (`C89_reg_forest_partial`, `C89_forest_false`).
* C90: the searches without parallelism enumerate from size 0 with the cut at 2**15 sets and then read sizes up to the number of players; with 17 columns or more they read `power_cpp` out of bounds (bounds checks are disabled) unless all samples are resolved before.
* C91: `CR(model=...)` sets `self.model = None`, so `accuracy_local_original` and `accuracy_regional_original` are always NaN; `accuracy_local` of a classifier counts any change of class; `run_sampling_regional_counterfactuals_alltests` takes `[0]` of a rule and raises IndexError.
* C92: the documented scalar `t` of the `ACXplainer` methods raises for every regressor (`C92_scalar_raises`); the docstring of `compute_ddp_weights` announces rules, the method returns weights.
* C93: `return_counterfactuals` of utils.py passes rules, probabilities and weights separately through `np.unique`; with several rules the probabilities are reported for the wrong rules, and `RunExperiments` samples from a rule that need not be the most probable. `RunExperiments` ignores its argument `model`.
* C94: every call of `ACVTree.compute_sdp_rf`, `compute_exp_rf`, `compute_cdf_rf`, `importance_sdp_rf` and `sufficient_expl_rf` with the documented (and default) number `t` raises, because the Cython functions take arrays; `ACXplainer.compute_cdf_rf` raises for every classifier and for every regressor without a vector `t` ("not used here" in the docstring); `ACVTree.importance_sdp_rf` reads `self.ACXplainer` for a model without importances and raises.
* C95: `extend_rec_r` keeps only the corner pieces of what remains of the second rectangle; with three columns or more the edge pieces, or the whole remainder, are lost.
* C96: with `set == []` `condMVN` and `marMVN` return all columns instead of `set_bar`, so `sampleMVN` raises unless all columns are asked for; `sampleMarMVN` always raises.
* C97: `importance_sdp_clf_nopa`, `compute_sdp_clf_nopa`, `compute_sdp_clf_cat_nopa`, `swing_sv_clf`, `swing_sv_clf_nopa` and `swing_sv_clf_slow` pass `self.values` for binary boosted classifiers, which has one column: class 0 is scored by the raw output of the leaf, class 1 by the raw output of the next node in memory (`C97_neighbour`). All methods do so for a binary `HistGradientBoostingClassifier`.
* C98: the explanation page and `print_rule` show closed intervals `lo <= x <= hi`, but an observation on a lower bound goes to the other side of the split and has another probability (`C98_page_false`). For a regression the output shown for a counterfactual is the unweighted mean output of its rows, which may be outside the wanted interval (`C98_output_false`). The `print_rule` of utils.py:1531-1544 says `different from` where that of utils_cr.py says `is`.
* C99: the page of Shapley values passes the mean prediction of the test set as base value although the values are relative to the training set, so the line `f(x)` is not the prediction (`C99_page_false`); it offers all observations but computes the values of the first 100 only.
* C100: the column of a split is read from the name without its first character, so columns `x1`, `x2` are shifted (`C100_names_false`); a name with a space repeats the previous split (`C100_space_repeats`); a dump without its last line end loses a digit (`C100_stripped_false`); values equal to a split condition go to the wrong child (`C100_threshold_false`).
* C101: a stage reads the results of the stage before from the object and cannot tell for which observations they were computed (`C101_own_false`, `C101_other_observations`, `C101_other_regions`); the isolation forest of the regional sampling is fitted by the local sampling only (`C101_regional_false`); `dist_local` skips observations without rule (`C101_position_false`).
* C102: `predict` does not compare the number of columns of the data with the features of the trees: a narrow matrix is read across its rows, and after its end. `pos * num_outputs` in `tree_predict` is a 32-bit unsigned product: with 2^32 values or more, a leaf reads the values of another one. `single_tree_predict` accepts any number of tree. With a wrong number of offsets the wrappers return `NULL` without an exception (and keep their references).
* C103: in double precision the prediction depends on the order of the trees, and a model that always predicts 0 can get a Shapley value that is not 0 (cancellation of large leaf values).
* C104: in double precision a computed SDP can exceed 1 (nine rows, all with the decision: 1 + 2^-52), and an SDP of 1 can be computed as less than 1 (six rows: 1 - 2^-53), so that `pi = 1` is missed although every row has the decision (`C104_level_false`).
* C105: the groups found by `compute_fcluster_bydistance` are refused by `py_compute_local_sdp` and `py_shap_values` as soon as a column is alone in its cluster (`chain_l` raises ValueError); the compiled versions accept them.
* C106: `predict` reads the observations in single precision for most models and every explanation method reads them in double precision, so an observation within a rounding error of a threshold is explained with a leaf that `predict` does not use (`C106_false`).
* C107: CatBoostRegressor and CatBoost are accepted without trees; the exceptions of the LightGBM, GPBoost and CatBoostClassifier loaders are dropped and the object has no trees (`C107_silent`); the NGBoost branch always raises (`C107_ngboost`); the branch for imblearn's forest is not reached (`C107_balanced`); a multi-class LightGBM Booster has one output (`C107_booster`).
* C108: `ModelW` reads a vector as one column (`C108_false`).
* C109: the exponent of the acceptance has the wrong sign: every candidate is accepted, and `temp` has no effect (`C109_no_effect`).
* C110: the docstring of `return_c_values` says that the cardinality is the number of values; it is for even numbers up to 1352 only (`C110_cardinality_false`).
* C111: `global_sdp_reg` reads `norm[b]` left by the previous observation and the previous set: equal observations get different sufficient explanations (`C111_false`).
* C112: `run_regional_divergent_set` (counterfactual_rules.py:175) passes the complement of the set as `S` to `compute_cdp_intv_weights`, in which the columns of `S` are the free ones: the weights of a region are those of the wrong side. For a classifier `global_cdp_intv` counts the outputs that differ from the target (cyext_acv.pyx:7511), so the regional set is one that leads away from the wanted output, while the rules are then judged by the probability of reaching it.
* C113: `return_xy_cnt` (utils_cr.py:20-22) takes the first ten training rows with the wanted output when none falls in the leaf, so counterfactual rules depend on the order of the training set (`C113_cf_false`: probability 0 or 1/2 for the same data).
* C114: on thresholds `compute_exp` (closed intervals) and the Shapley values (open on the left) describe different games.
* C115: rules lose a bound beyond 1e10 (`single_compute_sdp_rule`, initial bounds ±1e10).
* C116: with a tree limit the order of the trees matters (`C116_limit_false`).
* C117: with at most ten columns, the order of the search is the numbering of the columns, and a set replaces an earlier one of the same probability, so the reported set depends on the numbering (`C117_search_small_false`).
* C118: the categorical estimators condition on equality, so an unused column in the set selects rows (`C118_cat_false`); with the default `minimal = 1` a search may report an unused column although the empty set already reaches the level (`C118_search_false`).
* C120: `compute_exp` and the Shapley values depend on the order of the tests in the trees, not only on the predictions (`C120_false`).
* C121: a row on a threshold counts on both sides of it in `compute_exp`, so two observations that no tree can tell apart get different values (`C121_false`).
* C122: the natural claim that the minimal explanation at a higher level contains the one at a lower level is false; it can be replaced by a disjoint one (`C122_false`).
* C123: raising `minimal` does not only remove sets from the answer of `sufficient_expl_rf`: supersets of sets that are no longer explored appear (`C123_false`).
* C124: the regression SDP of tree ensembles can fall from 3/4 to 0 when the tolerance is raised so far that no row is distant: the mean over no rows is taken as 0 and the quotient by 0 as 0 (`C124_reg_false`, `C124_reg_drops`).
* C125: fixing one more column can bring background rows back into the cell and loosen the rule, because splits behind the other branch are no longer visited (`C125_false`, `C125_rules`).
* C126: `compute_exp` can return 3/2 for a model that predicts 1 for every row, and the Shapley values of that model are not 0 (`C126_false`): the shares of the leaves do not add up to 1.
* C127: for a classifier, `compute_exp` can give class expectations that add up to 3/2, and the values of a column in `shap_values` and `shap_values_normalized` for two classes are not opposite (`C127_false`, `C127_normalized_false`).
* C128: `find_union` (utils.py:952-963) deletes a neighbour that does not fit and never tries it again, so the rule it returns (for `compute_sdp_maxrules(algo2=True)`) depends on the order of the neighbours and a second call can enlarge it (`C128_grow_false`).
* C130: `compute_quantile_rf` can fall when an output of the data is raised. The cumulated weights are taken at the middle of each weight, so a light sample that overtakes a heavy one moves the heavy one to the left. `compute_exp` can be smaller for a model that predicts at least as much everywhere.
* C131: `global_sdp_reg_cpp_pa_coal` does not set the value of the full set to 1 as the other searches do, and the leaf estimator gives 0 for it when a leaf of some tree has both near and far rows; such an observation is returned without explanation.
* C132: with 17 columns or more, `importance_sdp_reg`, `importance_sdp_reg_cat` and `importance_msdp_clf_search` read past the end of their enumeration as soon as one sample has no sufficient set among the first sizes (at most 8); with `stop=False` they do so for every data set from 16 players on (`C132_hard_sample`, `C132_no_stop`).
* C133: the order of the groups in `C` matters for the searches: with ties the last set wins (`C133_search_false`), and with `stop=True` the search ends when the last set of a size has half of the columns, so that a sample may reach the level with one order of the groups and not with another (`C133_stop_false`).
* C134: the guarantees are for rows of the background only; for a new observation all weights and the SDP can be 0 (`C134_new_observation`).
* C135: the walk does not end when a cell becomes too small, it goes on with the first node of each level; with a numbering in which a child comes before its parent a larger `min_node_size` can drop rows that a smaller one keeps (`C135_numbering_false`). In the Python versions a refused test makes room for a later one, with the same effect (`C135_python_false`).
* C136: the walk does not stop at leaves but reads the cell before the tree; whether it gets there depends on the deepest tree of the forest, so adding a deeper tree can change what a shallow first tree contributes (`C136_false`).
* C137: `compute_sdp_clf` and `single_msdp` compare `S.size` with the number of columns; a list with repetitions such as [1, 1, 1] on three columns is reported with probability 1 although the probability of column 1 is 1/2.
* C138: at an observation on a threshold `compute_exp` can rise with every column added while `shap_values` gives that column a negative value (45/2 to 45 and 55/3 to 50, value -55/12).
* C139: no disagreement. Unused companions of a used column inherit its value, which is 0 without the group; this follows from C09.
* C140: an unused column is not a null player of the swing values, because the empty coalition and the full one are decided without looking at the threshold. With a background in which half of the rows have the label of the observation and the threshold 1/2, an unused column among three gets 1/3 (`C140_dummy_false`).
* C90: `ACVTree.compute_exp_normalized_nopa` calls `cyext_acv.compute_exp_normalized_nopa`, which does not exist (acv_tree.py:641-642), and always raises.
* Read in the code, outside the model: the NGBoost branch uses `param_idx` before it is set and always raises; the isolation branch sets `dtype` where `input_dtype` is read; a multi-class `HistGradientBoostingClassifier` always raises.

Noted while reading, without a theorem: `CR(model=...)` ignores its argument (counterfactual_rules.py:7); `alltests` of the counterfactual
module indexes once too often and raises; an integer observation truncates sampled values (`np.repeat` keeps the dtype);
`compute_cdp_cond_weights` documents `P(Y != y | ...)` and computes `==`, and does not read `pi_level`; the CatBoost loader ignores
`scale_and_bias`, and only `CatBoostClassifier` has a loader; leaf rectangles are compared with double values of `x` also when the model
casts to float32.

## Not modelled

* The loaders not listed above.
* The `*_nopa` copies other than those of `Sequential` and `SequentialAcc` (`compute_sdp_reg_nopa`, `compute_sdp_reg_cat_nopa`, `shap_values_acv_leaves_adap_nopa`, the cached versions and `swing_sv_clf_direct_nopa`) have the text of the functions with `prange` with `range` in its place, and are covered by the models of those.
* Floating point rounding, except where a module says so (`Rounded`, `RoundedSdp`, `CombDouble`, `InputCast`).
* Web app (`acv_app`) except the displayed rule (`Display`) and the plot of Shapley values (`Waterfall`), data loaders (`acv_data`), `experiments/`, plotting, pickling, the learners themselves.
