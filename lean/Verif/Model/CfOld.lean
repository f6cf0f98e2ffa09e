import Verif.Model.Counterfactual

/-!
# First versions of the counterfactual rules

/repo/acv_explainers/utils.py keeps first versions of the functions of utils_cr.py (`return_xy_cnt`, `return_leaf_cnt`, `get_compatible_leaf`,
`return_counterfactuals`, `return_global_counterfactuals`, the `ge` and the `reg` versions, lines 1336-1528 and 1866-2012) and the class
`RunExperiments` (1621-1863) that runs them for a classifier. They take the opposite class `1 - y` as target, join the neighbouring leaves
(`find_union`) instead of enlarging them at random, have no fallback when no leaf or no rule reaches its level, and pass the three results
separately through `np.unique`.

Simplifications: as in `Model/Counterfactual`. `np.round` and `np.unique` are those of `compatibleLeaves`.
-/

namespace Acv

/-- `return_xy_cnt`, utils.py:1336-1355: the training rows with the wanted output that fall in the projected leaf of `x`, or `x` itself;
`return_xy_cnt_reg`, 1866-1882, has no such fallback, and `compute_cdp_rule` raises on an empty array (1891). -/
def cntRowsOld (a : CfArgs) (w : Nat → ℚ) (x : Row) : Except String (List Row) :=
  let l := ((List.range a.N).filter fun i => decide (w i ≠ 0) && a.hit i).map a.data
  if l.isEmpty then (if a.classifier then .ok [x] else .error "ValueError") else .ok l

/-- The leaves of these rows, utils.py:1363-1366 and 1891-1895. For a regression the output of the row is not read. -/
def leafCandsOld (a : CfArgs) (rows : List Row) : List (ℚ × Box) :=
  rows.map fun z =>
    let r := if a.classifier then sdpRule a.mems (List.range a.m) z a.target a.data a.y a.minSize a.maxDepth a.N true (0, 0)
      else cdpRule a.mems (List.range a.m) z 0 a.down a.up a.data a.y a.minSize a.maxDepth a.N false
    (r.1, boxOf a.m r.2)

/-- `rules_unique`, utils.py:1367-1370 and 1897-1900: the distinct rules with `sdp >= pi`, or the first rule of largest `sdp`. -/
def pickLeavesOld (pi : ℚ) (cands : List (ℚ × Box)) : List Box :=
  let good := cands.filter fun p => decide (pi ≤ p.1)
  if good ≠ [] then npUnique (good.map Prod.snd)
  else [(cands.getD (argmaxQ (cands.map Prod.fst)) (0, [])).2]

/-- utils.py:1372-1375 and 1902-1905: `find_union` changes row `i` of `rules_unique` in place; the other leaves are copies. -/
def joinLeaves (m : Nat) (sStar : List Nat) (leaves : List Box) : List Box :=
  leaves.map fun b => boxOf m (findUnion sStar (ruleOf b) ((leaves.filter fun r => !allclose m (ruleOf r) (ruleOf b)).map ruleOf))

/-- `(x_train[:, s] <= leaf[s, 1]) * (x_train[:, s] > leaf[s, 0])`, utils.py:1411-1412 and 1939-1940. -/
def inHalfB (m : Nat) (rule : Rule) (z : Row) : Bool :=
  (List.range m).all fun s => decide (z s ≤ (rule s).2) && decide ((rule s).1 < z s)

/-- `acc`, utils.py:1413-1414 and 1942-1943: NaN if no training row is in the leaf. -/
def leafAccOld (a : CfArgs) (leaf : Box) : Option ℚ :=
  npMean (((List.range a.N).filter fun i => inHalfB a.m (ruleOf leaf) (a.data i)).map fun i => if a.hit i then 1 else 0)

/-- `get_compatible_leaf`, utils.py:1392-1423, and `get_compatible_leaf_reg`, 1921-1949: the first component (`suf_leaf`). -/
def getCompatibleOld (a : CfArgs) (sStar : List Nat) (w : Nat → ℚ) (x : Row) (pi accLevel : ℚ) : Except String (List Box) :=
  match cntRowsOld a w x with
  | .error e => .error e
  | .ok rows =>
    .ok ((compatibleLeaves a.m (joinLeaves a.m sStar (pickLeavesOld pi (leafCandsOld a rows)))).filter
      fun b => reaches accLevel (leafAccOld a b))

/-- The probability and weights of a condition, utils.py:1444-1445 (`compute_ddp_cond_weights` with the output `yx` of the observation) and
1972-1974 (`compute_cdp_cond_weights`). -/
def cfProbOld (a : CfArgs) (yx : ℚ) (sBar : List Nat) (x : Row) (cond : Rule) : ℚ × List ℚ :=
  let r := if a.classifier then ddpCond a.mems sBar x cond yx (0, 0) a.data a.y a.minSize a.maxDepth a.N true
    else cdpCond a.mems sBar x cond yx a.down a.up a.data a.y a.minSize a.maxDepth a.N false
  (r.1, (List.range a.N).map r.2)

/-- Lexicographic order of the rows of an array, for `np.unique(axis=0)`. -/
def rowLe : List ℚ → List ℚ → Bool
  | [], _ => true
  | _ :: _, [] => false
  | p :: a, q :: b => if p < q then true else if q < p then false else rowLe a b

/-- The three results of `return_counterfactuals`, utils.py:1426-1453, and `return_counterfactuals_reg`, 1952-1983: the conditions with
`sdp >= pi_level`, their probabilities and their weights, each list passed through `np.unique`. -/
structure CfOld where
  rules : List Box
  probs : List ℚ
  weights : List (List ℚ)

/-- utils.py:1446-1453. -/
def selectOld (prob : Box → ℚ × List ℚ) (pi : ℚ) (conds : List Box) : CfOld :=
  let ok := conds.filter fun c => decide (pi ≤ (prob c).1)
  ⟨npUnique ok, (ok.map fun c => (prob c).1).dedup.insertionSort (· ≤ ·),
    (ok.map fun c => (prob c).2).dedup.insertionSort fun u v => rowLe u v = true⟩

/-- `return_counterfactuals`, utils.py:1426-1453. -/
def returnCfOld (a : CfArgs) (yx : ℚ) (sStar sBar : List Nat) (x : Row) (pi : ℚ) (suf : List Box) : CfOld :=
  selectOld (fun b => cfProbOld a yx sBar x (ruleOf b)) pi (suf.map fun b => boxOf a.m (cfCond sStar sBar x b))

/-- `return_ge_counterfactuals`, utils.py:1485-1501: `S = [-6]`, i.e. no variable; the lists are returned as they are. -/
def returnGeOld (a : CfArgs) (yx : ℚ) (sStar : List Nat) (x : Row) (cond : Rule) (pi : ℚ) (suf : List Box) : List (Rule × ℚ × List ℚ) :=
  ((suf.map (geCond sStar cond)).filter fun c => decide (pi ≤ (cfProbOld a yx [] x c).1)).map fun c => (c, cfProbOld a yx [] x c)

/-- The target of the classifier versions is `1 - y_data[i]`, utils.py:1468, 1514. -/
def CfArgs.opposite (a : CfArgs) (yx : ℚ) : CfArgs := if a.classifier then { a with target := 1 - yx } else a

/-- The body of the loop of `return_global_counterfactuals`, utils.py:1467-1480, and of its `reg` version, 1997-2011. -/
def localCfOld (a : CfArgs) (yx : ℚ) (sStar sBar : List Nat) (x : Row) (w : Nat → ℚ) (accLevel pi : ℚ) : Except String CfOld :=
  (getCompatibleOld (a.opposite yx) sStar w x pi accLevel).map fun suf => returnCfOld (a.opposite yx) yx sStar sBar x pi suf

/-- The body of the loop of `return_ge_global_counterfactuals`, utils.py:1513-1526. -/
def regionalCfOld (a : CfArgs) (yx : ℚ) (sStar : List Nat) (x : Row) (cond : Rule) (w : Nat → ℚ) (accLevel pi : ℚ) :
    Except String (List (Rule × ℚ × List ℚ)) :=
  (getCompatibleOld (a.opposite yx) sStar w x pi accLevel).map fun suf => returnGeOld (a.opposite yx) yx sStar x cond pi suf

/-- The rule that `RunExperiments.run_sampling_local_counterfactuals` samples from, utils.py:1709-1712:
`counterfactuals[np.argmax(counterfactuals_sdp)][0]` if there is a counterfactual. -/
def chosenOld (c : CfOld) : Option Box := if c.rules = [] then none else c.rules[argmaxQ c.probs]?

/-- `RunExperiments.__init__`, utils.py:1623-1624: `self.model = None`, whatever the argument `model`. -/
def runModel {M : Type} (_model : Option M) : Option M := none

/-- `accuracy_local_original`, utils.py:1720-1723,1726: `np.mean` of the outcomes for the model, NaN (`none`) if there is none. -/
def originalAccuracy {M : Type} (model : Option M) (outcome : M → Row → Row → Bool) (obs : List (Row × Row)) : Option ℚ :=
  npMean (match runModel model with
    | none => []
    | some f => obs.map fun p => if outcome f p.1 p.2 then 1 else 0)

end Acv
