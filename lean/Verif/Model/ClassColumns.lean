import Verif.Model.Tree

/-!
# The class columns read by the methods for classifiers

Models which table of leaf values the methods of `ACVTree` for classifiers hand to the Cython routines
(/repo/acv_explainers/acv_tree.py:188-206, 246-264, 283-301, 320-338, 402-437, 528-543, 563-592), how many class columns it has
(/repo/acv_explainers/base_tree.py:144-193, 234-302, 335-353, 435-453, 464-484, 507-542, 551) and what reading `values[b, node, k]` in
those routines returns: they are compiled with `boundscheck(False)` and `wraparound(False)`, so the entry is looked up by its position in
the C-contiguous buffer.

Simplifications: the wrapped estimators are named by kind; `K` is the number of classes of the fitted model, at least 2; a multi-class
CatBoost model is not modelled (`none`), nor is NGBoost, whose branch always raises (base_tree.py:485-497).
-/

namespace Acv

/-- Classifiers with `predict_proba` that `BaseTree.__init__` recognises. -/
inductive ClfKind
  /-- `sklearn.tree.DecisionTreeClassifier`, base_tree.py:151-158 -/
  | tree
  /-- random forests, extra trees, skranger and balanced forests, base_tree.py:159-193, 477-484 -/
  | forest
  /-- `GradientBoostingClassifier`, base_tree.py:261-283 -/
  | gradientBoosting
  /-- `HistGradientBoostingClassifier`, base_tree.py:234-260 -/
  | histGradientBoosting
  /-- `xgboost.sklearn.XGBClassifier`, base_tree.py:335-353 -/
  | xgb
  /-- `lightgbm.sklearn.LGBMClassifier`, base_tree.py:435-453 -/
  | lgbm
  /-- `catboost.core.CatBoostClassifier`, base_tree.py:460-474 -/
  | catboost
  deriving DecidableEq

/-- `self.num_outputs` after loading a model with `K` classes, base_tree.py:514-525; `none` when the constructor raises: more than two
classes in gradient boosting (267-268), a baseline with a length in histogram boosting (237-239, `model_output` being `None`). -/
def ClfKind.outputs (baselineHasLen : Bool) (K : Nat) : ClfKind → Option Nat
  | .tree => some K
  | .forest => some K
  | .gradientBoosting => if K = 2 then some 1 else none
  | .histGradientBoosting => if baselineHasLen then none else some (if K = 2 then 1 else K)
  | .xgb => some (if 2 < K then K else 1)
  | .lgbm => some (if 2 < K then K else 1)
  | .catboost => if K = 2 then some 1 else none

/-- The list of classes in the tests of base_tree.py:527-531 and acv_tree.py:192-198, 250-256, 287-293, 324-330, 531-535. -/
def ClfKind.listed : ClfKind → Bool
  | .gradientBoosting => true
  | .xgb => true
  | .lgbm => true
  | .catboost => true
  | _ => false

/-- The methods of `ACVTree` that read a class column. -/
inductive ClfMethod
  /-- `importance_sdp_clf_greedy`, acv_tree.py:151-206 -/
  | greedy
  /-- `importance_sdp_clf_search`, acv_tree.py:208-264 -/
  | search
  /-- `compute_sdp_clf`, acv_tree.py:266-301 -/
  | sdp
  /-- `compute_sdp_clf_cat`, acv_tree.py:303-338 -/
  | sdpCat
  /-- `importance_sdp_clf_ptrees`, acv_tree.py:528-543 -/
  | ptrees
  /-- `importance_sdp_clf_nopa`, acv_tree.py:402-412 -/
  | importanceNopa
  /-- `compute_sdp_clf_nopa`, acv_tree.py:414-425 -/
  | sdpNopa
  /-- `compute_sdp_clf_cat_nopa`, acv_tree.py:427-437 -/
  | sdpCatNopa
  /-- `swing_sv_clf`, acv_tree.py:563-569 -/
  | swing
  /-- `swing_sv_clf_nopa`, acv_tree.py:571-577 -/
  | swingNopa
  /-- `swing_sv_clf_slow`, acv_tree.py:585-592 -/
  | swingSlow
  deriving DecidableEq

/-- The methods that test for a boosted classifier with one output before choosing the table, acv_tree.py:192-202, 250-260, 287-297,
324-334, 531-539; the others always pass `self.values` (410, 423, 435, 566, 574, 588). -/
def ClfMethod.tests : ClfMethod → Bool
  | .greedy => true
  | .search => true
  | .sdp => true
  | .sdpCat => true
  | .ptrees => true
  | _ => false

/-- Whether the method passes `self.values_binary`. -/
def ClfMethod.usesBinary (k : ClfKind) (outputs : Nat) (f : ClfMethod) : Bool := f.tests && k.listed && outputs == 1

/-- The number of columns of the table passed: `values_binary` has two (base_tree.py:532), `values` has `num_outputs` (551). -/
def ClfMethod.columns (k : ClfKind) (outputs : Nat) (f : ClfMethod) : Nat := if f.usesBinary k outputs then 2 else outputs

/-- The C-contiguous buffer of an array of shape `(T, N, D)`. -/
def flat3 {α : Type} (T N D : Nat) (v : Nat → Nat → Nat → α) : List α :=
  (List.range (T * (N * D))).map fun p => v (p / (N * D)) (p / D % N) (p % D)

/-- `values[b, node, k]` without bounds checks: `none` outside the buffer. Example of such a read: cyext_acv.pyx:420. -/
def read3 {α : Type} (N D : Nat) (buf : List α) (b node k : Nat) : Option α := buf[b * (N * D) + node * D + k]?

/-- What a method reads as the value of class `k` in a node: `T` trees, `N` nodes per tree, `raw b node c` the entries of `self.values`,
`bin b node c` those of `self.values_binary`. -/
def ClfMethod.read {α : Type} (kind : ClfKind) (outputs T N : Nat) (raw bin : Nat → Nat → Nat → α) (f : ClfMethod) (b node k : Nat) :
    Option α :=
  let D := f.columns kind outputs
  read3 N D (flat3 T N D (if f.usesBinary kind outputs then bin else raw)) b node k

end Acv
