import Verif.Model.Tree
import Verif.Model.Ensemble

/-!
# Which models the explainers accept

Models `safe_isinstance` (/repo/acv_explainers/utils.py:754-808), the choice of the loader in `BaseTree.__init__`
(/repo/acv_explainers/base_tree.py:70-510) and in `BaseAgnosTree.__init__` (/repo/acv_explainers/base_agnostree.py:45-67), and what becomes of an
exception raised by a loader. The loaders are modelled elsewhere; here the result of a loader is an arbitrary value.
-/

namespace Acv

/-- The classes of which an object is an instance, and the text of its type (`str(type(model))`). `dict` and `treeList` answer the tests of
base_tree.py:70 (`type(model) is dict and "trees" in model`) and base_tree.py:85 (`type(model) is list and type(model[0]) == SingleTree`;
simplification: an empty list, for which `model[0]` raises, is not modelled). -/
structure PyObj where
  classes : List Nat
  typeText : String
  dict : Bool
  treeList : Bool

/-- What `sys.modules` holds: the class bound to a name in an imported module, `none` if the module is not imported or has no such attribute
(utils.py:791-799; simplification: the attribute is a class). -/
abbrev Imported := List Char → List Char → Option Nat

/-- An exception. -/
inductive PyExc | valueError | unsupported | assertion | unbound | attribute | loader
  deriving DecidableEq, Repr

/-- `path.rsplit(".", 1)`, utils.py:786: the part before the last dot and the part after it, `none` without a dot. -/
def rsplitDot : List Char → Option (List Char × List Char)
  | [] => none
  | c :: cs =>
    match rsplitDot cs with
    | some (a, b) => some (c :: a, b)
    | none => if c = '.' then some ([], cs) else none

/-- `safe_isinstance(obj, [path, ...])`, utils.py:779-808. -/
def safeIsInstance (py : Imported) (o : PyObj) : List String → Except PyExc Bool
  | [] => .ok false
  | p :: ps =>
    match rsplitDot p.toList with
    | none => .error .valueError
    | some (m, c) =>
      match py m c with
      | none => safeIsInstance py o ps
      | some cl => if cl ∈ o.classes then .ok true else safeIsInstance py o ps

/-- The second argument of `safe_isinstance`, utils.py:773-778: one path, a list or tuple of paths, or anything else. -/
inductive PathArg | one (p : String) | many (ps : List String) | other

/-- `safe_isinstance(obj, class_path_str)`, utils.py:754-808. -/
def safeIsInstanceArg (py : Imported) (o : PyObj) : PathArg → Except PyExc Bool
  | .one p => safeIsInstance py o [p]
  | .many ps => safeIsInstance py o ps
  | .other => safeIsInstance py o [""]

/-- The branches of `BaseTree.__init__`. -/
inductive Branch
  | dict | treeList | forestReg | iso | pyodIso | skoptForest | extraReg | skoptExtra | treeReg | treeClf | forestClf | ranger | extraClf | gbReg
  | histReg | histClf | gbClf | spark | xgbBooster | xgbClf | xgbReg | xgbRank | lgbBooster | gpBooster | lgbReg | lgbRank | lgbClf | catReg | catClf
  | cat | balanced | ngboost
  deriving DecidableEq, Repr

/-- A condition of the `if`/`elif` chain. -/
inductive BranchTest | isDict | isTreeList | instOf (paths : List String) | typeHas (s : String)

/-- Does the text of the type contain `s` (`"pyspark.ml" in str(type(model))`, base_tree.py:292)? -/
def hasText (s : List Char) : List Char → Bool
  | [] => s.isEmpty
  | c :: cs => s.isPrefixOf (c :: cs) || hasText s cs

/-- The chain of base_tree.py:70-508, in order. -/
def branchTable : List (BranchTest × Branch) :=
  [(.isDict, .dict), (.isTreeList, .treeList),
   (.instOf ["sklearn.ensemble.RandomForestRegressor", "sklearn.ensemble.forest.RandomForestRegressor", "econml.grf._base_grf.BaseGRF"], .forestReg),
   (.instOf ["sklearn.ensemble.IsolationForest", "sklearn.ensemble._iforest.IsolationForest"], .iso),
   (.instOf ["pyod.models.iforest.IForest"], .pyodIso),
   (.instOf ["skopt.learning.forest.RandomForestRegressor"], .skoptForest),
   (.instOf ["sklearn.ensemble.ExtraTreesRegressor", "sklearn.ensemble.forest.ExtraTreesRegressor"], .extraReg),
   (.instOf ["skopt.learning.forest.ExtraTreesRegressor"], .skoptExtra),
   (.instOf ["sklearn.tree.DecisionTreeRegressor", "sklearn.tree.tree.DecisionTreeRegressor", "econml.grf._base_grftree.GRFTree"], .treeReg),
   (.instOf ["sklearn.tree.DecisionTreeClassifier", "sklearn.tree.tree.DecisionTreeClassifier"], .treeClf),
   (.instOf ["sklearn.ensemble.RandomForestClassifier", "sklearn.ensemble.forest.RandomForestClassifier"], .forestClf),
   (.instOf ["skranger.ensemble.classifier.RangerForestClassifier"], .ranger),
   (.instOf ["sklearn.ensemble.ExtraTreesClassifier", "sklearn.ensemble.forest.ExtraTreesClassifier"], .extraClf),
   (.instOf ["sklearn.ensemble.GradientBoostingRegressor", "sklearn.ensemble.gradient_boosting.GradientBoostingRegressor"], .gbReg),
   (.instOf ["sklearn.ensemble.HistGradientBoostingRegressor"], .histReg),
   (.instOf ["sklearn.ensemble.HistGradientBoostingClassifier"], .histClf),
   (.instOf ["sklearn.ensemble.GradientBoostingClassifier", "sklearn.ensemble._gb.GradientBoostingClassifier",
      "sklearn.ensemble.gradient_boosting.GradientBoostingClassifier"], .gbClf),
   (.typeHas "pyspark.ml", .spark),
   (.instOf ["xgboost.core.Booster"], .xgbBooster),
   (.instOf ["xgboost.sklearn.XGBClassifier"], .xgbClf),
   (.instOf ["xgboost.sklearn.XGBRegressor"], .xgbReg),
   (.instOf ["xgboost.sklearn.XGBRanker"], .xgbRank),
   (.instOf ["lightgbm.basic.Booster"], .lgbBooster),
   (.instOf ["gpboost.basic.Booster"], .gpBooster),
   (.instOf ["lightgbm.sklearn.LGBMRegressor"], .lgbReg),
   (.instOf ["lightgbm.sklearn.LGBMRanker"], .lgbRank),
   (.instOf ["lightgbm.sklearn.LGBMClassifier"], .lgbClf),
   (.instOf ["catboost.core.CatBoostRegressor"], .catReg),
   (.instOf ["catboost.core.CatBoostClassifier"], .catClf),
   (.instOf ["catboost.core.CatBoost"], .cat),
   (.instOf ["imblearn.ensemble._forest.BalancedRandomForestClassifier"], .balanced),
   (.instOf ["ngboost.ngboost.NGBoost", "ngboost.api.NGBRegressor", "ngboost.api.NGBClassifier"], .ngboost)]

/-- One condition of the chain. -/
def BranchTest.eval (py : Imported) (o : PyObj) : BranchTest → Except PyExc Bool
  | .isDict => .ok o.dict
  | .isTreeList => .ok o.treeList
  | .instOf ps => safeIsInstance py o ps
  | .typeHas s => .ok (hasText s.toList o.typeText.toList)

/-- The `if`/`elif` chain, with the `else: raise Exception("Model type not yet supported ...")` of base_tree.py:509-510. -/
def chooseBranch (py : Imported) (o : PyObj) : List (BranchTest × Branch) → Except PyExc Branch
  | [] => .error .unsupported
  | (t, b) :: rest =>
    match t.eval py o with
    | .error e => .error e
    | .ok true => .ok b
    | .ok false => chooseBranch py o rest

/-- The trees after a branch, given the result of its loading code. Branches without trees: CatBoostRegressor and CatBoost (base_tree.py:452-457,
472-477). Branches with a bare `except`, which sets `self.trees = None`: base_tree.py:385-388, 399-402, 413-416, 428-431, 442-445, 463-467. NGBoost
(base_tree.py:486-508): `assert model.base_models`, then `self.model_output` is `None`, so `param_idx` is not assigned and is read. -/
def branchTrees (baseModels : Bool) (load : Except PyExc (List TreeArr)) : Branch → Except PyExc (Option (List TreeArr))
  | .catReg | .cat => .ok none
  | .lgbBooster | .gpBooster | .lgbReg | .lgbRank | .lgbClf | .catClf =>
    match load with
    | .ok ts => .ok (some ts)
    | .error _ => .ok none
  | .ngboost => if baseModels then .error .unbound else .error .assertion
  | _ =>
    match load with
    | .ok ts => .ok (some ts)
    | .error e => .error e

/-- `BaseTree.__init__`, base_tree.py:70-510: the trees of the new object. -/
def newTrees (py : Imported) (o : PyObj) (baseModels : Bool) (load : Except PyExc (List TreeArr)) : Except PyExc (Option (List TreeArr)) :=
  match chooseBranch py o branchTable with
  | .error e => .error e
  | .ok b => branchTrees baseModels load b

/-- A method that reads `self.values` (predict, base_tree.py:748; every explanation method of acv_tree.py, e.g. 32-35): the attribute is set only
if there are trees (base_tree.py:512). `f` is the rest of the method. -/
def withTrees {α : Type} (trees : Option (List TreeArr)) (f : List TreeArr → α) : Except PyExc α :=
  match trees with
  | none => .error .attribute
  | some ts => if ts.isEmpty then .error .attribute else .ok (f ts)

/-- `self.num_stacked_models` after a branch (base_tree.py:34, 243, 332-333, 346-347, 364-365, 377-378, 438-439), from the number of classes that the
model reports (for HistGradientBoostingClassifier, the length of the first entry of `_predictors`; for XGBoost, `num_class`). -/
def stackedModels (classes : Nat) : Branch → Nat
  | .histClf => classes
  | .xgbBooster | .xgbClf | .xgbReg | .xgbRank => if 0 < classes then classes else 1
  | .lgbClf => if 2 < classes then classes else 1
  | _ => 1

/-- `BaseAgnosTree.__init__`, base_agnostree.py:45-67: `some true` for the classifier branch. -/
def agnosBranch (py : Imported) (o : PyObj) : Except PyExc Bool :=
  match safeIsInstance py o ["skranger.ensemble.classifier.RangerForestClassifier"] with
  | .error e => .error e
  | .ok true => .ok true
  | .ok false =>
    match safeIsInstance py o ["skranger.ensemble.regressor.RangerForestRegressor"] with
    | .error e => .error e
    | .ok true => .ok false
    | .ok false => .error .unsupported

end Acv
