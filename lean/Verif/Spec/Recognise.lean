import Verif.Model.Recognise

/-!
# Recognised models
-/

namespace Acv

/-- `path` is a module and a name after the last dot, the module is imported, and the name is bound in it to a class of which `o` is an instance. -/
def Names (py : Imported) (o : PyObj) (path : String) : Prop :=
  ∃ m c cl, path.toList = m ++ '.' :: c ∧ '.' ∉ c ∧ py m c = some cl ∧ cl ∈ o.classes

/-- `o` meets a condition of the chain. -/
def PassesTest (py : Imported) (o : PyObj) : BranchTest → Prop
  | .isDict => o.dict = true
  | .isTreeList => o.treeList = true
  | .instOf ps => ∃ p ∈ ps, Names py o p
  | .typeHas s => ∃ a b, o.typeText.toList = a ++ s.toList ++ b

/-- `b` is the branch of the first condition in `table` that `o` meets. -/
def FirstMet (py : Imported) (o : PyObj) (table : List (BranchTest × Branch)) (b : Branch) : Prop :=
  ∃ pre t post, table = pre ++ (t, b) :: post ∧ PassesTest py o t ∧ ∀ q ∈ pre, ¬ PassesTest py o q.1

/-- The branches that return an object without trees, always or when the trees cannot be read. -/
def Branch.Silent (b : Branch) : Prop := b ∈ [Branch.catReg, .cat, .lgbBooster, .gpBooster, .lgbReg, .lgbRank, .lgbClf, .catClf]

/-- The classes that the explainer says it supports, by library, and the kind of model each one is. -/
def libraryClasses : List (String × Branch) :=
  [("sklearn.ensemble.RandomForestRegressor", .forestReg), ("sklearn.ensemble.forest.RandomForestRegressor", .forestReg),
   ("sklearn.ensemble.RandomForestClassifier", .forestClf), ("sklearn.ensemble.forest.RandomForestClassifier", .forestClf),
   ("sklearn.ensemble.ExtraTreesRegressor", .extraReg), ("sklearn.ensemble.forest.ExtraTreesRegressor", .extraReg),
   ("sklearn.ensemble.ExtraTreesClassifier", .extraClf), ("sklearn.ensemble.forest.ExtraTreesClassifier", .extraClf),
   ("sklearn.tree.DecisionTreeRegressor", .treeReg), ("sklearn.tree.tree.DecisionTreeRegressor", .treeReg),
   ("sklearn.tree.DecisionTreeClassifier", .treeClf), ("sklearn.tree.tree.DecisionTreeClassifier", .treeClf),
   ("sklearn.ensemble.IsolationForest", .iso), ("sklearn.ensemble._iforest.IsolationForest", .iso),
   ("sklearn.ensemble.GradientBoostingRegressor", .gbReg), ("sklearn.ensemble.gradient_boosting.GradientBoostingRegressor", .gbReg),
   ("sklearn.ensemble.GradientBoostingClassifier", .gbClf), ("sklearn.ensemble._gb.GradientBoostingClassifier", .gbClf),
   ("sklearn.ensemble.gradient_boosting.GradientBoostingClassifier", .gbClf),
   ("sklearn.ensemble.HistGradientBoostingRegressor", .histReg), ("sklearn.ensemble.HistGradientBoostingClassifier", .histClf),
   ("econml.grf._base_grf.BaseGRF", .forestReg), ("econml.grf._base_grftree.GRFTree", .treeReg),
   ("pyod.models.iforest.IForest", .pyodIso),
   ("skopt.learning.forest.RandomForestRegressor", .skoptForest), ("skopt.learning.forest.ExtraTreesRegressor", .skoptExtra),
   ("skranger.ensemble.classifier.RangerForestClassifier", .ranger),
   ("xgboost.core.Booster", .xgbBooster), ("xgboost.sklearn.XGBClassifier", .xgbClf), ("xgboost.sklearn.XGBRegressor", .xgbReg),
   ("xgboost.sklearn.XGBRanker", .xgbRank),
   ("lightgbm.basic.Booster", .lgbBooster), ("lightgbm.sklearn.LGBMRegressor", .lgbReg), ("lightgbm.sklearn.LGBMRanker", .lgbRank),
   ("lightgbm.sklearn.LGBMClassifier", .lgbClf), ("gpboost.basic.Booster", .gpBooster),
   ("catboost.core.CatBoostRegressor", .catReg), ("catboost.core.CatBoostClassifier", .catClf), ("catboost.core.CatBoost", .cat),
   ("imblearn.ensemble._forest.BalancedRandomForestClassifier", .balanced),
   ("ngboost.ngboost.NGBoost", .ngboost), ("ngboost.api.NGBRegressor", .ngboost), ("ngboost.api.NGBClassifier", .ngboost)]

end Acv
