import Verif.Model.Tree

/-!
# Loading histogram gradient boosting

Models the `HistGradientBoostingRegressor` and `HistGradientBoostingClassifier` branches of `BaseTree.__init__`
(/repo/acv_explainers/base_tree.py:213-259) with the dictionary branch of `SingleTree` (879-886).

Simplifications: exact rationals; infinite thresholds (used by scikit-learn to split missing values from the others) are left out.
-/

namespace Acv

/-- A row of `p[0].nodes` of scikit-learn, with the fields of its categorical splits. -/
structure HistNode where
  value : ℚ
  count : ℚ
  feature : Nat
  threshold : ℚ
  missingLeft : Bool
  left : Nat
  right : Nat
  isLeaf : Bool
  isCategorical : Bool
  categories : List Nat
deriving DecidableEq, Repr

/-- The row outside the array; never read. -/
def HistNode.blank : HistNode := ⟨0, 0, 0, 0, false, 0, 0, true, false, []⟩

/-- The dictionary built for one predictor and `SingleTree(tree)`, base_tree.py:221-231, 248-258, 879-886: `is_categorical` is not read. -/
def histTree (nodes : List HistNode) : TreeArr where
  size := nodes.length
  left n := let v := nodes.getD n .blank; if v.isLeaf then -1 else v.left
  right n := let v := nodes.getD n .blank; if v.isLeaf then -1 else v.right
  dflt n := let v := nodes.getD n .blank; if v.isLeaf then -1 else if v.missingLeft then v.left else v.right
  feature n := let v := nodes.getD n .blank; if v.isLeaf then -2 else v.feature
  threshold n := (nodes.getD n .blank).threshold
  value n _ := (nodes.getD n .blank).value
  weight n := (nodes.getD n .blank).count

end Acv
