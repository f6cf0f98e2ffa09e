import Verif.Model.CombDouble
import Verif.Model.Tree
import Verif.Model.LeafShap

/-!
# The cast of the observations

`BaseTree.predict` converts the observations to `self.input_dtype` (/repo/acv_explainers/base_tree.py:742-743), which is single precision for the
forests, trees and gradient boosting of scikit-learn, skopt, skranger and imblearn, and for XGBClassifier and CatBoostClassifier (base_tree.py:92, 116,
127, 137, 147, 155, 164, 174, 185, 194, 270, 337, 462, 479, 501). The explanation methods of `ACVTree` use the observations in double precision
(`check_array(X, dtype=[np.double])`, /repo/acv_explainers/acv_tree.py:30 and the first line of the other methods).

Simplification: the exponent is unbounded (no overflow to infinity, no subnormal numbers).
-/

namespace Acv

/-- Rounding a nonnegative number to single precision (IEEE 754 binary32: 24 significant bits, to nearest, ties to even). -/
def toSingle (q : ℚ) : ℚ := if q ≤ 0 then 0 else roundEven (q / 2 ^ (Int.log 2 q - 23)) * 2 ^ (Int.log 2 q - 23)

/-- Rounding to single precision of a number of either sign. -/
def roundSingle (q : ℚ) : ℚ := if q < 0 then - toSingle (-q) else toSingle q

/-- `X.astype(np.float32)`, base_tree.py:742-743, for one row. -/
def castRow (x : Row) : Row := fun f => roundSingle (x f)

/-- `BaseTree.predict` of a model with `input_dtype = np.float32`, base_tree.py:710-775 (one row without missing value, output `k`). -/
def predictCast (ts : List TreeArr) (dfltLimit arg : Option Int) (base : Nat → ℚ) (x : Row) (k : Nat) : Option ℚ :=
  ensemblePredict ts dfltLimit arg base (fun f => some (castRow x f)) k

end Acv
