import Mathlib.Data.Rat.Defs

/-!
# The model wrapper

Models `ModelW` (/repo/acv_explainers/utils.py:830-852).
-/

namespace Acv

/-- An array given to the wrapper: one or two dimensions (`len(x.shape)`). -/
inductive WArr | flat (v : List ℚ) | rows (m : List (List ℚ))

/-- `self.prediction`: 'predict_proba', 'predict_proba_one', or anything else. -/
inductive WMode | proba | probaOne | predict

/-- What the wrapper returns: rows of probabilities, or one number per row. -/
inductive WOut | table (m : List (List ℚ)) | column (v : List ℚ)
  deriving DecidableEq

/-- `x.reshape(-1, 1)` for one dimension and `x` otherwise, utils.py:837-851. -/
def WArr.toRows : WArr → List (List ℚ)
  | .flat v => v.map fun a => [a]
  | .rows m => m

/-- `a[:, 1]`, utils.py:842-843; `none` if a row has fewer than two entries (IndexError). -/
def secondColumn (m : List (List ℚ)) : Option (List ℚ) := m.mapM fun r => r[1]?

/-- `ModelW.__call__`, utils.py:835-849 (and `predict`, 851-852). `proba` and `pred` are the methods of the wrapped model on a matrix, `none` if they
raise. -/
def wrapCall (proba : List (List ℚ) → Option (List (List ℚ))) (pred : List (List ℚ) → Option (List ℚ)) (mode : WMode) (x : WArr) : Option WOut :=
  match mode with
  | .proba => (proba x.toRows).map .table
  | .probaOne => ((proba x.toRows).bind secondColumn).map .column
  | .predict => (pred x.toRows).map .column

end Acv
