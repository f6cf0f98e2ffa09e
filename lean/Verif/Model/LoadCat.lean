import Verif.Model.Tree
import Mathlib.Algebra.BigOperators.Group.List.Basic

/-!
# Loading CatBoost trees

Models `CatBoostTreeModelLoader.get_trees` (/repo/acv_explainers/base_tree.py:1383-1451). One oblivious tree of the JSON model is given by its
`splits`, `leaf_values` and `leaf_weights`.

Simplifications: exact rationals; python lists are lists, and reading them beyond their end (which cannot happen when there are `2 ** depth`
leaves) gives the default of `List.getD`.
-/

namespace Acv

/-- An entry of `splits`: `split_type` with the fields the loader reads. -/
inductive CbSplit where
  | float (index : Nat) (border : ℚ)
  | oneHot (index : Nat) (value : ℚ)
  | ctr (targetBorderIdx : Nat) (border : ℚ)
deriving DecidableEq, Repr

/-- `split_feature_index`, base_tree.py:1416-1428. -/
def CbSplit.feature : CbSplit → Nat
  | .float i _ => i
  | .oneHot i _ => i
  | .ctr i _ => i

/-- The entry appended to `borders`, base_tree.py:1416-1428. -/
def CbSplit.threshold : CbSplit → ℚ
  | .float _ b => b
  | .oneHot _ v => v
  | .ctr _ b => b

/-- `for counter, a in enumerate(l): unraveled += [a] * (2 ** counter)`, base_tree.py:1430-1437, from `counter`. -/
def unravelFrom {α : Type} : Nat → List α → List α
  | _, [] => []
  | counter, a :: l => List.replicate (2 ^ counter) a ++ unravelFrom (counter + 1) l

/-- `split_features_index_unraveled`, `borders_unraveled`: reversed, repeated, then one entry for each leaf, base_tree.py:1430-1438. -/
def cbUnravel {α : Type} (l : List α) (pad : α) (numLeaves : Nat) : List α := unravelFrom 0 l.reverse ++ List.replicate numLeaves pad

/-- `[0] * (len(l) - 1) + l`, base_tree.py:1395, 1402. -/
def cbPadded (l : List ℚ) : List ℚ := List.replicate (l.length - 1) 0 ++ l

/-- The loop `for index in range(len(leaf_weights) - 2, 0, -1)`, base_tree.py:1397-1399, for `index = k, k - 1, ..., 1`. -/
def cbSumUp : Nat → List ℚ → List ℚ
  | 0, w => w
  | k + 1, w => cbSumUp k (w.set (k + 1) (w.getD (2 * (k + 1) + 1) 0 + w.getD (2 * (k + 1) + 2) 0))

/-- `leaf_weights_unraveled`, base_tree.py:1394-1399. -/
def cbWeights (weights : List ℚ) : List ℚ := cbSumUp (weights.length - 2) ((cbPadded weights).set 0 weights.sum)

/-- The tree built from one oblivious tree, base_tree.py:1391-1449, and `SingleTree` from a dictionary, base_tree.py:889-896 with `scaling`
1. -/
def cbLoad (splits : List CbSplit) (values weights : List ℚ) : TreeArr :=
  let n := values.length
  { size := (cbPadded values).length
    left := fun i => ((List.range (n - 1)).map (fun i => ((i * 2 + 1 : Nat) : Int)) ++ List.replicate n (-1)).getD i (-1)
    right := fun i => ((List.range' 1 (n - 1)).map (fun i => ((i * 2 : Nat) : Int)) ++ List.replicate n (-1)).getD i (-1)
    dflt := fun i => ((List.range (n - 1)).map (fun i => ((i * 2 + 1 : Nat) : Int)) ++ List.replicate n (-1)).getD i (-1)
    feature := fun i => ((cbUnravel (splits.map CbSplit.feature) 0 n).getD i 0 : Nat)
    threshold := fun i => (cbUnravel (splits.map CbSplit.threshold) 0 n).getD i 0
    value := fun i _ => (cbPadded values).getD i 0
    weight := fun i => (cbWeights weights).getD i 0 }

end Acv
