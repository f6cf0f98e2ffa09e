import Verif.Model.LoadLgb

/-!
# Loading isolation forests

Models `IsoTree` (/repo/acv_explainers/base_tree.py:1157-1183) and the isolation branches of `BaseTree.__init__` (99-113).

Simplifications: exact rationals; `_average_path_length` of sklearn is a parameter `c`; the recursion of `_recalculate_value` carries fuel, which
is enough for every well-formed tree; a division by zero is excluded by hypotheses of the theorems.
-/

namespace Acv

/-- `_recalculate_value(tree, i, level)`, base_tree.py:1167-1176: the returned value and the column `self.values[:, 0]`. -/
def isoRecalc (raw : TreeArr) (ns : Nat → ℚ) (c : ℚ → ℚ) : Nat → Nat → ℚ → (Nat → ℚ) → ℚ × (Nat → ℚ)
  | 0, _, _, vals => (0, vals)
  | fuel + 1, i, level, vals =>
    if raw.left i = -1 ∧ raw.right i = -1 then
      ((level + c (ns i)) * ns i, setAt vals i (level + c (ns i)))
    else
      let a := isoRecalc raw ns c fuel (raw.left i).toNat (level + 1) vals
      let b := isoRecalc raw ns c fuel (raw.right i).toNat (level + 1) a.2
      (a.1 + b.1, setAt b.2 i ((a.1 + b.1) / ns i))

/-- `IsoTree(e.tree_, f, scaling)`, base_tree.py:1162-1183: sklearn's arrays `raw`, `n_node_samples` and the columns `tf` the tree was grown on.
`tree_features[self.features]` is evaluated for all nodes, leaves (`-2`) included, and raises `IndexError` when an index is out of range. -/
def isoTree (scaling : ℚ) (c : ℚ → ℚ) (ns : Nat → ℚ) (tf : List Nat) (raw : TreeArr) : Except String TreeArr :=
  if (List.range raw.size).all fun n => decide (-(tf.length : Int) ≤ raw.feature n ∧ raw.feature n < tf.length) then
    .ok { raw with
      dflt := raw.left
      value := fun n _ => (isoRecalc raw ns c (raw.size + 1) 0 0 fun n => raw.value n 0).2 n * scaling
      feature := fun n => if 0 ≤ raw.feature n then (tf.getD (raw.feature n).toNat 0 : Nat) else raw.feature n }
  else .error "IndexError"

/-- A fitted sklearn isolation tree: arrays, `n_node_samples` and `estimators_features_[i]`. -/
structure IsoRaw where
  arr : TreeArr
  ns : Nat → ℚ
  tf : List Nat

/-- The trees of an isolation forest, base_tree.py:99-105: `scaling = 1.0 / len(model.estimators_)`. -/
def isoForest (c : ℚ → ℚ) (raws : List IsoRaw) : Except String (List TreeArr) :=
  raws.mapM fun r => isoTree (1 / (raws.length : ℚ)) c r.ns r.tf r.arr

end Acv
