import Verif.Model.Tree
import Mathlib.Analysis.SpecialFunctions.Exp

/-!
# Ensembles of loaded trees

Models how `BaseTree.__init__` (/repo/acv_explainers/base_tree.py:86-302, 512-575) scales, normalises, stacks and limits the trees of an
ensemble, the sklearn branch of `SingleTree` (867-877), `SingleTree.predict` (1110-1154) and `values_binary` (527-542).

Simplifications: exact rationals (reals for the sigmoid); a division by zero, which numpy turns into NaN, is excluded by hypotheses of the
theorems; the arrays of a fitted sklearn tree are a `TreeArr` (`value n k` for `k < K = n_outputs * n_classes`).
-/

namespace Acv

/-- `SingleTree(e.tree_, normalize, scaling)` for a sklearn tree, base_tree.py:867-877. -/
def skTree (normalize : Bool) (scaling : ℚ) (K : Nat) (raw : TreeArr) : TreeArr :=
  { raw with
    dflt := raw.left
    value := fun n k =>
      (if normalize then raw.value n k / ((List.range K).map fun c => raw.value n c).sum else raw.value n k) * scaling }

/-- The trees of a random forest, extra trees or balanced forest: `scaling = 1.0 / len(model.estimators_)`, base_tree.py:86-99, 140-193,
477-484. Classifiers pass `normalize=True`. -/
def skForest (normalize : Bool) (K : Nat) (raws : List TreeArr) : List TreeArr :=
  raws.map (skTree normalize (1 / (raws.length : ℚ)) K)

/-- The trees of a gradient boosting model: `scaling=model.learning_rate`, base_tree.py:207-209, 280-281. -/
def skBoost (rate : ℚ) (raws : List TreeArr) : List TreeArr := raws.map (skTree false rate 1)

/-- `SingleTree.predict`, base_tree.py:1110-1154: the values are divided by the scaling; no offset, no limit. -/
def singlePredict (t : TreeArr) (scaling : ℚ) (x : Obs) (k : Nat) : Option ℚ :=
  ensemblePredict [{ t with value := fun n k => t.value n k / scaling }] none (some 1) (fun _ => 0) x k

/-- `self.values[i, :, stack_pos] = self.trees[i].values[:, 0]` with `stack_pos = i % num_stacked_models`, on zeros, for tree `i`,
base_tree.py:551, 571-574. -/
def stackTree (K i : Nat) (t : TreeArr) : TreeArr := { t with value := fun n k => if k = i % K then t.value n 0 else 0 }

/-- The values of all trees, base_tree.py:571-577; the assertion on the number of trees (519-521) is the `none`. -/
def stackTrees (K : Nat) (ts : List TreeArr) : Option (List TreeArr) :=
  if 1 < K then if ts.length % K = 0 then some (ts.zipIdx.map fun p => stackTree K p.2 p.1) else none else some ts

/-- `1 / (1 + np.exp(-v))`, base_tree.py:541. -/
noncomputable def sigmoid (v : ℝ) : ℝ := 1 / (1 + Real.exp (-v))

/-- `self.values_binary[i]`, base_tree.py:533-542: class `k` of a node with raw value `v`, of an ensemble of `n` trees. -/
noncomputable def valuesBinary (n : Nat) (v : ℝ) (k : Nat) : ℝ := (if k = 0 then 1 - sigmoid v else sigmoid v) / n

/-- The sum over the trees of the entries of `values_binary` at the leaves of `x`: what `compute_sdp_clf` averages for the class `k`,
/repo/acv_explainers/acv_tree.py:266-301. `vs` are the raw values of these leaves. -/
noncomputable def binaryScore (vs : List ℝ) (k : Nat) : ℝ := (vs.map fun v => valuesBinary vs.length v k).sum

end Acv
