import Verif.Model.LoadLgb

/-!
# Loading Spark trees

Models the pyspark branch of `SingleTree.__init__` (/repo/acv_explainers/base_tree.py:898-951) and the scaling of Spark ensembles (282-311).

Simplifications: exact rationals; a division by zero in the normalisation, which numpy turns into NaN, is excluded by hypotheses of the
theorems. `value` is `[node.prediction()]` for the impurity `variance`, the statistics of the node otherwise.
-/

namespace Acv

/-- `node.split()`: a `ContinuousSplit` with its threshold, or a `CategoricalSplit`. -/
inductive SparkTest where
  | continuous (thr : ℚ)
  | categorical (left : List Nat)
deriving DecidableEq, Repr

/-- A node of a Spark tree, with the row written to `values` and `impurityStats().count()`. -/
inductive SparkNode where
  | leaf (value : Nat → ℚ) (count : ℚ)
  | split (feature : Nat) (test : SparkTest) (value : Nat → ℚ) (count : ℚ) (l r : SparkNode)

/-- `getNumNodes(node, 0)`, base_tree.py:901-907. -/
def SparkNode.size : SparkNode → Nat
  | .leaf _ _ => 1
  | .split _ _ _ _ l r => 1 + l.size + r.size

/-- `values[index]` and `node_sample_weight[index]`, base_tree.py:920-926. -/
def TreeArr.putStats (t : TreeArr) (i : Nat) (value : Nat → ℚ) (count : ℚ) : TreeArr :=
  { t with value := setAt t.value i value, weight := setAt t.weight i count }

/-- `features[index]`, `thresholds[index]` and `children_left[index]`, base_tree.py:931-940. -/
def TreeArr.putTest (t : TreeArr) (i feature : Nat) (thr : ℚ) : TreeArr :=
  { t with
    feature := setAt t.feature i feature
    threshold := setAt t.threshold i thr
    left := setAt t.left i ((i + 1 : Nat) : Int) }

/-- `children_right[index] = idx + 1`, base_tree.py:942. -/
def TreeArr.putRight (t : TreeArr) (i idx : Nat) : TreeArr := { t with right := setAt t.right i ((idx + 1 : Nat) : Int) }

/-- `buildTree(index - 1, node)`, base_tree.py:918-944: returns the last index that was used, and the arrays. -/
def sparkBuild : SparkNode → Nat → TreeArr → Except String (Nat × TreeArr)
  | .leaf v c, i, t => .ok (i, t.putStats i v c)
  | .split _ (.categorical _) _ _ _ _, _, _ => .error "NotImplementedError"
  | .split f (.continuous thr) v c l r, i, t =>
    match sparkBuild l (i + 1) ((t.putStats i v c).putTest i f thr) with
    | .error e => .error e
    | .ok (idx, t) => sparkBuild r (idx + 1) (t.putRight i idx)

/-- `np.full(num_nodes, -2)`, base_tree.py:910-916. -/
def sparkEmpty (n : Nat) : TreeArr := ⟨n, fun _ => -2, fun _ => -2, fun _ => -2, fun _ => -2, fun _ => -2, fun _ _ => -2, fun _ => -2⟩

/-- `SingleTree(tree, normalize, scaling)` for a Spark tree, base_tree.py:898-951; `K` is the number of values per node. -/
def sparkLoad (normalize : Bool) (scaling : ℚ) (K : Nat) (root : SparkNode) : Except String TreeArr :=
  match sparkBuild root 0 (sparkEmpty root.size) with
  | .error e => .error e
  | .ok (_, t) => .ok { t with
      dflt := t.left
      value := fun n k => (if normalize then t.value n k / ((List.range K).map fun c => t.value n c).sum else t.value n k) * scaling }

/-- The trees of a Spark random forest with its `treeWeights`, base_tree.py:293-297. -/
def sparkForest (normalize : Bool) (K : Nat) (trees : List (SparkNode × ℚ)) : Except String (List TreeArr) :=
  trees.mapM fun p => sparkLoad normalize (p.2 / (trees.map Prod.snd).sum) K p.1

/-- The trees of a Spark gradient boosting model, base_tree.py:300-305. -/
def sparkBoost (trees : List (SparkNode × ℚ)) : Except String (List TreeArr) := trees.mapM fun p => sparkLoad false p.2 1 p.1

end Acv
