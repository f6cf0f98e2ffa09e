import Verif.Model.Tree

/-!
# Loading LightGBM trees

Models the LightGBM branch of `SingleTree.__init__` (/repo/acv_explainers/base_tree.py:953-1001). A tree is the nested dictionary that
`dump_model()` produces.

Simplifications: exact rationals; `np.empty` gives arrays with arbitrary content (`junk`); an assignment outside of an array raises, and
exceptions are values. `default_left` is the only missing value information the loader reads; `missing` is kept for the specification.
-/

namespace Acv

/-- `missing_type` of a LightGBM split: `"None"`, `"Zero"` or `"NaN"`. -/
inductive MissingType where
  | none | zero | nan
deriving DecidableEq, Repr

/-- `decision_type` and `threshold` of a LightGBM split: `"<="` with a number, or `"=="` with the categories `"c1||c2||..."`. -/
inductive LgbTest where
  | le (thr : ℚ)
  | eq (cats : List Nat)
deriving DecidableEq, Repr

/-- The nested dictionary of `tree_structure`. A tree with a single leaf is dumped as `{'leaf_value': v}` (`stump`). -/
inductive LgbNode where
  | leaf (index : Nat) (value count : ℚ)
  | stump (value : ℚ)
  | split (index feature : Nat) (test : LgbTest) (defaultLeft : Bool) (missing : MissingType) (value count : ℚ) (l r : LgbNode)
deriving Repr

/-- Number of dictionaries in the nested dictionary: the number of passes of the `while queue` loop, base_tree.py:964. -/
def LgbNode.size : LgbNode → Nat
  | .leaf _ _ _ => 1
  | .stump _ => 1
  | .split _ _ _ _ _ _ _ l r => 1 + l.size + r.size

/-- `['split_index']`, or `['leaf_index'] + num_parents`, base_tree.py:968-976. -/
def LgbNode.pos (numParents : Nat) : LgbNode → Except String Nat
  | .split i _ _ _ _ _ _ _ _ => .ok i
  | .leaf i _ _ => .ok (i + numParents)
  | .stump _ => .error "KeyError"

/-- `self.thresholds[...] = vertex['threshold']`, base_tree.py:982: numpy converts a string that is a number, and raises for any other. -/
def LgbTest.threshold : LgbTest → Except String ℚ
  | .le thr => .ok thr
  | .eq [c] => .ok c
  | .eq _ => .error "ValueError"

/-- One entry of an array is replaced. -/
def setAt {α : Type} (f : Nat → α) (i : Nat) (v : α) : Nat → α := fun j => if j = i then v else f j

/-- The assignments for a split, base_tree.py:967-984. -/
def TreeArr.putSplit (t : TreeArr) (i : Nat) (lp rp : Nat) (defaultLeft : Bool) (feature : Nat) (thr value count : ℚ) : TreeArr :=
  { t with
    left := setAt t.left i lp
    right := setAt t.right i rp
    dflt := setAt t.dflt i (if defaultLeft then (lp : Int) else rp)
    feature := setAt t.feature i feature
    threshold := setAt t.threshold i thr
    value := setAt t.value i (fun _ => value)
    weight := setAt t.weight i count }

/-- The assignments for a leaf, base_tree.py:988-999. -/
def TreeArr.putLeaf (t : TreeArr) (i : Nat) (value count : ℚ) : TreeArr :=
  { t with
    left := setAt t.left i (-1)
    right := setAt t.right i (-1)
    dflt := setAt t.dflt i (-1)
    feature := setAt t.feature i (-1)
    threshold := setAt t.threshold i (-1)
    value := setAt t.value i (fun _ => value)
    weight := setAt t.weight i count }

/-- The loop `while queue`, base_tree.py:963-999. -/
def lgbLoop (numParents : Nat) : Nat → List LgbNode → List Nat → TreeArr → Except String TreeArr
  | 0, _, _, t => .ok t
  | _ + 1, [], _, t => .ok t
  | fuel + 1, .split i f test dl _ v c l r :: queue, visited, t =>
    if i ∈ visited then lgbLoop numParents fuel queue visited t
    else
      match l.pos numParents with
      | .error e => .error e
      | .ok lp =>
        match r.pos numParents with
        | .error e => .error e
        | .ok rp =>
          match test.threshold with
          | .error e => .error e
          | .ok thr =>
            if t.size ≤ i then .error "IndexError"
            else lgbLoop numParents fuel (queue ++ [l, r]) (visited ++ [i]) (t.putSplit i lp rp dl f thr v c)
  | fuel + 1, .leaf i v c :: queue, visited, t =>
    if t.size ≤ i + numParents then .error "IndexError"
    else lgbLoop numParents fuel queue visited (t.putLeaf (i + numParents) v c)
  | _ + 1, .stump _ :: _, _, _ => .error "KeyError"

/-- `SingleTree(tree, scaling=scaling)` for a LightGBM dump, base_tree.py:953-1001. -/
def lgbLoad (junk : TreeArr) (scaling : ℚ) (numLeaves : Nat) (start : LgbNode) : Except String TreeArr :=
  match lgbLoop (numLeaves - 1) start.size [start] [] { junk with size := 2 * (numLeaves - 1) + 1 } with
  | .error e => .error e
  | .ok t => .ok { t with value := fun n k => t.value n k * scaling }

/-- The loading of all trees for a LightGBM model, base_tree.py:382-385 (also 396-399, 410-413, 425-428, 441-444): any exception leaves the
explainer without trees. -/
def lgbTrees (junk : TreeArr) (dumps : List (Nat × LgbNode)) : Option (List TreeArr) :=
  match dumps.mapM (fun p => lgbLoad junk 1 p.1 p.2) with
  | .error _ => none
  | .ok ts => some ts

end Acv
