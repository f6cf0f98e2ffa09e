import Verif.Model.LoadLgb

/-!
# Loading JSON dumps of XGBoost

Models the branch of `SingleTree.__init__` for the JSON dump of an XGBoost tree (/repo/acv_explainers/base_tree.py:1003-1038), which
users reach by passing `{"trees": [...]}` to the explainer (62-80). The text dump (1040-1092) is in
`Verif.Model.LoadText`.

Simplifications: exact rationals; `split` is the number of a column; `np.empty` leaves arbitrary weights (`junk`).
-/

namespace Acv

/-- The nested dictionary of a dump. -/
inductive XgbDump where
  | leaf (id : Nat) (value cover : ℚ)
  | split (id feature : Nat) (cond : ℚ) (yes no missing : Nat) (cover : ℚ) (c1 c2 : XgbDump)
deriving Repr

/-- `node["nodeid"]`. -/
def XgbDump.id : XgbDump → Nat
  | .leaf i _ _ => i
  | .split i _ _ _ _ _ _ _ _ => i

/-- `max_id(node)`, base_tree.py:1007-1011. -/
def XgbDump.maxId : XgbDump → Nat
  | .leaf i _ _ => i
  | .split i _ _ _ _ _ _ a b => max i (max a.maxId b.maxId)

/-- The assignments for a split, base_tree.py:1024-1031. -/
def TreeArr.putXgbSplit (t : TreeArr) (i feature : Nat) (cond : ℚ) (yes no missing : Nat) (cover : ℚ) : TreeArr :=
  { t with
    weight := setAt t.weight i cover
    left := setAt t.left i yes
    right := setAt t.right i no
    dflt := setAt t.dflt i missing
    feature := setAt t.feature i feature
    threshold := setAt t.threshold i cond }

/-- The assignments for a leaf, base_tree.py:1024-1025, 1036. -/
def TreeArr.putXgbLeaf (t : TreeArr) (i : Nat) (value cover : ℚ) : TreeArr :=
  { t with weight := setAt t.weight i cover, value := setAt t.value i fun _ => value }

/-- `extract_data(node, tree)`, base_tree.py:1022-1036. -/
def xgbExtract (scaling : ℚ) : XgbDump → TreeArr → TreeArr
  | .leaf i v c, t => t.putXgbLeaf i (v * scaling) c
  | .split i f thr yes no mis c a b, t => xgbExtract scaling b (xgbExtract scaling a (t.putXgbSplit i f thr yes no mis c))

/-- `SingleTree(tree, scaling)` for a JSON dump, base_tree.py:1013-1038. -/
def xgbJson (junk : Nat → ℚ) (scaling : ℚ) (T : XgbDump) : TreeArr :=
  xgbExtract scaling T ⟨T.maxId + 1, fun _ => -1, fun _ => -1, fun _ => -1, fun _ => -1, fun _ => 0, fun _ _ => 0, junk⟩

end Acv
