import Mathlib.Algebra.Order.Field.Rat
import Mathlib.Data.List.Dedup

/-!
# Array trees, prediction, leaf rectangles

Models `/repo/acv_explainers/cext_acv/acv_tree.h`, `/repo/acv_explainers/utils.py` (`get_partition`) and the
array building part of `/repo/acv_explainers/base_tree.py`.

Simplifications (trusted base): numbers are exact rationals; a numpy array is a total function together with its
length, and only indices below the length are ever meant; `while (true)` loops take a fuel argument and return `none`
when it runs out (the theorems show that `size` steps are enough).
-/

namespace Acv

/-- The arrays of one tree: `SingleTree.children_left`, `children_right`, `children_default`, `features`,
`thresholds`, `values`, `node_sample_weight` (/repo/acv_explainers/base_tree.py:865-889). `size` is their common
length. A leaf has negative children. -/
structure TreeArr where
  size : Nat
  left : Nat → Int
  right : Nat → Int
  dflt : Nat → Int
  feature : Nat → Int
  threshold : Nat → ℚ
  value : Nat → Nat → ℚ
  weight : Nat → ℚ

/-- `TreeEnsemble::is_leaf`, /repo/acv_explainers/cext_acv/acv_tree.h:57-59. -/
def TreeArr.isLeaf (t : TreeArr) (n : Nat) : Bool := decide (t.left n < 0)

/-- An observation with possibly missing entries: `X` together with `X_missing = np.isnan(X)`
(/repo/acv_explainers/base_tree.py:742). -/
abbrev Obs := Nat → Option ℚ

/-- One step of the loop of `tree_predict`, /repo/acv_explainers/cext_acv/acv_tree.h:209-216: the next node. -/
def TreeArr.next (t : TreeArr) (x : Obs) (n : Nat) : Nat :=
  match x (t.feature n).toNat with
  | none => (t.dflt n).toNat
  | some v => if v ≤ t.threshold n then (t.left n).toNat else (t.right n).toNat

/-- `tree_predict`, /repo/acv_explainers/cext_acv/acv_tree.h:197-218, for a single tree: the leaf that is reached.
The `while (true)` loop is bounded by `fuel`. -/
def TreeArr.walk (t : TreeArr) (x : Obs) : Nat → Nat → Option Nat
  | 0, n => if t.isLeaf n then some n else none
  | fuel + 1, n => if t.isLeaf n then some n else t.walk x fuel (t.next x n)

/-- The leaf reached from the root (`node = 0`), acv_tree.h:199. `size` steps always suffice (proved). -/
def TreeArr.leafOf (t : TreeArr) (x : Obs) : Option Nat := t.walk x t.size 0

/-- An interval `[[lo, hi]]` of `partition_leaf` with `-np.inf`/`np.inf` as `none`
(/repo/acv_explainers/base_tree.py:589). -/
structure Ival where
  lo : Option ℚ
  hi : Option ℚ
deriving DecidableEq, Repr

/-- `np.array([[-np.inf, np.inf]])`, /repo/acv_explainers/base_tree.py:589. -/
def Ival.all : Ival := ⟨none, none⟩

/-- The numpy test `(x <= hi) * (x > lo)`, e.g. /repo/acv_explainers/py_acv.py:35. -/
def Ival.memOC (i : Ival) (v : ℚ) : Bool :=
  (match i.hi with | none => true | some h => decide (v ≤ h)) &&
  (match i.lo with | none => true | some l => decide (l < v))

/-- The numpy test `(x <= hi) * (x >= lo)`, e.g. /repo/acv_explainers/utils_exp.py:21. -/
def Ival.memCC (i : Ival) (v : ℚ) : Bool :=
  (match i.hi with | none => true | some h => decide (v ≤ h)) &&
  (match i.lo with | none => true | some l => decide (l ≤ v))

/-- `np.concatenate((part, [[t, np.inf]]))` followed by max of column 0 / min of column 1,
/repo/acv_explainers/utils.py:577-578. -/
def Ival.above (i : Ival) (t : ℚ) : Ival :=
  ⟨match i.lo with | none => some t | some l => some (max l t), i.hi⟩

/-- `np.concatenate((part, [[-np.inf, t]]))` followed by max / min, /repo/acv_explainers/utils.py:584-585. -/
def Ival.below (i : Ival) (t : ℚ) : Ival :=
  ⟨i.lo, match i.hi with | none => some t | some h => some (min h t)⟩

/-- A leaf rectangle: one interval per feature. -/
abbrev Rect := Nat → Ival

/-- `np.where(children == leaf_id)[0]` followed by `[0]`: the first index whose child is `id`
(/repo/acv_explainers/utils.py:566-567,574,582). -/
def TreeArr.firstParent (t : TreeArr) (child : Nat → Int) (id : Nat) : Option Nat :=
  (List.range t.size).find? (fun j => child j == (id : Int))

/-- `part[f] = ...` assignment to one entry of the python list `part`. -/
def Rect.set (p : Rect) (f : Nat) (i : Ival) : Rect := fun j => if j = f then i else p j

/-- `get_partition`, /repo/acv_explainers/utils.py:565-587: walk from `leaf_id` to the root, narrowing `part` and
appending the tested feature to `node_id`. The Python recursion is bounded by `fuel`. -/
def TreeArr.getPartition (t : TreeArr) : Nat → Nat → Rect → List Int → Rect × List Int
  | 0, _, part, ids => (part, ids)
  | fuel + 1, id, part, ids =>
    match t.firstParent t.right id, t.firstParent t.left id with
    | none, none => (part, ids)
    | some r, _ =>
      let f := (t.feature r).toNat
      t.getPartition fuel r (part.set f ((part f).above (t.threshold r))) (ids ++ [t.feature r])
    | none, some l =>
      let f := (t.feature l).toNat
      t.getPartition fuel l (part.set f ((part f).below (t.threshold l))) (ids ++ [t.feature l])

/-- The rectangle of a leaf as built in `BaseTree.__init__`, /repo/acv_explainers/base_tree.py:587-593. -/
def TreeArr.leafRect (t : TreeArr) (leaf : Nat) : Rect :=
  (t.getPartition t.size leaf (fun _ => Ival.all) [-1]).1

/-- `list(set(node_id[1:]))`, the variables recorded for a leaf, /repo/acv_explainers/base_tree.py:594. The order of
a Python set of small integers is not used by any caller. -/
def TreeArr.leafVars (t : TreeArr) (leaf : Nat) : List Int :=
  ((t.getPartition t.size leaf (fun _ => Ival.all) [-1]).2.drop 1).dedup

/-- `leaf_idx`, /repo/acv_explainers/base_tree.py:579-580. -/
def TreeArr.leafIdx (t : TreeArr) : List Nat := (List.range t.size).filter t.isLeaf

/-- `np.prod([(x[s] <= part[s,1]) * (x[s] > part[s,0]) for s in range(d)])`,
/repo/acv_explainers/py_acv.py:35-36. -/
def Rect.memOC (d : Nat) (p : Rect) (x : Nat → ℚ) : Bool :=
  (List.range d).all (fun s => (p s).memOC (x s))

/-! ## Ensembles -/

/-- The dense arrays of `BaseTree.__init__` (/repo/acv_explainers/base_tree.py:543-575): row `i`, columns
`< max_nodes`, `-1` (children, features) or `0` (thresholds, values) in the unused part. They are stored row after
row, so the C code sees one flat array (`offset = i * max_nodes`, acv_tree.h:198). -/
structure Packed where
  numTrees : Nat
  maxNodes : Nat
  left : Nat → Int
  right : Nat → Int
  dflt : Nat → Int
  feature : Nat → Int
  threshold : Nat → ℚ
  value : Nat → Nat → ℚ

/-- An empty tree used only to make `List.getD` total; never read by `pack` on valid rows. -/
def TreeArr.empty : TreeArr := ⟨0, fun _ => -1, fun _ => -1, fun _ => -1, fun _ => -1, fun _ => 0, fun _ _ => 0, fun _ => 0⟩

/-- `max_nodes = np.max([len(t.values) for t in self.trees])`, /repo/acv_explainers/base_tree.py:514. -/
def maxNodes (ts : List TreeArr) : Nat := (ts.map (·.size)).foldl max 0

/-- Row-major packing of the padded arrays, /repo/acv_explainers/base_tree.py:543-575 (single-output-per-tree case
`num_stacked_models == 1`). -/
def pack (ts : List TreeArr) : Packed :=
  let m := maxNodes ts
  let cell {α : Type} (pad : α) (get : TreeArr → Nat → α) (pos : Nat) : α :=
    let t := ts.getD (pos / m) TreeArr.empty
    if pos % m < t.size then get t (pos % m) else pad
  { numTrees := ts.length
    maxNodes := m
    left := cell (-1) (fun t => t.left)
    right := cell (-1) (fun t => t.right)
    dflt := cell (-1) (fun t => t.dflt)
    feature := cell (-1) (fun t => t.feature)
    threshold := cell 0 (fun t => t.threshold)
    value := cell (fun _ => 0) (fun t => t.value) }

/-- `tree_predict(i, trees, x, x_missing)` on the flat arrays, acv_tree.h:197-218. Result: the position `pos` of the
leaf in the flat arrays. -/
def Packed.walk (p : Packed) (x : Obs) (offset : Nat) : Nat → Nat → Option Nat
  | 0, node => if p.left (offset + node) < 0 then some (offset + node) else none
  | fuel + 1, node =>
    let pos := offset + node
    if p.left pos < 0 then some pos
    else p.walk x offset fuel
      (match x (p.feature pos).toNat with
       | none => (p.dflt pos).toNat
       | some v => if v ≤ p.threshold pos then (p.left pos).toNat else (p.right pos).toNat)

/-- Output `k` of `dense_tree_predict` for one row, acv_tree.h:255-270: `base_offset[k]` plus one leaf value per tree
`j < tree_limit`. `none` stands for a walk that does not terminate. -/
def Packed.predict (p : Packed) (treeLimit : Nat) (base : Nat → ℚ) (x : Obs) (k : Nat) : Option ℚ :=
  (List.range treeLimit).foldlM (init := base k) fun acc j =>
    (p.walk x (j * p.maxNodes) p.maxNodes 0).map fun pos => acc + p.value pos k

/-- The `tree_limit` sanitising of `BaseTree.predict`, /repo/acv_explainers/base_tree.py:726-727,746-747. -/
def effLimit (numTrees : Nat) (default : Option Int) (arg : Option Int) : Nat :=
  let l : Int := match arg with
    | some a => a
    | none => (match default with | none => -1 | some d => d)
  if l < 0 ∨ l > numTrees then numTrees else l.toNat

/-- `BaseTree.predict`, /repo/acv_explainers/base_tree.py:710-775 (not pyspark, one row, output `k`). -/
def ensemblePredict (ts : List TreeArr) (dfltLimit arg : Option Int) (base : Nat → ℚ) (x : Obs) (k : Nat) : Option ℚ :=
  (pack ts).predict (effLimit (pack ts).numTrees dfltLimit arg) base x k

/-! ## Depth and node weights -/

/-- `compute_expectations`, acv_tree.h:142-168 (the value update is commented out in the source): returns the depth.
Recursion bounded by `fuel`. -/
def TreeArr.depthFrom (t : TreeArr) : Nat → Nat → Nat
  | 0, _ => 0
  | fuel + 1, i =>
    if t.right i ≥ 0 then
      max (t.depthFrom fuel (t.left i).toNat) (t.depthFrom fuel (t.right i).toNat) + 1
    else 0

/-- `max_depth` stored at load time, acv_tree.h:165, base_tree.py:1105-1108. -/
def TreeArr.maxDepth (t : TreeArr) : Nat := t.depthFrom (t.size + 1) 0

/-- `tree_update_weights`, acv_tree.h:324-346, for one row: add 1 to every node on the path. -/
def TreeArr.bump (t : TreeArr) (x : Obs) : Nat → Nat → (Nat → ℚ) → (Nat → ℚ)
  | 0, n, w => fun j => if j = n then w j + 1 else w j
  | fuel + 1, n, w =>
    let w' : Nat → ℚ := fun j => if j = n then w j + 1 else w j
    if t.isLeaf n then w' else t.bump x fuel (t.next x n) w'

/-- `dense_tree_update_weights`, acv_tree.h:348-362, one tree: rows in order. -/
def TreeArr.updateWeights (t : TreeArr) (rows : List Obs) (w : Nat → ℚ) : Nat → ℚ :=
  rows.foldl (fun w x => t.bump x t.size 0 w) w

end Acv
