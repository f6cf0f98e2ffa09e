import Verif.Model.Tree
import Verif.Model.LeafShapPy
import Verif.Model.TreeSdp

/-!
# Refilling a tree with new data

Models `get_partition_tree`, `get_final_partition`, `leaves_proba`, `rebuild_tree` and `rebuild_acvtree`,
/repo/acv_explainers/utils.py:182-271.

Simplifications: exact rationals; the rows and their targets are one list of pairs, since both functions select them with the same condition;
the Python recursion is bounded by `fuel`.
-/

namespace Acv

/-- The two arrays written: `node_sample_weight` (`weighted_n_node_samples`) and `values`; `none` is NaN. -/
structure Refill where
  weight : Nat → ℚ
  value : Nat → Nat → Option ℚ

/-- `np.mean(y, axis=0)` for output `k`, utils.py:254: NaN without rows. -/
def meanOut (rows : List (Row × (Nat → ℚ))) (k : Nat) : Option ℚ := npDiv (rows.map fun p => p.2 k).sum rows.length

/-- `rebuild_acvtree`, utils.py:252-271; `rebuild_tree`, 230-249, does the same for one output. -/
def rebuild (t : TreeArr) : Nat → Nat → List (Row × (Nat → ℚ)) → Refill → Refill
  | 0, _, _, st => st
  | fuel + 1, id, rows, st =>
    let st := { weight := fun n => if n = id then (rows.length : ℚ) else st.weight n
                value := fun n => if n = id then meanOut rows else st.value n }
    if t.right id < 0 then st else
      let st := rebuild t fuel (t.left id).toNat (rows.filter fun p => decide (p.1 (t.feature id).toNat ≤ t.threshold id)) st
      rebuild t fuel (t.right id).toNat (rows.filter fun p => decide (p.1 (t.feature id).toNat > t.threshold id)) st

/-- The call on the root. A path of a tree has at most `size` nodes. -/
def rebuildTree (t : TreeArr) (rows : List (Row × (Nat → ℚ))) (st : Refill) : Refill := rebuild t t.size 0 rows st

/-- `get_partition_tree`, utils.py:182-204: the intervals met on the way up are appended, per feature. The Python recursion is bounded by
`fuel`. -/
def partTree (t : TreeArr) : Nat → Nat → (Nat → List Ival) → (Nat → List Ival)
  | 0, _, part => part
  | fuel + 1, id, part =>
    match t.firstParent t.right id, t.firstParent t.left id with
    | none, none => part
    | some r, _ => partTree t fuel r fun j => if j = (t.feature r).toNat then part j ++ [⟨some (t.threshold r), none⟩] else part j
    | none, some l => partTree t fuel l fun j => if j = (t.feature l).toNat then part j ++ [⟨none, some (t.threshold l)⟩] else part j

/-- `np.max(var_part[:, 0])`, utils.py:210: `none` is `-inf`. -/
def maxLo (l : List Ival) : Option ℚ :=
  (l.filterMap Ival.lo).foldl (fun a v => some (match a with | none => v | some w => max w v)) none

/-- `np.min(var_part[:, 1])`, utils.py:210: `none` is `inf`. -/
def minHi (l : List Ival) : Option ℚ :=
  (l.filterMap Ival.hi).foldl (fun a v => some (match a with | none => v | some w => min w v)) none

/-- `get_final_partition`, utils.py:207-211. -/
def finalPart (part : Nat → List Ival) : Rect := fun j => ⟨maxLo (part j), minHi (part j)⟩

/-- `leaves_proba`, utils.py:214-223. `np.prod([], axis=0)` is `1.0`, whose sum is 1. -/
def leavesProba (t : TreeArr) (leaf : Nat) (data : List Row) (S : List Nat) : Nat :=
  if S = [] then 1 else
    (data.filter (satCC (finalPart (partTree t t.size leaf fun _ => [Ival.all])) S)).length

end Acv
