import Verif.Model.Quantile

/-!
# Quantiles of the projected forest, Cython versions

Models `compute_quantile_rf` and `compute_quantile_diff_rf` (/repo/acv_explainers/cyext_acv/cyext_acv.pyx:4335-4510) behind
`ACVTree.compute_quantile_rf` and `ACVTree.compute_quantile_diff_rf` (/repo/acv_explainers/acv_tree.py:1082-1094).

Simplifications: exact rationals; one observation. `1/s` for an empty cell (NaN weights in the code, possible only if
`min_node_size` is 0 or there is no row) is 0 here.
-/

namespace Acv

/-- The branch on the node, cyext_acv.pyx:4362-4384: `nodes_child` and the 0/1 array `samples_child`. -/
def Mem.visitArr (mem : Mem) (S : List Nat) (x : Row) (data : Nat → Row) (n : Int) (child : List Int) (samples : Nat → ℚ) :
    List Int × (Nat → ℚ) :=
  let f := mem.feat n
  if inS S f then
    if x f.toNat ≤ mem.thr n then
      (pushBack child (mem.lc n), fun i => samples i * ind (decide (data i f.toNat ≤ mem.thr n)))
    else
      (pushBack child (mem.rc n), fun i => samples i * ind (decide (mem.thr n < data i f.toNat)))
  else (pushBack (pushBack child (mem.lc n)) (mem.rc n), samples)

/-- `s += samples_child[i]`, cyext_acv.pyx:4368,4374,4382,4393-4395. -/
def arrSum (N : Nat) (samples : Nat → ℚ) : ℚ := ((List.range N).map samples).sum

/-- `if s < min_node_size: break` `else: samples = samples_child`, cyext_acv.pyx:4360-4389. -/
def Mem.scanArr (mem : Mem) (S : List Nat) (x : Row) (data : Nat → Row) (minSize N : Nat) :
    List Int → List Int → (Nat → ℚ) → List Int × (Nat → ℚ)
  | [], child, samples => (child, samples)
  | n :: ns, child, samples =>
    let r := mem.visitArr S x data n child samples
    if arrSum N r.2 < minSize then (r.1, samples) else Mem.scanArr mem S x data minSize N ns r.1 r.2

/-- `for level in range(max_depth)`, cyext_acv.pyx:4359-4391. -/
def Mem.levelsArr (mem : Mem) (S : List Nat) (x : Row) (data : Nat → Row) (minSize N : Nat) :
    Nat → List Int → List Int → (Nat → ℚ) → (Nat → ℚ)
  | 0, _, _, samples => samples
  | k + 1, nodes, child, samples =>
    let r := mem.scanArr S x data minSize N nodes child samples
    Mem.levelsArr mem S x data minSize N k r.1 r.1 r.2

/-- The array `samples` after the walk of one tree, cyext_acv.pyx:4350-4391. -/
def Mem.arr (mem : Mem) (S : List Nat) (x : Row) (data : Nat → Row) (minSize maxDepth N : Nat) : Nat → ℚ :=
  mem.levelsArr S x data minSize N maxDepth [0] [] fun _ => 1

/-- `weights[i] += samples[i] * (1/s)` over the trees, then `/ n_trees`, cyext_acv.pyx:4393-4400. -/
def arrWeight (N : Nat) (arrs : List (Nat → ℚ)) (i : Nat) : ℚ :=
  (arrs.map fun a => a i * (1 / arrSum N a)).sum / arrs.length

/-- `compute_quantile_rf` for one row, cyext_acv.pyx:4335-4421. -/
def quantileRf (mems : List Mem) (S : List Nat) (x : Row) (data : Nat → Row) (y : Nat → ℚ) (minSize maxDepth N : Nat) (q : ℚ) :
    Except String ℚ :=
  weightedPercentileSorter ((List.range N).map fun i =>
    (y i, arrWeight N (mems.map fun mem => mem.arr S x data minSize maxDepth N) i)) q

/-- `local_diff` after the loop, cyext_acv.pyx:4441,4480-4483: 0 for a row that is in no cell. -/
def localDiff (cells : List (List Nat)) (yx : ℚ) (y : Nat → ℚ) (i : Nat) : ℚ := if ∃ c ∈ cells, i ∈ c then yx - y i else 0

/-- `compute_quantile_diff_rf` for one row, cyext_acv.pyx:4427-4510. The rows are removed from `in_data` as in
`single_compute_cdf_rf` (a vector of nodes, no way back below `min_node_size`). -/
def quantileDiffRf (mems : List Mem) (S : List Nat) (x : Row) (yx : ℚ) (data : Nat → Row) (y : Nat → ℚ) (minSize maxDepth N : Nat)
    (q : ℚ) : Except String ℚ :=
  let cells := cellsVec mems S x data minSize maxDepth N
  weightedPercentileSorter ((List.range N).map fun i => (localDiff cells yx y i, shaffWeight cells i)) q

end Acv
