import Verif.Model.Projected
import Mathlib.Data.List.Sort

/-!
# Weighted percentiles

Models `weighted_percentile` (/repo/acv_explainers/utils.py:853-924) and `compute_shaff_quantile`
(/repo/acv_explainers/utils_exp.py:74-108), behind `ACVTree.compute_quantile_shaff` (/repo/acv_explainers/acv_tree.py:824-830).

Simplifications: exact rationals instead of float32; `np.argsort` as a stable sort (`C59_ties_false` shows that the order of equal samples
matters); `np.searchsorted` on a sorted array is the number of smaller entries.
-/

namespace Acv

/-- `sorted_cum_weights - sorted_weights / 2.0` beside `sorted_a`, utils.py:907-911; `acc` is the sum of the weights before. -/
def midpoints : ℚ → List (ℚ × ℚ) → List (ℚ × ℚ)
  | _, [] => []
  | acc, s :: l => ((acc + s.2) - s.2 / 2, s.1) :: midpoints (acc + s.2) l

/-- `100.0 / total * ...`, utils.py:908-911: the entries of `partial_sum` beside `sorted_a`. -/
def partialSums (l : List (ℚ × ℚ)) : List (ℚ × ℚ) :=
  (midpoints 0 l).map fun p => (100 / (l.map Prod.snd).sum * p.1, p.2)

/-- Steps 2 and 3, utils.py:912-921, from the pairs `(partial_sum, sorted_a)`. -/
def interpolate (pts : List (ℚ × ℚ)) (q : ℚ) : ℚ :=
  let k := (pts.filter fun p => decide (p.1 < q)).length
  if k = pts.length then (pts.getD (pts.length - 1) (0, 0)).2
  else if k = 0 then (pts.getD 0 (0, 0)).2
  else
    let s := pts.getD (k - 1) (0, 0)
    let e := pts.getD k (0, 0)
    s.2 + (q - s.1) / (e.1 - s.1) * (e.2 - s.2)

/-- `a[np.argsort(a)]`, utils.py:899-901. -/
def sortSamples (l : List (ℚ × ℚ)) : List (ℚ × ℚ) := l.insertionSort fun a b => a.1 ≤ b.1

/-- `weighted_percentile(a, q, weights)`, utils.py:853-924: a sample is a pair `(a[i], weights[i])`. Without a sample of non-zero weight
`sorted_cum_weights[-1]` raises. -/
def weightedPercentile (samples : List (ℚ × ℚ)) (q : ℚ) : Except String ℚ :=
  if 100 < q ∨ q < 0 then .error "ValueError"
  else
    let l := samples.filter fun s => decide (s.2 ≠ 0)
    if l = [] then .error "IndexError" else .ok (interpolate (partialSums (sortSamples l)) q)

/-- `weighted_percentile(a, q, weights, sorter=np.argsort(a))`, utils.py:888-905: sorted before the zero weights are dropped. -/
def weightedPercentileSorter (samples : List (ℚ × ℚ)) (q : ℚ) : Except String ℚ :=
  if 100 < q ∨ q < 0 then .error "ValueError"
  else
    let l := (sortSamples samples).filter fun s => decide (s.2 ≠ 0)
    if l = [] then .error "IndexError" else .ok (interpolate (partialSums l) q)

/-- `weights = np.mean(weights, axis=0)`, utils_exp.py:103-105. -/
def shaffWeight (cells : List (List Nat)) (i : Nat) : ℚ :=
  (cells.map fun c => if i ∈ c then 1 / (c.length : ℚ) else 0).sum / cells.length

/-- `compute_shaff_quantile`, utils_exp.py:74-108: the weights are the mean over the trees of `1 / np.sum(samples)` on the cell of `x`. -/
def shaffQuantile (mems : List Mem) (S : List Nat) (x : Row) (data : Nat → Row) (y : Nat → ℚ) (minSize maxDepth N : Nat) (q : ℚ) :
    Except String ℚ :=
  weightedPercentileSorter ((List.range N).map fun i =>
    (y i, shaffWeight (mems.map fun mem => mem.cellPy S x data minSize maxDepth N) i)) q

end Acv
