import Verif.Model.Quantile
import Verif.Model.Rules

/-!
# The projected forest, Python versions

Models `compute_shaff_exp` and `compute_shaff_sdp` (/repo/acv_explainers/utils_exp.py:111-141,270-305) behind
`ACVTree.compute_exp_shaff` and `ACVTree.compute_sdp_shaff` (/repo/acv_explainers/acv_tree.py:804-822; the same methods again in
1290-1308). `compute_shaff_sdp_clf` is `shaffSdpClf` and `compute_shaff_quantile` is `shaffQuantile`.

Simplifications: exact rationals; one observation; NaN is `none`.
-/

namespace Acv

/-- What Python reads of a tree: `features[node]` with numpy's negative indexing, utils_exp.py:119-128. -/
def Mem.py (t : TreeArr) : Mem where
  feat := fun n => t.feature (if 0 ≤ n then n else t.size + n).toNat
  thr := fun n => t.threshold (if 0 ≤ n then n else t.size + n).toNat
  lc := fun n => t.left (if 0 ≤ n then n else t.size + n).toNat
  rc := fun n => t.right (if 0 ≤ n then n else t.size + n).toNat

/-- `compute_shaff_sdp`, utils_exp.py:270-305: `a = (Y - y_X) ** 2 <= t`, `np.sum(weights * a)`. -/
def shaffSdp (mems : List Mem) (S : List Nat) (x : Row) (yx : ℚ) (data : Nat → Row) (y : Nat → ℚ) (minSize maxDepth N : Nat) (t : ℚ) : ℚ :=
  let cells := mems.map fun mem => mem.cellPy S x data minSize maxDepth N
  ((List.range N).map fun i => shaffWeight cells i * ind (decide ((y i - yx) ^ 2 ≤ t))).sum

/-- `compute_shaff_exp`, utils_exp.py:111-141: `predictions.append(np.mean(Y[samples]))`, `np.mean(predictions)`. -/
def shaffExp (mems : List Mem) (S : List Nat) (x : Row) (data : Nat → Row) (y : Nat → ℚ) (minSize maxDepth N : Nat) : Option ℚ :=
  (mems.mapM fun mem => npMean ((mem.cellPy S x data minSize maxDepth N).map y)).bind npMean

end Acv
