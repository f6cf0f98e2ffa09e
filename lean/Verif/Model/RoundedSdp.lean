import Verif.Model.Rounded
import Verif.Model.Projected
import Verif.Model.ParallelAcc

/-!
# The probabilities of the projected forest in double precision

The accumulations of `single_compute_sdp_rf`, `single_compute_ddp_rf`, `single_compute_exp_rf`, `single_compute_cdf_rf` and of the weights of
`single_compute_sdp_rule_weights` (/repo/acv_explainers/cyext_acv/cyext_acv.pyx) with a rounding after every operation on a `double`.

Simplification: the comparisons of a row with a threshold are between doubles and involve no rounding, so the cells are those of `Verif.Model.Projected`. The
exponent is unbounded, as in `Verif.Model.CombDouble`.
-/

namespace Acv

/-- `1./(n_trees*in_data.size())`, cyext_acv.pyx:5865: a product of unsigned integers, converted to `double`. -/
def cellWeightRnd (rnd : ℚ → ℚ) (trees size : Nat) : ℚ := rnd (1 / rnd ((trees * size : Nat) : ℚ))

/-- `sdp += term` for the rows of every cell, cyext_acv.pyx:5817-5871; `term` has the weight of the cell and the row. -/
def cellSumRnd (rnd : ℚ → ℚ) (cells : List (List Nat)) (term : ℚ → Nat → ℚ) : ℚ :=
  cells.foldl (fun s c => c.foldl (fun s i => rnd (s + term (cellWeightRnd rnd cells.length c.length) i)) s) 0

/-- `single_compute_sdp_rf`, cyext_acv.pyx:5803-5873: one product for classifiers (5865), two for regressors (5870). -/
def sdpRfRnd (rnd : ℚ → ℚ) (mems : List Mem) (S : List Nat) (x : Row) (yx : ℚ) (data : Nat → Row) (y : Nat → ℚ) (minSize maxDepth N : Nat)
    (classifier : Bool) (t : ℚ × ℚ) : ℚ :=
  cellSumRnd rnd (cellsSet mems S x data minSize maxDepth N) fun w i =>
    if classifier then rnd (w * ind (decide (yx = y i))) else rnd (rnd (w * ind (decide (t.1 ≤ y i))) * ind (decide (y i ≤ t.2)))

/-- `single_compute_ddp_rf`, cyext_acv.pyx:5900-5972: the second factor is an integer. -/
def ddpRfRnd (rnd : ℚ → ℚ) (mems : List Mem) (S : List Nat) (x : Row) (yx : ℚ) (data : Nat → Row) (y : Nat → ℚ) (minSize maxDepth N : Nat)
    (classifier : Bool) (t : ℚ × ℚ) : ℚ :=
  cellSumRnd rnd (cellsSet mems S x data minSize maxDepth N) fun w i =>
    rnd (w * if classifier then ind (decide (yx ≠ y i)) else 1 - ind (decide (t.1 ≤ y i)) * ind (decide (y i ≤ t.2)))

/-- `single_compute_exp_rf`, cyext_acv.pyx:4242-4313. -/
def expRfRnd (rnd : ℚ → ℚ) (mems : List Mem) (S : List Nat) (x : Row) (data : Nat → Row) (y : Nat → ℚ) (minSize maxDepth N : Nat) : ℚ :=
  cellSumRnd rnd (cellsSet mems S x data minSize maxDepth N) fun w i => rnd (w * y i)

/-- `single_compute_cdf_rf`, cyext_acv.pyx:4515-4570. -/
def cdfRfRnd (rnd : ℚ → ℚ) (mems : List Mem) (S : List Nat) (x : Row) (data : Nat → Row) (y : Nat → ℚ) (minSize maxDepth N : Nat) (t : ℚ) : ℚ :=
  cellSumRnd rnd (cellsVec mems S x data minSize maxDepth N) fun w i => rnd (w * ind (decide (y i ≤ t)))

/-- `w[i] += 1./(n_trees*in_data.size())` for the rows of every cell, cyext_acv.pyx:5303-5316. -/
def ruleWeightsRnd (rnd : ℚ → ℚ) (mems : List Mem) (S : List Nat) (x : Row) (data : Nat → Row) (minSize maxDepth N : Nat) (i : Nat) : ℚ :=
  let cells := cellsSet mems S x data minSize maxDepth N
  cells.foldl (fun s c => c.foldl (fun s j => if j = i then rnd (s + cellWeightRnd rnd cells.length c.length) else s) s) 0

/-- What a leaf adds in `compute_exp`, cyext_acv.pyx:55-80: `(lm * values[..]) / p_ss if p_ss != 0 else 0`, the counters being unsigned integers. -/
def expAddRnd (rnd : ℚ → ℚ) (t : TreeArr) (m : Nat) (data : List Row) (S : List Nat) (X : List Row) (leaf i : Nat) : Option (Nat → ℚ) :=
  match t.leafIdx[leaf]?, X[i]? with
  | some ℓ, some x =>
    let r := t.leafRect ℓ
    if satCC r S x then some fun q =>
      if cnt data r S ≠ 0 then rnd (rnd (rnd (cntCC data r (List.range m)) * t.value ℓ q) / rnd (cnt data r S)) else 0
    else none
  | _, _ => none

/-- `compute_exp`, cyext_acv.pyx:29-87, with a rounding, under given interleavings: the leaf loops, then `mean_forest[i, j] += mean_forest_b[leaf_numb, i, j]`
for all leaves (82-85). -/
def expParallelRnd (rnd : ℚ → ℚ) (ts : List TreeArr) (m : Nat) (data : List Row) (S : List Nat) (X : List Row) (d maxLeaves : Nat)
    (scheds : List (List Nat)) : (Nat → Nat → ℚ) × List (Conf ACell) :=
  let out := accTreesM (roundMachine rnd) X.length d (ts.map fun t => (0, t.leafIdx.length, expAddRnd rnd t m data S X)) scheds (fun _ => 0)
  (fun i k => (List.range maxLeaves).foldl (fun s leaf => rnd (s + out.1 ⟨0, leaf, i, k⟩)) 0, out.2)

end Acv
