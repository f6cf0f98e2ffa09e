import Verif.Model.ParallelMachine
import Verif.Model.CombDouble

/-!
# Predictions and Shapley values with rounding

The C++ loop of `dense_tree_predict` (/repo/acv_explainers/cext_acv/acv_tree.h:247-283, `tfloat` is `double`, acv_tree.h:12) and the Cython routine
`shap_values_leaves_pa` (/repo/acv_explainers/cyext_acv/cyext_acv.pyx:1272-1485) with a rounding after every operation.

Simplifications: the exponent is unbounded, so there is no overflow to infinity and no underflow; the compiler neither fuses nor reorders operations
(x86-64 without `-ffast-math`); the inputs (leaf values, offsets) are given as the numbers the arrays hold.
-/

namespace Acv

/-- Rounding to a `double`, to nearest, ties to even, of either sign. -/
def roundDouble (q : ℚ) : ℚ := if q < 0 then - toDouble (-q) else toDouble q

/-- The arithmetic that rounds the exact result of every operation with `rnd`. -/
def roundMachine (rnd : ℚ → ℚ) : Machine ℚ :=
  ⟨fun n => rnd n, fun a b => rnd (a + b), fun a b => rnd (a - b), fun a b => rnd (a * b), fun a b => rnd (a / b), fun v => decide (v ≠ 0)⟩

/-- `binomialC`, cyext_acv.pyx:3994-3998, with a rounding. -/
def binomialRnd (rnd : ℚ → ℚ) (N k : Nat) : ℚ :=
  let r := combRnd rnd N k
  if r ≠ 0 then r else 0

/-- The loop for `coef`, cyext_acv.pyx:1462-1464, with a rounding. -/
def coefLoopRnd (rnd : ℚ → ℚ) (m setSize vaSize : Nat) : ℚ :=
  (List.range' 1 (m - setSize - 1)).foldl
    (fun coef l => if binomialRnd rnd (m - 1) (l + vaSize) ≠ 0 then
        rnd (coef + rnd (rnd (1 * binomialRnd rnd (m - setSize - 1) l) / binomialRnd rnd (m - 1) (l + vaSize)))
      else 0) 0

/-- `coef_0`, cyext_acv.pyx:1466, with a rounding. -/
def coefZeroRnd (rnd : ℚ → ℚ) (m vaSize : Nat) : ℚ :=
  if binomialRnd rnd (m - 1) vaSize ≠ 0 then rnd (1 / binomialRnd rnd (m - 1) vaSize) else 0

/-- `shap_values_leaves_pa`, cyext_acv.pyx:1272-1485, with a rounding after every operation: value of column `j`, output `k`. One leaf after the other;
every interleaving of the leaves gives the same (`C13_shapley_any_arithmetic`). `mem` is what the scratch tables contain before. -/
def shapRnd (rnd : ℚ → ℚ) (ts : List TreeArr) (m : Nat) (data : List Row) (C : List (List Nat)) (x : Row) (j k maxLeaves scaling : Nat)
    (mem : LCell → ℚ) : ℚ :=
  shapSequentialM (roundMachine rnd) (coefZeroRnd rnd) (coefLoopRnd rnd) m data C x j maxLeaves scaling (ts.map fun t => (t, fun ℓ => t.value ℓ k)) mem 0

/-- Output `k` of `dense_tree_predict` for one row, acv_tree.h:247-283, with a rounding: `out` starts at 0, the offset is added, then one leaf value per
tree. -/
def Packed.predictRnd (rnd : ℚ → ℚ) (p : Packed) (treeLimit : Nat) (base : Nat → ℚ) (x : Obs) (k : Nat) : Option ℚ :=
  (List.range treeLimit).foldlM (init := rnd (0 + base k)) fun acc j =>
    (p.walk x (j * p.maxNodes) p.maxNodes 0).map fun pos => rnd (acc + p.value pos k)

/-- `BaseTree.predict`, /repo/acv_explainers/base_tree.py:710-775 (not pyspark, one row, output `k`), with a rounding. -/
def ensemblePredictRnd (rnd : ℚ → ℚ) (ts : List TreeArr) (dfltLimit arg : Option Int) (base : Nat → ℚ) (x : Obs) (k : Nat) : Option ℚ :=
  (pack ts).predictRnd rnd (effLimit (pack ts).numTrees dfltLimit arg) base x k

end Acv
