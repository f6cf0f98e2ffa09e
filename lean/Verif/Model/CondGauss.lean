import Mathlib.LinearAlgebra.Matrix.Adjugate
import Mathlib.LinearAlgebra.Matrix.NonsingularInverse
import Mathlib.Data.Rat.Defs
import Mathlib.Algebra.Field.Rat

/-!
# Conditional and marginal Gaussian parameters, /repo/acv_explainers/utils.py:274-306

Simplifications: exact arithmetic; `np.linalg.inv` raises exactly when the determinant is 0; the indices in `set_bar` and `set` are valid; `x`
has one value for each column of `set`. The draws of `st.multivariate_normal` are not modelled. `sampleMarMVN` (303-306) is not modelled: it
calls `marMVN` without its argument `x`, a `TypeError`.
-/

namespace Acv

/-- `cov[rows][:, cols]`, utils.py:278-283. -/
def subCov (cov : Nat → Nat → ℚ) (rows cols : List Nat) : Matrix (Fin rows.length) (Fin cols.length) ℚ := fun i j => cov rows[i] cols[j]

/-- `np.linalg.inv`, utils.py:279, 282: `none` is `LinAlgError`. -/
def npInv {n : Nat} (A : Matrix (Fin n) (Fin n) ℚ) : Option (Matrix (Fin n) (Fin n) ℚ) :=
  if A.det = 0 then none else some (A.det⁻¹ • A.adjugate)

/-- `condMVN(mean, cov, set_bar, set, x)`, utils.py:274-286, on `d` columns: mean vector and covariance matrix. -/
def condMVN (d : Nat) (mean : Nat → ℚ) (cov : Nat → Nat → ℚ) (bar set : List Nat) (x : Nat → ℚ) : Option (List ℚ × List (List ℚ)) :=
  if set = [] then some ((List.range d).map mean, (List.range d).map fun i => (List.range d).map (cov i))
  else (npInv (subCov cov set set)).map fun A =>
    let B := subCov cov bar set * A
    let mc := fun k : Fin bar.length => mean bar[k] + (B.mulVec fun s : Fin set.length => x s - mean set[s]) k
    let cc := subCov cov bar bar - B * subCov cov set bar
    (List.ofFn mc, List.ofFn fun k => List.ofFn (cc k))

/-- `marMVN(mean, cov, set_bar, set, x)`, utils.py:289-295; `x` is not used. -/
def marMVN (d : Nat) (mean : Nat → ℚ) (cov : Nat → Nat → ℚ) (bar set : List Nat) : List ℚ × List (List ℚ) :=
  if set = [] then ((List.range d).map mean, (List.range d).map fun i => (List.range d).map (cov i))
  else (bar.map mean, bar.map fun i => bar.map (cov i))

/-- The shape of what `sampleMVN(n, ...)` returns, utils.py:298-300: `none` when the parameters raise or the `n * len(mean)` draws cannot be
reshaped to `(n, len(set_bar))`. -/
def sampleShape (n d : Nat) (mean : Nat → ℚ) (cov : Nat → Nat → ℚ) (bar set : List Nat) (x : Nat → ℚ) : Option (Nat × Nat) :=
  (condMVN d mean cov bar set x).bind fun p => if n * p.1.length = n * bar.length then some (n, bar.length) else none

end Acv
