import Verif.Model.LeafShap

/-!
# Conditional expectations and same decision probabilities of a tree ensemble

Models `compute_exp`, `compute_exp_cat` (/repo/acv_explainers/utils_exp.py:6-72 and
/repo/acv_explainers/cyext_acv/cyext_acv.pyx:29-229) and `compute_sdp_clf`, `compute_sdp_clf_cat`
(/repo/acv_explainers/utils_sdp.py:237-364 and cyext_acv.pyx:238-453).

Simplifications: exact rationals, one observation and one output at a time, `+=` accumulations are list sums.
-/

namespace Acv

/-- The test `z[s] <= part[s,1] and z[s] >= part[s,0]` for all columns of a list (closed on both sides),
utils_exp.py:20,25,27; cyext_acv.pyx:62 (data), 75 (`o_all > 0` is the negation, for `x`). -/
def satCC (r : Rect) (S : List Nat) (z : Row) : Bool := S.all fun s => (r s).memCC (z s)

/-- Number of rows passing the closed test, utils_exp.py:25-30. -/
def cntCC (data : List Row) (r : Rect) (S : List Nat) : Nat := (data.filter (satCC r S)).length

/-- `a / b if b != 0 else 0`, cyext_acv.pyx:80 and everywhere below. -/
def guardDiv (a b : ℚ) : ℚ := if b ≠ 0 then a / b else 0

/-- Sum over all leaves of all trees of a term depending on the rectangle and the value of the leaf for output `k`
(the loops `for b`, `for leaf_numb`, utils_exp.py:13-18; cyext_acv.pyx:52-54, 82-85). -/
def sumLeaves (ts : List TreeArr) (k : Nat) (f : Rect → ℚ → ℚ) : ℚ :=
  (ts.map fun t => (t.leafIdx.map fun ℓ => f (t.leafRect ℓ) (t.value ℓ k)).sum).sum

/-- Python `compute_exp`, utils_exp.py:6-38, behind `ACVTree.py_compute_exp`. With `S == []`, `np.prod([], axis=0)` is a
scalar and `leaf_bool[i]` (line 32) raises. -/
def expPy (ts : List TreeArr) (m : Nat) (data : List Row) (S : List Nat) (x : Row) (k : Nat) : Except String ℚ :=
  if S = [] then .error "IndexError: invalid index to scalar variable"
  else .ok (sumLeaves ts k fun r v =>
    if satCC r S x then guardDiv (cntCC data r (List.range m) * v) (cntCC data r S) else 0)

/-- Cython `compute_exp`, cyext_acv.pyx:29-87, behind `ACVTree.compute_exp`: the count of rows in the leaf is closed
(line 62), the count on `S` is open on the left (line 65), the test on `x` is closed (line 75). -/
def expCy (ts : List TreeArr) (m : Nat) (data : List Row) (S : List Nat) (x : Row) (k : Nat) : ℚ :=
  sumLeaves ts k fun r v =>
    if satCC r S x then guardDiv (cntCC data r (List.range m) * v) (cnt data r S) else 0

/-- `data[j, S[s]] == X[i, S[s]]` for all `s`, cyext_acv.pyx:212-213, 287-289. -/
def eqOn (S : List Nat) (x z : Row) : Bool := S.all fun s => decide (z s = x s)

/-- Cython `compute_exp_cat`, cyext_acv.pyx:170-229, behind `ACVTree.compute_exp_cat`: all interval tests are open on the
left, conditioning is by equality on `S`. -/
def expCatCy (ts : List TreeArr) (m : Nat) (data : List Row) (S : List Nat) (x : Row) (k : Nat) : ℚ :=
  sumLeaves ts k fun r v =>
    if sat r S x then
      guardDiv (((data.filter fun z => eqOn S x z && sat r (List.range m) z).length : ℚ) * v)
        (data.filter fun z => eqOn S x z).length
    else 0

/-- `sdp * (0 <= sdp) * (sdp <= 1) + np.ones(N) * (sdp > 1) + np.zeros(N) * (sdp < 0)`, utils_sdp.py:362;
cyext_acv.pyx:327-332. -/
def clamp01 (s : ℚ) : ℚ :=
  s * (if 0 ≤ s then 1 else 0) * (if s ≤ 1 then 1 else 0) + (if 1 < s then 1 else 0)

/-- Python `compute_sdp_clf`, utils_sdp.py:302-364, behind `ACVTree.py_compute_sdp_clf`. `lab` is the class predicted by
the model (`np.argmax(model.predict(..))`), an arbitrary function here. -/
def sdpClfPy (ts : List TreeArr) (m : Nat) (lab : Row → Nat) (data : List Row) (S : List Nat) (x : Row) : ℚ :=
  if S.length = m then 1 else if S = [] then 0 else
  let up := data.filter fun z => lab z = lab x
  let down := data.filter fun z => lab z ≠ lab x
  let mean := fun rows => sumLeaves ts (lab x) fun r v =>
    if satCC r S x then guardDiv (cntCC rows r (List.range m) * v) (cntCC rows r S) else 0
  clamp01 (guardDiv (mean data - mean down) (mean up - mean down))

/-- Cython `compute_sdp_clf`, cyext_acv.pyx:341-453, behind `ACVTree.compute_sdp_clf`: the three means are normalised tree
by tree (lines 430-449) and the quotient is returned as it is (line 451). -/
def sdpClfCy (ts : List TreeArr) (m : Nat) (lab : Row → Nat) (data : List Row) (S : List Nat) (x : Row) : ℚ :=
  if S.length = m then 1 else if S = [] then 0 else
  let up := data.filter fun z => lab x = lab z
  let down := data.filter fun z => ¬ lab x = lab z
  let tree := fun (rows : List Row) (t : TreeArr) =>
    let n := (t.leafIdx.map fun ℓ =>
      if satCC (t.leafRect ℓ) S x then
        guardDiv (cntCC rows (t.leafRect ℓ) (List.range m)) (cntCC rows (t.leafRect ℓ) S) else 0).sum
    (t.leafIdx.map fun ℓ => guardDiv
      (if satCC (t.leafRect ℓ) S x then
        guardDiv (cntCC rows (t.leafRect ℓ) (List.range m) * t.value ℓ (lab x)) (cntCC rows (t.leafRect ℓ) S) else 0) n).sum
  let mean := fun rows => (ts.map (tree rows)).sum
  guardDiv (mean data - mean down) (mean up - mean down)

/-- `compute_sdp_clf_cat`: Cython, cyext_acv.pyx:238-334, behind `ACVTree.compute_sdp_clf_cat`, and Python,
utils_sdp.py:237-299 (the two files contain the same computation). Conditioning is by equality on `S`, the leaf tests are
closed. -/
def sdpClfCat (ts : List TreeArr) (m : Nat) (lab : Row → Nat) (data : List Row) (S : List Nat) (x : Row) : ℚ :=
  if S.length = m then 1 else if S = [] then 0 else
  let rowsS := data.filter (eqOn S x)
  let up := rowsS.filter fun z => lab x = lab z
  let down := rowsS.filter fun z => ¬ lab x = lab z
  let mean := fun rows => sumLeaves ts (lab x) fun r v =>
    if satCC r S x then guardDiv (cntCC rows r (List.range m) * v) rows.length else 0
  clamp01 (guardDiv (mean rowsS - mean down) (mean up - mean down))

end Acv
