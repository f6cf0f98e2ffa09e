import Verif.Model.TreeSdp
import Verif.Model.Search

/-!
# Same decision probability of a regression ensemble

Models `compute_sdp_reg_cat` and `compute_sdp_reg` (Python: /repo/acv_explainers/utils_sdp.py:7-234; Cython:
/repo/acv_explainers/cyext_acv/cyext_acv.pyx:464-840) and the searches `global_sdp_reg_cat`, `global_sdp_reg`
(cyext_acv.pyx:846-1265).

`y` is `model.predict`, an arbitrary function here (acv_tree.py:548-549, 557-558). Leaf values are read for output 0.
Simplifications: exact rationals, `+=` accumulations are list sums; the `prange` loops write each cell from one iteration only and
are read as ordinary loops.
-/

namespace Acv

/-- `(fX[i] - y_pred[j])*(fX[i] - y_pred[j]) > tX`, cyext_acv.pyx:550, 755; `dist > tX`, utils_sdp.py:48. -/
def farOut (tX fx yz : ℚ) : Bool := decide (tX < (fx - yz) * (fx - yz))

/-- `for b in range(n_trees): for l in range(n_trees): if b == l: ... else: ...`, cyext_acv.pyx:706-708, 770; utils_sdp.py:21-23, 68. -/
def sumTreePairs (ts : List TreeArr) (diag : TreeArr → ℚ) (off : TreeArr → TreeArr → ℚ) : ℚ :=
  (ts.zipIdx.map fun p => (ts.zipIdx.map fun q => if p.2 = q.2 then diag p.1 else off p.1 q.1).sum).sum

/-- Rows in two leaves: all comparisons `data[i, s] <= leaf_part[s, 1] ...` for both leaves, cyext_acv.pyx:790-795; utils_sdp.py:88-94. -/
def cntCC2 (rows : List Row) (r r' : Rect) (S : List Nat) : Nat := (rows.filter fun z => satCC r S z && satCC r' S z).length

/-- What one leaf adds on the diagonal: `(p*value*value)/n - (2*fX*p*value)/n if n != 0 else 0`, cyext_acv.pyx:767, 557;
utils_sdp.py:55-56. -/
def regDiag (p n fx v : ℚ) : ℚ := if n ≠ 0 then p * v * v / n - 2 * fx * p * v / n else 0

/-- What two leaves add off the diagonal: `(p*value*value_l)/n if n != 0 else 0`, cyext_acv.pyx:833, 622; utils_sdp.py:108-109. -/
def regOff (p n v v' : ℚ) : ℚ := if n ≠ 0 then p * v * v' / n else 0

/-! ## The discrete estimator -/

/-- `mean_forest[i, g]` for one group `rows` of the background rows that equal `x` on `S`, cyext_acv.pyx:706-835;
utils_sdp.py:143-229. Leaves that `x` leaves on `S` are skipped (`o_all > 0`, `leaf_bool[i] == 0`). -/
def regCatMean (ts : List TreeArr) (m : Nat) (S : List Nat) (x : Row) (fx : ℚ) (rows : List Row) : ℚ :=
  sumTreePairs ts
    (fun t => (t.leafIdx.map fun ℓ =>
      if satCC (t.leafRect ℓ) S x then regDiag (cntCC rows (t.leafRect ℓ) (List.range m)) rows.length fx (t.value ℓ 0) else 0).sum)
    (fun t t' => (t.leafIdx.map fun ℓ => (t'.leafIdx.map fun ℓ' =>
      if satCC (t.leafRect ℓ) S x && satCC (t'.leafRect ℓ') S x then
        regOff (cntCC2 rows (t.leafRect ℓ) (t'.leafRect ℓ') (List.range m)) rows.length (t.value ℓ 0) (t'.value ℓ' 0) else 0).sum).sum)

/-- Cython `compute_sdp_reg_cat`, cyext_acv.pyx:679-840, behind `ACVTree.compute_sdp_reg_cat`: the quotient is returned as it is
(line 838). -/
def sdpRegCatCy (ts : List TreeArr) (m : Nat) (y : Row → ℚ) (tX : ℚ) (data : List Row) (S : List Nat) (x : Row) : ℚ :=
  let rowsS := data.filter (eqOn S x)
  let a := regCatMean ts m S x (y x) rowsS
  let u := regCatMean ts m S x (y x) (rowsS.filter fun z => farOut tX (y x) (y z))
  let d := regCatMean ts m S x (y x) (rowsS.filter fun z => !farOut tX (y x) (y z))
  guardDiv (u - a) (u - d)

/-- Python `compute_sdp_reg_cat`, utils_sdp.py:126-234, behind `ACVTree.py_compute_sdp_reg_cat`: 1 for all columns, 0 for none,
and the quotient is clamped (line 234). -/
def sdpRegCatPy (ts : List TreeArr) (m : Nat) (y : Row → ℚ) (tX : ℚ) (data : List Row) (S : List Nat) (x : Row) : ℚ :=
  if S.length = m then 1 else if S = [] then 0 else clamp01 (sdpRegCatCy ts m y tX data S x)

/-! ## The leaf estimator -/

/-- `mean_forest[i, g]` of the Python `compute_sdp_reg`, utils_sdp.py:21-117, for one group of background rows: the rows are
conditioned on `S` through the leaves. -/
def regLeafMean (ts : List TreeArr) (m : Nat) (S : List Nat) (x : Row) (fx : ℚ) (rows : List Row) : ℚ :=
  sumTreePairs ts
    (fun t => (t.leafIdx.map fun ℓ =>
      if satCC (t.leafRect ℓ) S x then
        regDiag (cntCC rows (t.leafRect ℓ) (List.range m)) (cntCC rows (t.leafRect ℓ) S) fx (t.value ℓ 0) else 0).sum)
    (fun t t' => (t.leafIdx.map fun ℓ => (t'.leafIdx.map fun ℓ' =>
      if satCC (t.leafRect ℓ) S x && satCC (t'.leafRect ℓ') S x then
        regOff (cntCC2 rows (t.leafRect ℓ) (t'.leafRect ℓ') (List.range m)) (cntCC2 rows (t.leafRect ℓ) (t'.leafRect ℓ') S)
          (t.value ℓ 0) (t'.value ℓ' 0) else 0).sum).sum)

/-- Python `compute_sdp_reg`, utils_sdp.py:7-123, behind `ACVTree.py_compute_sdp_reg`. -/
def sdpRegPy (ts : List TreeArr) (m : Nat) (y : Row → ℚ) (tX : ℚ) (data : List Row) (S : List Nat) (x : Row) : ℚ :=
  if S.length = m then 1 else if S = [] then 0 else
  let a := regLeafMean ts m S x (y x) data
  let u := regLeafMean ts m S x (y x) (data.filter fun z => farOut tX (y x) (y z))
  let d := regLeafMean ts m S x (y x) (data.filter fun z => !farOut tX (y x) (y z))
  clamp01 (guardDiv (u - a) (u - d))

/-- The cells of tree `b` for one observation and one group of rows: `p_n[b, leaf, leaf_l, i]` and
`mean_forest_b[b, leaf, leaf_l, i, g]`, cyext_acv.pyx:503-628. The arrays have no index for the second tree: the diagonal
(`b == l`, lines 557-563) and every other tree (lines 622-628) are added to the same cells. `m` is the number of columns tested for
membership in a leaf. -/
structure RegCells where
  p : Nat → Nat → ℚ
  mean : Nat → Nat → ℚ

/-- The leaf with number `j` of a tree, `leaf_idx_trees[b, j]`; only read for `j < leaves_nb[b]`. -/
def leafNo (t : TreeArr) (j : Nat) : Nat := t.leafIdx.getD j 0

/-- The cells of tree `b`, cyext_acv.pyx:503-628. -/
def regCells (ts : List TreeArr) (m : Nat) (S : List Nat) (x : Row) (fx : ℚ) (rows : List Row) (t : TreeArr) (b : Nat) : RegCells where
  p := fun j j' =>
    (ts.zipIdx.map fun q =>
      if b = q.2 then
        if j = j' ∧ j < t.leafIdx.length then
          (let r := t.leafRect (leafNo t j)
          if satCC r S x then guardDiv (cntCC rows r (List.range m)) (cntCC rows r S) else 0) else 0
      else if j < t.leafIdx.length ∧ j' < q.1.leafIdx.length then
          (let r := t.leafRect (leafNo t j)
          let r' := q.1.leafRect (leafNo q.1 j')
          if satCC r S x && satCC r' S x then guardDiv (cntCC2 rows r r' (List.range m)) (cntCC2 rows r r' S) else 0) else 0).sum
  mean := fun j j' =>
    (ts.zipIdx.map fun q =>
      if b = q.2 then
        if j = j' ∧ j < t.leafIdx.length then
          (let r := t.leafRect (leafNo t j)
          if satCC r S x then regDiag (cntCC rows r (List.range m)) (cntCC rows r S) fx (t.value (leafNo t j) 0) else 0) else 0
      else if j < t.leafIdx.length ∧ j' < q.1.leafIdx.length then
          (let r := t.leafRect (leafNo t j)
          let r' := q.1.leafRect (leafNo q.1 j')
          if satCC r S x && satCC r' S x then
            regOff (cntCC2 rows r r' (List.range m)) (cntCC2 rows r r' S) (t.value (leafNo t j) 0) (q.1.value (leafNo q.1 j') 0)
          else 0) else 0).sum

/-- One pair of trees of the loop cyext_acv.pyx:633-667 for one group: the state is the array `norm`, shared by all
observations, and the accumulator `ss`. `norm[b]` is written when `b == l` and read for all `l`. -/
def regPair (c : RegCells) (b nb : Nat) (l nbl : Nat) (st : (Nat → ℚ) × ℚ) : (Nat → ℚ) × ℚ :=
  if b = l then
    let n := ((List.range nb).map fun j => c.p j j).sum
    let norm := fun k => if k = b then n else st.1 k
    (norm, st.2 + ((List.range nb).map fun j => if norm b ≠ 0 then c.mean j j / norm b else 0).sum)
  else
    (st.1, st.2 + ((List.range nb).map fun j =>
      let n := ((List.range nbl).map fun j' => c.p j j').sum
      ((List.range nbl).map fun j' =>
        if n * st.1 b ≠ 0 then c.p j j / st.1 b * (c.mean j j' / n) else 0).sum).sum)

/-- The loops over `b` and `l` for one observation and one group, cyext_acv.pyx:630-667. -/
def regGroup (ts : List TreeArr) (m : Nat) (S : List Nat) (x : Row) (fx : ℚ) (rows : List Row) (norm : Nat → ℚ) : (Nat → ℚ) × ℚ :=
  ts.zipIdx.foldl (fun st p =>
    ts.zipIdx.foldl (fun st q =>
      regPair (regCells ts m S x fx rows p.1 p.2) p.2 p.1.leafIdx.length q.2 q.1.leafIdx.length st) st) (norm, 0)

/-- The arrays `norm`, `norm_u`, `norm_d`, cyext_acv.pyx:487-490. -/
structure Norms where
  a : Nat → ℚ
  u : Nat → ℚ
  d : Nat → ℚ

/-- `np.zeros((n_trees))`, cyext_acv.pyx:488-490. -/
def Norms.zero : Norms := ⟨fun _ => 0, fun _ => 0, fun _ => 0⟩

/-- One observation of the final loop, cyext_acv.pyx:629-670: the new arrays and `sdp[i]`. -/
def regObs (ts : List TreeArr) (m : Nat) (y : Row → ℚ) (tX : ℚ) (data : List Row) (S : List Nat) (N : Norms) (x : Row) : Norms × ℚ :=
  let a := regGroup ts m S x (y x) data N.a
  let u := regGroup ts m S x (y x) (data.filter fun z => farOut tX (y x) (y z)) N.u
  let d := regGroup ts m S x (y x) (data.filter fun z => !farOut tX (y x) (y z)) N.d
  (⟨a.1, u.1, d.1⟩, guardDiv (u.2 - a.2) (u.2 - d.2))

/-- The final loop over the observations, cyext_acv.pyx:629-670. -/
def regLoop (ts : List TreeArr) (m : Nat) (y : Row → ℚ) (tX : ℚ) (data : List Row) (S : List Nat) : Norms → List Row → List ℚ
  | _, [] => []
  | N, x :: X => let r := regObs ts m y tX data S N x
    r.2 :: regLoop ts m y tX data S r.1 X

/-- Cython `compute_sdp_reg`, cyext_acv.pyx:464-672, behind `ACVTree.compute_sdp_reg`: the result for the observations `X`. -/
def sdpRegCy (ts : List TreeArr) (m : Nat) (y : Row → ℚ) (tX : ℚ) (data : List Row) (S : List Nat) (X : List Row) : List ℚ :=
  regLoop ts m y tX data S Norms.zero X

/-! ## Searches -/

/-- The loop of `global_sdp_reg_cat` and `global_sdp_reg`, cyext_acv.pyx:893-965, 1020-1265: sizes are read from `power_cpp[s_0]`,
the probability is written directly for `R_buf[i]`. `none`: out-of-bounds read of `power_cpp`. All groups of `C` are players; here
an empty group is dropped. -/
def globalSdpReg (sdp : Nat → List Nat → ℚ) (N cols : Nat) (C : List (List Nat)) (pi : ℚ) (minimal : Nat)
    (stop : Bool) (half : Nat) : Option Batch :=
  (levelsRf (searchPlayers C (List.range cols)) minimal).map fun levels =>
    searchLoop id (fun R S => R.map fun i => sdp i S) cols pi stop half levels (Batch.init N)

/-- `ACVTree.importance_sdp_reg_cat`, acv_tree.py:592-598 and cyext_acv.pyx:846-965, for the observations `X`. -/
def importanceSdpRegCat (ts : List TreeArr) (y : Row → ℚ) (tX : ℚ) (data : List Row) (X : List Row) (cols : Nat)
    (C : List (List Nat)) (pi : ℚ) (minimal : Nat) (stop : Bool) (half : Nat) : Option Batch :=
  globalSdpReg (fun i S => sdpRegCatCy ts cols y tX data S (X.getD i fun _ => 0)) X.length cols C pi minimal stop half

/-- The probability that `global_sdp_reg` (cyext_acv.pyx:968-1265) computes for one set of columns with a single tree. After
`m = len(va_id)` (line 1031) the loops `for s in range(m)` (lines 1087, 1152) test the first `len(va_id)` columns only. With several
trees it also depends on the arrays `norm` left by earlier sets and observations: see `Verif/Model/SearchReg.lean`. -/
def globalRegValue (t : TreeArr) (y : Row → ℚ) (tX : ℚ) (data : List Row) (cols : Nat) (C : List (List Nat)) (S : List Nat) (x : Row) : ℚ :=
  (sdpRegCy [t] (searchPlayers C (List.range cols)).length y tX data S [x]).headD 0

/-- `ACVTree.importance_sdp_reg` for a single tree, acv_tree.py:600-607. -/
def importanceSdpReg1 (t : TreeArr) (y : Row → ℚ) (tX : ℚ) (data : List Row) (X : List Row) (cols : Nat)
    (C : List (List Nat)) (pi : ℚ) (minimal : Nat) (stop : Bool) (half : Nat) : Option Batch :=
  globalSdpReg (fun i S => globalRegValue t y tX data cols C S (X.getD i fun _ => 0)) X.length cols C pi minimal stop half

end Acv
