import Verif.Model.LeafCache
import Verif.Model.TreeSdp
import Verif.Model.LeafShapPy

/-!
# Normalised conditional expectations and their Shapley values

Models `compute_exp_normalized` (/repo/acv_explainers/cyext_acv/cyext_acv.pyx:96-165), behind `ACVTree.compute_exp_normalized`;
`shap_values_leaves_normalized` (cyext_acv.pyx:1492-1749), behind `ACVTree.shap_values_normalized`; its cached version
`leaves_cache_normalized` and `shap_values_leaves_normalized_cache` (/repo/acv_explainers/cyext_acv/cyext_acv_cache.pyx:410-795);
and the two enumerating versions `shap_values_leaves_notoptimized`, `shap_values_discrete_notoptimized`
(/repo/acv_explainers/py_acv.py:652-727), behind `ACVTree.py_shap_values_notoptimized` and
`ACVTree.py_shap_values_discrete_notoptimized` (/repo/acv_explainers/acv_tree.py:520-526).

Simplifications: exact rationals; one observation, one output and one column at a time; accumulations are list sums; NaN is `none`.
-/

namespace Acv

/-- The contribution of one tree, cyext_acv.pyx:122-163. `p_n` of a leaf that fits the observation is `(1.*lm)/p_ss` without a guard
(line 149): with `p_ss == 0` it is NaN if `lm == 0`, which makes `z` and every quotient of the tree NaN, and infinite otherwise, which
makes every quotient of the tree 0. The count `lm` is closed (line 131), `p_ss` is open on the left (line 134), the test on the
observation is closed (line 144). -/
def expNormTree (t : TreeArr) (m : Nat) (data : List Row) (S : List Nat) (x : Row) (k : Nat) : Option ℚ :=
  let fits := t.leafIdx.filter fun ℓ => satCC (t.leafRect ℓ) S x
  let lm := fun ℓ => cntCC data (t.leafRect ℓ) (List.range m)
  let pss := fun ℓ => cnt data (t.leafRect ℓ) S
  if fits.any fun ℓ => decide (pss ℓ = 0 ∧ lm ℓ = 0) then none
  else if fits.any fun ℓ => decide (pss ℓ = 0) then some 0
  else
    let z : ℚ := (fits.map fun ℓ => (lm ℓ : ℚ) / pss ℓ).sum
    some (fits.map fun ℓ => guardDiv (guardDiv ((lm ℓ : ℚ) * t.value ℓ k) (pss ℓ)) z).sum

/-- `compute_exp_normalized`, cyext_acv.pyx:96-165: output `k`. -/
def expNormCy (ts : List TreeArr) (m : Nat) (data : List Row) (S : List Nat) (x : Row) (k : Nat) : Option ℚ :=
  osum (ts.map fun t => expNormTree t m data S x k)

/-! ## Shapley values -/

/-- The loop `n = n + (c * lm) / den if den != 0 else 0` over the leaves of a tree, cyext_acv.pyx:1707, 1732-1733 (cache: 585, 614-615).
The conditional expression takes the whole right-hand side, so a leaf with `den == 0` sets the accumulator back to 0. An entry is
`(c, lm, den)`. -/
def runningNorm (l : List (ℚ × ℚ × ℚ)) : ℚ :=
  l.foldl (fun n q => if q.2.2 ≠ 0 then n + q.1 * q.2.1 / q.2.2 else 0) 0

/-- `(c * lm)/(den * n) if n * den != 0 else 0`, cyext_acv.pyx:1709, 1735-1736 (cache: 591, 620-621). -/
def normProb (own : ℚ × ℚ × ℚ) (all : List (ℚ × ℚ × ℚ)) : ℚ :=
  let n := runningNorm all
  if n * own.2.2 ≠ 0 then own.1 * own.2.1 / (own.2.2 * n) else 0

/-- `(coef_0 + coef) * (p_si - p_s)`, cyext_acv.pyx:1634-1740, for the leaf with rectangle `r`; `rs` are the rectangles of all leaves of
the tree. -/
def normTerm (m : Nat) (data : List Row) (rs : List Rect) (r : Rect) (x : Row) (va : List Nat) (rest : List (List Nat)) (counter : Nat) : ℚ :=
  let sel := maskSel rest counter
  let S := sel.flatten
  let vaSize := sel.length
  let s := fun q : Rect => ((if sat q S x then 1 else 0 : ℚ), (cnt data q (List.range m) : ℚ), (cnt data q S : ℚ))
  let si := fun q : Rect => ((if sat q S x && sat q va x then 1 else 0 : ℚ), (cnt data q (List.range m) : ℚ),
    ((data.filter fun z => sat q S z && sat q va z).length : ℚ))
  let pS := if S.length = 0 then (cnt data r (List.range m) : ℚ) / data.length else normProb (s r) (rs.map s)
  let pSi := normProb (si r) (rs.map si)
  (coefZero m vaSize + coefLoop m rest.length vaSize) * (pSi - pS)

/-- What one leaf adds to column `j` before multiplication by the leaf value, cyext_acv.pyx:1585-1740. -/
def normLeafPhi (m : Nat) (data : List Row) (C : List (List Nat)) (rs : List Rect) (r : Rect) (vars : List Nat) (x : Row) (j : Nat) : ℚ :=
  let node := leafPlayersCy m C vars
  ((playersCy m C).map fun va =>
    if va ∈ node then
      let rest := node.erase va
      ((List.range (2 ^ rest.length)).map fun counter => (va.count j : ℚ) * normTerm m data rs r x va rest counter).sum
    else 0).sum

/-- `shap_values_leaves_normalized`, cyext_acv.pyx:1492-1749: value of column `j`, output `k`. -/
def shapNorm (ts : List TreeArr) (m : Nat) (data : List Row) (C : List (List Nat)) (x : Row) (j k : Nat) : ℚ :=
  (ts.map fun t => (t.leafIdx.map fun ℓ =>
    normLeafPhi m data C (t.leafIdx.map t.leafRect) (t.leafRect ℓ) (t.leafCols ℓ) x j * t.value ℓ k).sum).sum / m

/-! ## Cached version -/

/-- The numpy test `(x < hi) * (x >= lo)` of the cached version, cyext_acv_cache.pyx:571, 578 (negated), 600, 607. -/
def Ival.memCO (i : Ival) (v : ℚ) : Bool :=
  (match i.hi with | none => true | some h => decide (v < h)) &&
  (match i.lo with | none => true | some l => decide (l ≤ v))

/-- The test for all columns of a list, cyext_acv_cache.pyx:570-574, 576-583. -/
def satCO (r : Rect) (S : List Nat) (z : Row) : Bool := S.all fun s => (r s).memCO (z s)

/-- The increments of one of the tables of `leaves_cache_normalized`, cyext_acv_cache.pyx:713-793, at the indices
`(b, va, leaf_numb, leaf_n, counter)`. `hit q S va z` says whether the row `z` is counted: all columns in the rectangle for `lm_n`
(770-775), the columns of `S` for `lm_s` (777-783), those of `S` and `va` for `lm_si` (785-792). -/
def cacheNorm (ts : List TreeArr) (m : Nat) (data : List Row) (C : List (List Nat)) (hit : Rect → List Nat → List Nat → Row → Bool) :
    List (Nat × Nat × Nat × Nat × Nat) :=
  ts.zipIdx.flatMap fun tb => tb.1.leafIdx.zipIdx.flatMap fun lf =>
    let node := leafPlayersCy m C (tb.1.leafCols lf.1)
    (playersCy m C).zipIdx.flatMap fun gv =>
      if gv.1 ∈ node then
        (List.range (2 ^ (node.erase gv.1).length)).flatMap fun counter =>
          tb.1.leafIdx.zipIdx.flatMap fun ln =>
            (data.filter fun z => hit (tb.1.leafRect ln.1) (maskSel (node.erase gv.1) counter).flatten gv.1 z).map
              fun _ => (tb.2, gv.2, lf.2, ln.2, counter)
      else []

/-- The three tables. -/
structure NormTables where
  lm : List (Nat × Nat × Nat × Nat × Nat)
  lmS : List (Nat × Nat × Nat × Nat × Nat)
  lmSi : List (Nat × Nat × Nat × Nat × Nat)

/-- `leaves_cache_normalized`, cyext_acv_cache.pyx:640-795. -/
def leavesCacheNorm (ts : List TreeArr) (m : Nat) (data : List Row) (C : List (List Nat)) : NormTables where
  lm := cacheNorm ts m data C fun q _ _ z => sat q (List.range m) z
  lmS := cacheNorm ts m data C fun q S _ z => sat q S z
  lmSi := cacheNorm ts m data C fun q S va z => sat q S z && sat q va z

/-- The increment of `phi_b`, cyext_acv_cache.pyx:541-625, with looked-up counts; `rs` are the numbered rectangles of the leaves. -/
def normTermCached (m n : Nat) (T : NormTables) (b va leaf counter : Nat) (rs : List (Rect × Nat)) (r : Rect) (x : Row) (g : List Nat)
    (rest : List (List Nat)) : ℚ :=
  let sel := maskSel rest counter
  let S := sel.flatten
  let vaSize := sel.length
  let s := fun q : Rect × Nat => ((if satCO q.1 S x then 1 else 0 : ℚ), (T.lm.count (b, va, leaf, q.2, counter) : ℚ),
    (T.lmS.count (b, va, leaf, q.2, counter) : ℚ))
  let si := fun q : Rect × Nat => ((if satCO q.1 S x && satCO q.1 g x then 1 else 0 : ℚ), (T.lm.count (b, va, leaf, q.2, counter) : ℚ),
    (T.lmSi.count (b, va, leaf, q.2, counter) : ℚ))
  let pS := if S.length = 0 then (T.lm.count (b, va, leaf, leaf, counter) : ℚ) / n else normProb (s (r, leaf)) (rs.map s)
  let pSi := normProb (si (r, leaf)) (rs.map si)
  (coefZero m vaSize + coefLoop m rest.length vaSize) * (pSi - pS)

/-- `shap_values_leaves_normalized_cache`, cyext_acv_cache.pyx:410-634: value of column `j`, output `k`. -/
def shapNormCached (ts : List TreeArr) (m n : Nat) (T : NormTables) (C : List (List Nat)) (x : Row) (j k : Nat) : ℚ :=
  (ts.zipIdx.map fun tb => (tb.1.leafIdx.zipIdx.map fun lf =>
    let node := leafPlayersCy m C (tb.1.leafCols lf.1)
    ((playersCy m C).zipIdx.map fun gv =>
      if gv.1 ∈ node then
        ((List.range (2 ^ (node.erase gv.1).length)).map fun counter => (gv.1.count j : ℚ) *
          normTermCached m n T tb.2 gv.2 lf.2 counter (tb.1.leafIdx.zipIdx.map fun q => (tb.1.leafRect q.1, q.2))
            (tb.1.leafRect lf.1) x gv.1 (node.erase gv.1)).sum
      else 0).sum * tb.1.value lf.1 k).sum).sum / m

/-- An explainer built with `cache=True`, `cache_normalized=True` and coalitions `C0` (/repo/acv_explainers/base_tree.py:644-648), asked
for `shap_values_normalized` with coalitions `C` (acv_tree.py:647-670). -/
def acvTreeCachedNorm (ts : List TreeArr) (m : Nat) (data : List Row) (C0 C : List (List Nat)) (x : Row) (j k : Nat) : ℚ :=
  shapNormCached ts m data.length (leavesCacheNorm ts m data C0) C x j k

/-! ## Enumerating versions -/

/-- The writes `phi[:, a] += weight * (v_plus - v_minus)`, py_acv.py:667-686 (706-725), for a value function `v` of a list of columns.
`scipy.special.comb` is `Nat.choose`. -/
def enumWrites (v : List Nat → Option ℚ) (m : Nat) (C : List (List Nat)) : Except Unit (List (Nat × Option ℚ)) := do
  let ws ← (pyPlayers m C).mapM fun i => do
    let ws ← (powerset (pySm C (List.range m) i)).mapM fun S => do
      let cols ← chainL S
      let w : Option ℚ := do
        let a ← v (cols ++ i.cols)
        let b ← v cols
        return 1 / ((pyD m C - 1).choose S.length : ℚ) * (a - b)
      return i.cols.map fun j => (j, w)
    return ws.flatten
  return ws.flatten

/-- The common body of the two functions, py_acv.py:652-689, 691-727: column `j`. -/
def shapEnum (v : List Nat → Option ℚ) (m : Nat) (C : List (List Nat)) (j : Nat) : Except Unit (Option ℚ) := do
  let ws ← enumWrites v m C
  return (osum (cellWrites ws j)).map fun p => p / (pyD m C : ℚ)

/-- `ACVTree.py_shap_values_notoptimized`, py_acv.py:652-689. -/
def shapNotOptimized (ts : List TreeArr) (m : Nat) (data : List Row) (C : List (List Nat)) (x : Row) (j k : Nat) : Except Unit (Option ℚ) :=
  shapEnum (fun S => expNormCy ts m data S x k) m C j

/-- `ACVTree.py_shap_values_discrete_notoptimized`, py_acv.py:691-727. -/
def shapDiscrete (ts : List TreeArr) (m : Nat) (data : List Row) (C : List (List Nat)) (x : Row) (j k : Nat) : Except Unit (Option ℚ) :=
  shapEnum (fun S => some (expCatCy ts m data S x k)) m C j

end Acv
