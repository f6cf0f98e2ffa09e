import Verif.Model.LeafShap

/-!
# Cached Shapley values

Models `leaves_cache` and `shap_values_leaves_cache` (/repo/acv_explainers/cyext_acv/cyext_acv_cache.pyx:59-214,221-404),
used by `ACVTree(..., cache=True)` (/repo/acv_explainers/base_tree.py:638-648, acv_tree.py:31-36,377-388).

A table is filled by `+= 1` statements; it is modelled by the list of the cells that are incremented, and a lookup is the
number of times the cell was incremented (tables start from `np.zeros`). Table bounds are the subject of C15.
-/

namespace Acv

/-- Index `(b, leaf_numb)` of `lm`, or `(b, va, leaf_numb, counter)` of `lm_s`, `lm_si`. -/
structure CacheTables where
  lm : List (Nat × Nat)
  lmS : List (Nat × Nat × Nat × Nat)
  lmSi : List (Nat × Nat × Nat × Nat)

/-- The increments `lm[b, leaf_numb] + 1`, cyext_acv_cache.pyx:143-150. -/
def cacheLm (ts : List TreeArr) (m : Nat) (data : List Row) : List (Nat × Nat) :=
  ts.zipIdx.flatMap fun tb => tb.1.leafIdx.zipIdx.flatMap fun lf =>
    (data.filter (sat (tb.1.leafRect lf.1) (List.range m))).map fun _ => (tb.2, lf.2)

/-- The increments of `lm_s` (`withVa = false`) and `lm_si` (`withVa = true`), cyext_acv_cache.pyx:179-212. -/
def cacheLmS (ts : List TreeArr) (m : Nat) (data : List Row) (C : List (List Nat)) (withVa : Bool) :
    List (Nat × Nat × Nat × Nat) :=
  ts.zipIdx.flatMap fun tb => tb.1.leafIdx.zipIdx.flatMap fun lf =>
    let node := leafPlayersCy m C (tb.1.leafCols lf.1)
    (playersCy m C).zipIdx.flatMap fun gv =>
      if gv.1 ∈ node then
        (List.range (2 ^ (node.erase gv.1).length)).flatMap fun counter =>
          (data.filter fun z => sat (tb.1.leafRect lf.1) (maskSel (node.erase gv.1) counter).flatten z &&
            (!withVa || sat (tb.1.leafRect lf.1) gv.1 z)).map fun _ => (tb.2, gv.2, lf.2, counter)
      else []

/-- `leaves_cache`, cyext_acv_cache.pyx:59-214. -/
def leavesCache (ts : List TreeArr) (m : Nat) (data : List Row) (C : List (List Nat)) : CacheTables :=
  ⟨cacheLm ts m data, cacheLmS ts m data C false, cacheLmS ts m data C true⟩

/-- The increment of `phi_b`, cyext_acv_cache.pyx:352-391, with looked-up counts. `n` is `data.shape[0]`. -/
def cacheTerm (m n : Nat) (T : CacheTables) (b va leaf counter : Nat) (r : Rect) (x : Row) (g : List Nat)
    (rest : List (List Nat)) : ℚ :=
  let sel := maskSel rest counter
  let S := sel.flatten
  let vaSize := sel.length
  let lm : ℚ := T.lm.count (b, leaf)
  let lmS : ℚ := T.lmS.count (b, va, leaf, counter)
  let lmSi : ℚ := T.lmSi.count (b, va, leaf, counter)
  let cs : ℚ := if sat r S x then 1 else 0
  let csi : ℚ := if sat r S x && sat r g x then 1 else 0
  let pS : ℚ := if S.length = 0 then lm / n else if lmS ≠ 0 then cs * lm / lmS else 0
  let pSi : ℚ := if lmSi ≠ 0 then csi * lm / lmSi else 0
  (coefZero m vaSize + coefLoop m rest.length vaSize) * (pSi - pS)

/-- `shap_values_leaves_cache`, cyext_acv_cache.pyx:221-404: value of column `j`, output `k`. -/
def shapCached (ts : List TreeArr) (m n : Nat) (T : CacheTables) (C : List (List Nat)) (x : Row) (j k : Nat) : ℚ :=
  (ts.zipIdx.map fun tb => (tb.1.leafIdx.zipIdx.map fun lf =>
    let node := leafPlayersCy m C (tb.1.leafCols lf.1)
    ((playersCy m C).zipIdx.map fun gv =>
      if gv.1 ∈ node then
        ((List.range (2 ^ (node.erase gv.1).length)).map fun counter => (gv.1.count j : ℚ) *
          cacheTerm m n T tb.2 gv.2 lf.2 counter (tb.1.leafRect lf.1) x gv.1 (node.erase gv.1)).sum
      else 0).sum * tb.1.value lf.1 k).sum).sum / m

/-- An explainer built with `cache=True` and coalitions `C0` (base_tree.py:638-642), asked for Shapley values with
coalitions `C` (acv_tree.py:16,31-36). -/
def acvTreeCachedShap (ts : List TreeArr) (m : Nat) (data : List Row) (C0 C : List (List Nat)) (x : Row) (j k : Nat) : ℚ :=
  shapCached ts m data.length (leavesCache ts m data C0) C x j k

end Acv
