import Verif.Model.Tree
import Verif.Model.Comb

/-!
# Leaf-estimator Shapley values

Models `shap_values_leaves_pa` (/repo/acv_explainers/cyext_acv/cyext_acv.pyx:1272-1485), the routine behind
`ACVTree.shap_values`, and its Python counterpart `shap_values_leaves` (/repo/acv_explainers/py_acv.py:7-92) behind
`ACVTree.py_shap_values`.

Simplifications: exact rationals; accumulation into `phi_b` and the final sums are list sums; one sample and one output
at a time (the code treats them independently).
-/

namespace Acv

/-- A complete data row. -/
abbrev Row := Nat → ℚ

/-- The test `z[s] <= part[s,1] and z[s] > part[s,0]` for all columns `s` of a list, cyext_acv.pyx:1423-1426,1443-1446
(`b_it == S_size`, `o_all == S_size`). -/
def sat (r : Rect) (S : List Nat) (z : Row) : Bool := S.all fun s => (r s).memOC (z s)

/-- Number of background rows that pass the test, cyext_acv.pyx:1360-1367 (`lm`), 1419-1429 (`lm_s`). -/
def cnt (data : List Row) (r : Rect) (S : List Nat) : Nat := (data.filter (sat r S)).length

/-- `C[0].size() != 0` (cyext_acv.pyx:1322,1369) / `C[0] != []` (py_acv.py:38). An empty `C` is an `IndexError` in Python
and undefined behaviour in Cython; it is not a valid argument (`[[]]` is the "no coalition" value). -/
def hasGroups (C : List (List Nat)) : Bool := !(C.headD []).isEmpty

/-- The loops that turn a list of columns into a list of players: cyext_acv.pyx:1327-1339 (over all columns) and
1370-1388 (over the columns of a leaf). `free` is `remove_va`. A free column is its own player; for another column the
first remaining group that contains it is pushed and removed from the buffer (`std::remove` + `pop_back`, which for
pairwise different groups removes exactly that group). -/
def groupUp (free : List Nat) : List Nat → List (List Nat) → List (List Nat)
  | [], _ => []
  | i :: is, buff =>
    if i ∈ free then [i] :: groupUp free is buff
    else match buff.find? (fun c => decide (i ∈ c)) with
      | none => groupUp free is buff
      | some c => c :: groupUp free is (buff.erase c)

/-- `remove_va`, cyext_acv.pyx:1324-1330. -/
def freeCols (m : Nat) (C : List (List Nat)) : List Nat := (List.range m).filter fun i => decide (i ∉ C.flatten)

/-- `va_id`, cyext_acv.pyx:1322-1344. -/
def playersCy (m : Nat) (C : List (List Nat)) : List (List Nat) :=
  if hasGroups C then groupUp (freeCols m C) (List.range m) C else (List.range m).map ([·])

/-- `node_id[leaf_numb]`, cyext_acv.pyx:1369-1394, from the recorded variables of the leaf. -/
def leafPlayersCy (m : Nat) (C : List (List Nat)) (vars : List Nat) : List (List Nat) :=
  if hasGroups C then groupUp (freeCols m C) vars C else vars.map ([·])

/-- The players `ci` with `counter & (1 << ci)`, cyext_acv.pyx:1410-1416, low bit first. -/
def maskSel {α : Type} : List α → Nat → List α
  | [], _ => []
  | a :: l, c => if c % 2 = 1 then a :: maskSel l (c / 2) else maskSel l (c / 2)

/-- `(coef_0 + coef) * (p_si - p_s)`, cyext_acv.pyx:1405-1475, for one leaf (rectangle `r`), player `va`, other players
of the leaf `rest`, and subset number `counter`. Divisions are guarded by `if ... != 0 else 0` as in the code, except
`lm/data.shape[0]`. -/
def cyTerm (m : Nat) (data : List Row) (r : Rect) (x : Row) (va : List Nat) (rest : List (List Nat)) (counter : Nat) : ℚ :=
  let sel := maskSel rest counter
  let S := sel.flatten
  let vaSize := sel.length
  let lm : ℚ := cnt data r (List.range m)
  let lmS : ℚ := cnt data r S
  let lmSi : ℚ := (data.filter (fun z => sat r S z && sat r va z)).length
  let cs : ℚ := if sat r S x then 1 else 0
  let csi : ℚ := if sat r S x && sat r va x then 1 else 0
  let pS : ℚ := if S.length = 0 then lm / data.length else if lmS ≠ 0 then cs * lm / lmS else 0
  let pSi : ℚ := if lmSi ≠ 0 then csi * lm / lmSi else 0
  (coefZero m vaSize + coefLoop m rest.length vaSize) * (pSi - pS)

/-- What one leaf adds to column `j` (before multiplication by the leaf value), cyext_acv.pyx:1397-1477. The innermost
loop `for nv in range(va_id[va].size())` writes once per occurrence of `j` in the player. -/
def cyLeafPhi (m : Nat) (data : List Row) (C : List (List Nat)) (r : Rect) (vars : List Nat) (x : Row) (j : Nat) : ℚ :=
  let node := leafPlayersCy m C vars
  ((playersCy m C).map fun va =>
    if va ∈ node then
      let rest := node.erase va
      ((List.range (2 ^ rest.length)).map fun counter => (va.count j : ℚ) * cyTerm m data r x va rest counter).sum
    else 0).sum

/-- The recorded variables of a leaf as column numbers (`node_idx_trees[b][leaf_numb]`). -/
def TreeArr.leafCols (t : TreeArr) (ℓ : Nat) : List Nat := (t.leafVars ℓ).map Int.toNat

/-- `shap_values_leaves_pa`, cyext_acv.pyx:1272-1485: value of column `j`, output `k`. -/
def shapCy (ts : List TreeArr) (m : Nat) (data : List Row) (C : List (List Nat)) (x : Row) (j k : Nat) : ℚ :=
  (ts.map fun t => (t.leafIdx.map fun ℓ =>
    cyLeafPhi m data C (t.leafRect ℓ) (t.leafCols ℓ) x j * t.value ℓ k).sum).sum / m

end Acv
