import Verif.Model.ActiveShap
import Verif.Model.TreeSdp

/-!
# Active Shapley values (Python)

Models `shap_values_acv_leaves`, /repo/acv_explainers/py_acv.py:191-288, behind `ACVTree.py_shap_values_acv`
(/repo/acv_explainers/acv_tree.py:461-470). The background rows are tested against `(lo, hi]` and the observation against `[lo, hi]`.

Simplifications as in `Model/LeafShapPy`: sets in one order, `none` for NaN, one observation, column and output at a time.
-/

namespace Acv

/-- The coalitions `c` with `set(c).issubset(S_star)`, py_acv.py:231-236. -/
def pyActiveGroups (C : List (List Nat)) (S : List Nat) : List (List Nat) :=
  if hasGroups C then C.filter fun c => c.all fun s => decide (s ∈ S) else []

/-- The same, in the form of the argument `C`: `[[]]` when there is none. -/
def pyActiveC (C : List (List Nat)) (S : List Nat) : List (List Nat) :=
  if pyActiveGroups C S = [] then [[]] else pyActiveGroups C S

/-- `va_id`, py_acv.py:226-237. -/
def pyActivePlayers (C : List (List Nat)) (S : List Nat) : List PyVar :=
  (S.filter fun i => decide (i ∉ (pyActiveGroups C S).flatten)).map .int ++ (pyActiveGroups C S).map .list

/-- `d`, py_acv.py:227-241. -/
def pyActiveD (C : List (List Nat)) (S : List Nat) : Nat :=
  ((S.length : Int) - ((pyActiveGroups C S).map List.length).sum + (pyActiveGroups C S).length).toNat

/-- `node_id`, py_acv.py:228, 238-240. -/
def pyActiveNode (C : List (List Nat)) (S N vars : List Nat) : List Nat :=
  pyNode (pyActiveC C S) (vars.filter fun i => decide (i ∉ N))

/-- `coef`, py_acv.py:273-275. -/
def pyCoefTail (d k s : Nat) : ℚ :=
  ((List.range' 1 (d - k - 1)).map fun l => ((d - k - 1).choose l : ℚ) * (1 / ((d - 1).choose (l + s) : ℚ))).sum

/-- The increment of a player without column in the leaf, py_acv.py:245-254. -/
def pyActiveOff (m : Nat) (data : List Row) (r : Rect) (x : Row) (N : List Nat) (v : ℚ) : Option ℚ := do
  let lm : ℚ := cnt data r (List.range m)
  let csi : ℚ := if satCC r N x then 1 else 0
  let pSi ← npDiv (csi * lm) (cnt data r N)
  let pS ← npDiv lm data.length
  return (pSi - pS) * v

/-- The increment for the coalition `S` (columns; `s` players) and the player `i`, py_acv.py:266-294. -/
def pyActiveTerm (m d k s : Nat) (data : List Row) (r : Rect) (x : Row) (N S i : List Nat) (v : ℚ) : Option ℚ := do
  let lm : ℚ := cnt data r (List.range m)
  let csi : ℚ := if satCC r (S ++ i ++ N) x then 1 else 0
  let cs : ℚ := if satCC r (S ++ N) x then 1 else 0
  let pSi ← npDiv (csi * lm) (cnt data r (S ++ i ++ N))
  let pS ← npDiv (cs * lm) (cnt data r (S ++ N))
  let pOff ← npDiv lm data.length
  return if s ≠ 0 then (1 / ((d - 1).choose s : ℚ) + pyCoefTail d k s) * (pSi - pS) * v
    else (pSi - pOff) * v + pyCoefTail d k s * (pSi - pS) * v

/-- The writes of one leaf, py_acv.py:216-294. -/
def pyActiveWrites (m : Nat) (data : List Row) (C : List (List Nat)) (S N : List Nat) (r : Rect) (vars : List Nat) (x : Row) (v : ℚ) :
    Except Unit (List (Nat × Option ℚ)) := do
  let node := pyActiveNode C S N vars
  let ws ← (pyActivePlayers C S).mapM fun i => do
    if i.cols.all fun s => decide (s ∈ node) then
      let Sm := pySm (pyActiveC C S) node i
      let ws ← (powerset Sm).mapM fun T => do
        let cols ← chainL T
        return i.cols.map fun j => (j, pyActiveTerm m (pyActiveD C S) Sm.length T.length data r x N cols i.cols v)
      return ws.flatten
    else return i.cols.map fun j => (j, pyActiveOff m data r x N v)
  return ws.flatten

/-- `shap_values_acv_leaves` for one tree, py_acv.py:191-296; the last division is a numpy division. -/
def activeTreePy (t : TreeArr) (m : Nat) (data : List Row) (C : List (List Nat)) (S N : List Nat) (x : Row) (j k : Nat) :
    Except Unit (Option ℚ) := do
  let ws ← t.leafIdx.mapM fun ℓ => pyActiveWrites m data C S N (t.leafRect ℓ) (t.leafCols ℓ) x (t.value ℓ k)
  return (osum (cellWrites ws.flatten j)).bind fun p => npDiv p (pyActiveD C S)

/-- `ACVTree.py_shap_values_acv`, acv_tree.py:461-470. -/
def activePy (ts : List TreeArr) (m : Nat) (data : List Row) (C : List (List Nat)) (S N : List Nat) (x : Row) (j k : Nat) :
    Except Unit (Option ℚ) := do
  let vs ← ts.mapM fun t => activeTreePy t m data C S N x j k
  return osum vs

end Acv
