import Verif.Model.Swing
import Verif.Model.LeafShapPy

/-!
# Swing Shapley values in Python

Models `swing_tree_shap` and `swing_tree_shap_clf`, /repo/acv_explainers/py_acv.py:397-500 (`ACVTree.py_swing_sv_clf`, `py_swing_sv_reg`,
/repo/acv_explainers/acv_tree.py:497-507; `swing_sv_clf_old`, `swing_sv_clf_cat`, 579-583), for one observation.

Simplifications: the value function is an arbitrary function of the list of columns; `list(set(a) - set(b))` keeps the order of `a`. In
Python a comparison with NaN is false, so the 0/1 value function of `swing_tree_shap_clf` is never NaN.
-/

namespace Acv

/-- The passes of the loops of `swing_tree_shap`, py_acv.py:416-446: column, `weight` and `v_plus - v_minus`. -/
def swingPyVisits (v : List Nat → ℚ) (m : Nat) (C : List (List Nat)) : Except Unit (List (Nat × ℚ × ℚ)) := do
  let ws ← (pyPlayers m C).mapM fun i => do
    let ws ← (powerset (pySm C (List.range m) i)).mapM fun S => do
      let cols ← chainL S
      return i.cols.map fun j => (j, 1 / ((pyD m C - 1).choose S.length : ℚ), v (cols ++ i.cols) - v cols)
    return ws.flatten
  return ws.flatten

/-- The accumulations, py_acv.py:431-448: column `j` of `phi / m`, `swings` and `swings_prop`. -/
def swingCells (m : ℚ) (ws : List (ℚ × ℚ)) : Swing :=
  { phi := (ws.map fun w => w.1 * w.2).sum / m
    pos := (ws.map fun w => (if 0 < w.2 then 1 else 0) * (w.2 * w.1 / m)).sum
    neg := (ws.map fun w => (if w.2 < 0 then 1 else 0) * (w.2 * w.1 / m)).sum
    nPos := (ws.filter fun w => decide (0 < w.2)).length
    nNeg := (ws.filter fun w => decide (w.2 < 0)).length
    nNull := (ws.filter fun w => decide (w.2 = 0)).length }

/-- `swing_tree_shap`, py_acv.py:397-448. -/
def swingPy (v : List Nat → ℚ) (m : Nat) (C : List (List Nat)) (j : Nat) : Except Unit Swing := do
  let ws ← swingPyVisits v m C
  return swingCells (pyD m C) ((ws.filter fun w => decide (w.1 = j)).map Prod.snd)

/-- `swing_tree_shap_clf`, py_acv.py:451-500: the value function is the test `sdp >= threshold`, false for NaN. -/
def swingPyClf (sdp : List Nat → Option ℚ) (thr : ℚ) (m : Nat) (C : List (List Nat)) (j : Nat) : Except Unit Swing :=
  swingPy (fun S => match sdp S with | none => 0 | some v => if thr ≤ v then 1 else 0) m C j

end Acv
