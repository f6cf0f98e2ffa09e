import Verif.Model.LeafShap
import Mathlib.Data.List.Sublists
import Mathlib.Data.Nat.Choose.Basic

/-!
# Leaf-estimator Shapley values, Python versions

Models `shap_values_leaves` (/repo/acv_explainers/py_acv.py:7-92) and `shap_values_leaves_v2` (py_acv.py:95-187), reached
through `ACVTree.py_shap_values` and `ACVTree.py_shap_valuesv2` (/repo/acv_explainers/acv_tree.py:441-459).

A Python set turned into a list has an unspecified order; the model uses one order, and only sums over the list matter.
`scipy.special.comb(..., exact=True)` is `Nat.choose`. An unguarded numpy division by zero gives NaN (or inf), modelled as
`none`; adding `none` to an accumulator cell makes the cell `none`. Raised exceptions are `Except.error`.
-/

namespace Acv

/-- An entry of `va_id` or `Sm`: a plain column number or a list of columns (a coalition). -/
inductive PyVar where
  | int (i : Nat)
  | list (l : List Nat)
deriving DecidableEq, Repr

/-- `convert_list`, /repo/acv_explainers/utils.py:324-328. -/
def PyVar.cols : PyVar → List Nat
  | .int i => [i]
  | .list l => l

/-- `chain_l` on a tuple, /repo/acv_explainers/utils.py:309-321: it raises `ValueError` on a list of length at most 1. -/
def chainL : List PyVar → Except Unit (List Nat)
  | [] => .ok []
  | .int i :: r => do return i :: (← chainL r)
  | .list l :: r => if l.length > 1 then do return l ++ (← chainL r) else .error ()

/-- `itertools.combinations(l, r)` as a list, in the order of the library (lexicographic in positions). -/
def combos {α : Type} : Nat → List α → List (List α)
  | 0, _ => [[]]
  | _ + 1, [] => []
  | r + 1, a :: l => (combos r l).map (a :: ·) ++ combos (r + 1) l

/-- `powerset`, /repo/acv_explainers/utils.py:559-561: all combinations by increasing size. -/
def powerset {α : Type} (l : List α) : List (List α) :=
  (List.range (l.length + 1)).flatMap fun r => combos r l

/-- numpy division: `none` when the divisor is 0. -/
def npDiv (a b : ℚ) : Option ℚ := if b = 0 then none else some (a / b)

/-- `d` after lines py_acv.py:39-47. -/
def pyD (m : Nat) (C : List (List Nat)) : Nat :=
  if hasGroups C then ((m : Int) - (C.map List.length).sum + C.length).toNat else m

/-- `va_id` after lines py_acv.py:33-43. -/
def pyPlayers (m : Nat) (C : List (List Nat)) : List PyVar :=
  if hasGroups C then (freeCols m C).map .int ++ C.map .list else (List.range m).map .int

/-- `node_id` after lines py_acv.py:42-46: every group that meets the leaf is added completely. -/
def pyNode (C : List (List Nat)) (vars : List Nat) : List Nat :=
  if hasGroups C then C.foldl (fun node c => if c.any (fun i => decide (i ∈ node)) then node ++ c else node) vars else vars

/-- `Sm`, py_acv.py:53-62: the other columns of the leaf, with complete groups collapsed. -/
def pySm (C : List (List Nat)) (node : List Nat) (i : PyVar) : List PyVar :=
  let Sm := (node.filter fun s => decide (s ∉ i.cols)).dedup
  if hasGroups C then
    let inside := C.filter fun c => c.all fun s => decide (s ∈ Sm)
    (Sm.filter fun s => decide (s ∉ inside.flatten)).map .int ++ inside.map .list
  else Sm.map .int

/-- `comb(d-1, len(S))**(-1) + coef`, py_acv.py:72-74,89. -/
def pyCoef (d k s : Nat) : ℚ :=
  1 / ((d - 1).choose s : ℚ) +
    ((List.range' 1 (d - k - 1)).map fun l => ((d - k - 1).choose l : ℚ) * (1 / ((d - 1).choose (l + s) : ℚ))).sum

/-- The coefficient times `(p_si - p_s) * v`, py_acv.py:67-91, for the columns `S` (chained), the columns `i` and the
number `s` of players in `S`. -/
def pyTerm (m d k s : Nat) (data : List Row) (r : Rect) (x : Row) (S i : List Nat) (v : ℚ) : Option ℚ := do
  let lm : ℚ := cnt data r (List.range m)
  let csi : ℚ := if sat r (S ++ i) x then 1 else 0
  let cs : ℚ := if sat r S x then 1 else 0
  let pSi ← npDiv (csi * lm) (cnt data r (S ++ i))
  let pSo := if s = 0 then npDiv lm data.length else npDiv (cs * lm) (cnt data r S)
  let pS ← pSo
  return pyCoef d k s * (pSi - pS) * v

/-- The writes `phi[:, j, :] += ...` of one leaf, py_acv.py:28-91, in order: column and increment. -/
def pyLeafWrites (m : Nat) (data : List Row) (C : List (List Nat)) (r : Rect) (vars : List Nat) (x : Row) (v : ℚ) :
    Except Unit (List (Nat × Option ℚ)) := do
  let node := pyNode C vars
  let players := (pyPlayers m C).filter fun i => i.cols.all fun s => decide (s ∈ node)
  let ws ← players.mapM fun i => do
    let Sm := pySm C node i
    let ws ← (powerset Sm).mapM fun S => do
      let cols ← chainL S
      return i.cols.map fun j => (j, pyTerm m (pyD m C) Sm.length S.length data r x cols i.cols v)
    return ws.flatten
  return ws.flatten

/-- The sum of the increments of one cell; `none` (NaN) as soon as one increment is `none`. -/
def osum (l : List (Option ℚ)) : Option ℚ := l.foldl (fun a b => do return (← a) + (← b)) (some 0)

/-- The increments written to cell `j`. -/
def cellWrites (ws : List (Nat × Option ℚ)) (j : Nat) : List (Option ℚ) :=
  (ws.filter fun w => decide (w.1 = j)).map (·.2)

/-- `shap_values_leaves` for one tree, py_acv.py:7-92: cell `j` of output `k`. -/
def shapTreePy (t : TreeArr) (m : Nat) (data : List Row) (C : List (List Nat)) (x : Row) (j k : Nat) :
    Except Unit (Option ℚ) := do
  let ws ← t.leafIdx.mapM fun ℓ => pyLeafWrites m data C (t.leafRect ℓ) (t.leafCols ℓ) x (t.value ℓ k)
  return (osum (cellWrites ws.flatten j)).map fun p => p / (pyD m C : ℚ)

/-- `ACVTree.py_shap_values`, acv_tree.py:441-449. -/
def shapPy (ts : List TreeArr) (m : Nat) (data : List Row) (C : List (List Nat)) (x : Row) (j k : Nat) :
    Except Unit (Option ℚ) := do
  let vs ← ts.mapM fun t => shapTreePy t m data C x j k
  return osum vs

/-! ## Version 2 -/

/-- `va_id`, py_acv.py:116-122. -/
def v2Players (m : Nat) (C : List (List Nat)) : List (List Nat) :=
  if hasGroups C then (freeCols m C).map ([·]) ++ C else (List.range m).map ([·])

/-- `va in remove_va`, py_acv.py:138: `va` is an `int`, `remove_va` a list of lists, and in Python no `int` is equal to a
`list`, so the test is `False` whatever the arguments. -/
def v2InRemove (_va : Nat) (_removeVa : List (List Nat)) : Bool := false

/-- `node_id_v2`, py_acv.py:134-147. `C_b.remove(ci)` removes the first entry equal to `ci`. -/
def v2Group (removeVa : List (List Nat)) : List Nat → List (List Nat) → List (List Nat)
  | [], _ => []
  | va :: vs, Cb =>
    if v2InRemove va removeVa then [va] :: v2Group removeVa vs Cb
    else match Cb.find? (fun c => decide (va ∈ c)) with
      | none => v2Group removeVa vs Cb
      | some c => c :: v2Group removeVa vs (Cb.erase c)

/-- `node_id` after line py_acv.py:149. -/
def v2Node (m : Nat) (C : List (List Nat)) (vars : List Nat) : List (List Nat) :=
  if hasGroups C then v2Group ((freeCols m C).map ([·])) vars C else vars.map ([·])

/-- The writes of one leaf, py_acv.py:126-186. -/
def v2LeafWrites (m : Nat) (data : List Row) (C : List (List Nat)) (r : Rect) (vars : List Nat) (x : Row) (v : ℚ) :
    List (Nat × Option ℚ) :=
  let node := v2Node m C vars
  ((v2Players m C).filter fun i => decide (i ∈ node)).flatMap fun i =>
    let Sm := node.erase i
    (powerset Sm).flatMap fun S =>
      i.map fun j => (j, pyTerm m (v2Players m C).length Sm.length S.length data r x S.flatten i v)

/-- `ACVTree.py_shap_valuesv2`, py_acv.py:95-187 summed over the trees by acv_tree.py:451-459. -/
def shapV2 (ts : List TreeArr) (m : Nat) (data : List Row) (C : List (List Nat)) (x : Row) (j k : Nat) : Option ℚ :=
  osum (ts.map fun t =>
    (osum (cellWrites (t.leafIdx.flatMap fun ℓ =>
      v2LeafWrites m data C (t.leafRect ℓ) (t.leafCols ℓ) x (t.value ℓ k)) j)).map
        fun p => p / ((v2Players m C).length : ℚ))

end Acv
