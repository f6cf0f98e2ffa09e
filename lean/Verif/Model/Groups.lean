import Verif.Model.Clusters
import Mathlib.Data.List.Sort

/-!
# Groups of columns: clustering, and `local_sdp` with its exceptions

Models `compute_fcluster_bydistance` (/repo/acv_explainers/utils.py:115-136) and `local_sdp` (/repo/acv_explainers/py_acv.py:503-578) with the
exceptions raised by `chain_l` (utils.py:309-321) and `list.remove`.

Simplifications: the labels given by `AffinityPropagation.fit_predict` are any list of integers, one for each column; `cond_func(x, threshold,
S, data)[0]` is any function of the threshold and of the list `S`, `none` being NaN; `list(set(va_id) - set(c))` keeps the order of `va_id`.
-/

namespace Acv

/-- `coal`, utils.py:131-135: one group for each label, by increasing labels; the columns of a group in increasing order. -/
def columnGroups (labels : List Int) : List (List Nat) :=
  (labels.dedup.insertionSort (· ≤ ·)).map fun c => (List.range labels.length).filter fun i => decide (labels[i]? = some c)

/-- `va_id`, py_acv.py:525-538: a group is taken out when it is inside the columns that are left, and added when it is inside `index`. -/
def sdpPlayers (C : List (List Nat)) (index : List Nat) : List PyVar :=
  if hasGroups C then
    (C.foldl (fun va c => if c.all fun i => decide (i ∈ va) then va.filter fun i => decide (i ∉ c) else va) index).map .int ++
      (C.filter fun c => c.all fun i => decide (i ∈ index)).map .list
  else index.map .int

/-- The loop over the combinations of a size, py_acv.py:550-562. -/
def bestOfSizeE (f : List Nat → Option ℚ) (proba : ℚ) (va : List PyVar) (size : Nat) : Except Unit (Option (ℚ × List Nat)) :=
  (combos size va).foldlM (fun best c =>
    if c = [] then .ok best
    else
      match chainL c with
      | .error e => .error e
      | .ok S =>
        match f S with
        | none => .ok best
        | some v => .ok (if decide (proba ≤ v) && geBest best v then some (v, S) else best))
    none

/-- The loop over the sizes, py_acv.py:549-572. -/
def sizeLoopE (f : List Nat → Option ℚ) (proba : ℚ) (va : List PyVar) : List Nat → List (List Nat) → Except Unit (List (List Nat) × Bool)
  | [], found => .ok (found, false)
  | size :: sizes, found =>
    match bestOfSizeE f proba va size with
    | .error e => .error e
    | .ok (some b) => .ok (found ++ [b.2], true)
    | .ok none =>
      match chainL (va.drop (va.length - size)) with
      | .error e => .error e
      | .ok c =>
        if c.length = va.length then
          match chainL va with
          | .error e => .error e
          | .ok all => sizeLoopE f proba va sizes (found ++ [all])
        else sizeLoopE f proba va sizes found

/-- `for c_i in final_coal[-1]: index.remove(c_i)`, py_acv.py:574-575: `list.remove` raises when the column is absent. -/
def removeCols : List Nat → List Nat → Except Unit (List Nat)
  | index, [] => .ok index
  | index, i :: c => if i ∈ index then removeCols (index.erase i) c else .error ()

/-- `local_sdp`, py_acv.py:503-578: an exception, or `final_coal` and whether the call returns it. The number of calls is bounded by `fuel`. -/
def clusterRec (f : ℚ → List Nat → Option ℚ) (proba decay : ℚ) (C : List (List Nat)) :
    Nat → ℚ → List Nat → List (List Nat) → Except Unit (List (List Nat) × Bool)
  | 0, _, _, final => .ok (final, false)
  | fuel + 1, thr, index, final =>
    let va := sdpPlayers C index
    if va.length = 0 then .ok (final, true)
    else
      match sizeLoopE (f thr) proba va (List.range (va.length + 1)) [] with
      | .error e => .error e
      | .ok r =>
        match r.1.getLast? with
        | none => .ok (final, false)
        | some c =>
          match removeCols index c with
          | .error e => .error e
          | .ok rest => clusterRec f proba decay C fuel (if r.2 then thr * decay else thr) rest (final ++ r.1)

/-- `local_sdp` called with `final_coal = []`. -/
def localSdpPy (f : ℚ → List Nat → Option ℚ) (proba decay thr : ℚ) (C : List (List Nat)) (index : List Nat) :
    Except Unit (List (List Nat) × Bool) := clusterRec f proba decay C (index.length + 1) thr index []

end Acv
