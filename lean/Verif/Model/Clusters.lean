import Verif.Model.LeafShapPy

/-!
# Clusters of variables

Models `local_sdp` and `global_sdp_importance`, /repo/acv_explainers/py_acv.py:503-651 (`ACVTree.py_compute_local_sdp_*`,
`py_global_sdp_importance_*`, /repo/acv_explainers/acv_tree.py:489-518).

Simplifications: `cond_func(x, threshold, S, data)[0]` is an arbitrary function of the threshold and of the list `S`, `none` being NaN. A bare
column of `va_id` is a list of one column, so `chain_l` is `List.flatten` (it raises on a group of fewer than two columns, which is not
modelled); `list(set(va_id) - set(c))` keeps the order of `va_id`; `index` has no
duplicates, so `index.remove` is a filter.
-/

namespace Acv

/-- `va_id`, py_acv.py:525-538: the columns in no group that is contained in `index`, then these groups. -/
def clusterPlayers (C : List (List Nat)) (index : List Nat) : List (List Nat) :=
  let G := C.filter fun c => decide (c ≠ []) && c.all fun i => decide (i ∈ index)
  (index.filter fun i => !G.any fun c => decide (i ∈ c)).map ([·]) ++ G

/-- `c_value[size][str(c)] >= i_best[size]`, py_acv.py:560. -/
def geBest (best : Option (ℚ × List Nat)) (v : ℚ) : Bool :=
  match best with
  | none => true
  | some b => decide (b.1 ≤ v)

/-- The loop over the combinations of a size, py_acv.py:550-562: `i_best` and `c_best`, `none` for `-np.inf`. The empty combination is in
`C_off`. -/
def bestOfSize (f : List Nat → Option ℚ) (proba : ℚ) (va : List (List Nat)) (size : Nat) : Option (ℚ × List Nat) :=
  (combos size va).foldl (fun best c =>
    if c = [] then best
    else
      match f c.flatten with
      | none => best
      | some v => if decide (proba ≤ v) && geBest best v then some (v, c.flatten) else best)
    none

/-- The loop over the sizes, py_acv.py:549-572: the lists appended to `final_coal` and whether the threshold was multiplied by `decay`. After
the inner loop `c` is the last combination, the last `size` elements of `va_id`. -/
def sizeLoop (f : List Nat → Option ℚ) (proba : ℚ) (va : List (List Nat)) : List Nat → List (List Nat) → List (List Nat) × Bool
  | [], found => (found, false)
  | size :: sizes, found =>
    match bestOfSize f proba va size with
    | some b => (found ++ [b.2], true)
    | none =>
      if (va.drop (va.length - size)).flatten.length = va.length then sizeLoop f proba va sizes (found ++ [va.flatten])
      else sizeLoop f proba va sizes found

/-- `local_sdp`, py_acv.py:503-578: `final_coal`, and whether the call returns it (it returns `None` when a round finds nothing). The number of
calls is bounded by `fuel`; a call removes at least one column from `index`, so `index.length + 1` is enough. -/
def clusters (f : ℚ → List Nat → Option ℚ) (proba decay : ℚ) (C : List (List Nat)) :
    Nat → ℚ → List Nat → List (List Nat) → List (List Nat) × Bool
  | 0, _, _, final => (final, false)
  | fuel + 1, thr, index, final =>
    let va := clusterPlayers C index
    if va.length = 0 then (final, true)
    else
      let r := sizeLoop (f thr) proba va (List.range (va.length + 1)) []
      match r.1.getLast? with
      | none => (final, false)
      | some c => clusters f proba decay C fuel (if r.2 then thr * decay else thr) (index.filter fun i => decide (i ∉ c)) (final ++ r.1)

/-- `local_sdp` called with `final_coal = []`. -/
def localClusters (f : ℚ → List Nat → Option ℚ) (proba decay thr : ℚ) (C : List (List Nat)) (index : List Nat) : List (List Nat) × Bool :=
  clusters f proba decay C (index.length + 1) thr index []

/-- The entries of an observation in `global_sdp_importance`, py_acv.py:620-643: the clusters whose value on `data` (not `data_bground`)
reaches `pi_level`. -/
def keptClusters (val : List Nat → Option ℚ) (piLevel : ℚ) (coal : List (List Nat)) : List (List Nat × ℚ) :=
  coal.filterMap fun c => match val c with
    | none => none
    | some v => if piLevel ≤ v then some (c, v) else none

/-- The dictionaries of `global_sdp_importance`, py_acv.py:607-643, over the observations: `obs i` is the list `final_coal` and the value
function of observation `i`. The entries in the order in which they are appended. -/
def allKept (n : Nat) (obs : Nat → List (List Nat) × (List Nat → Option ℚ)) (piLevel : ℚ) : List (List Nat × ℚ) :=
  (List.range n).flatMap fun i => keptClusters (obs i).2 piLevel (obs i).1

/-- `sdp_importance[str(j)]`, py_acv.py:640-642: one entry for every occurrence of the column. -/
def sdpEntries (kept : List (List Nat × ℚ)) (j : Nat) : List ℚ := kept.flatMap fun p => List.replicate (p.1.count j) p.2

/-- `sdp_importance_variable_count[str(j)]`, py_acv.py:643: `1/n_size` for every occurrence. -/
def variableCount (n : Nat) (kept : List (List Nat × ℚ)) (j : Nat) : ℚ := (kept.map fun p => (p.1.count j : ℚ) * (1 / n)).sum

/-- `sdp_importance_m[j]`, py_acv.py:650: NaN (`none`) without entry. -/
def sdpMean (kept : List (List Nat × ℚ)) (j : Nat) : Option ℚ := npDiv (sdpEntries kept j).sum (sdpEntries kept j).length

/-- `sdp_importance_coal_count`, py_acv.py:631-638: a coalition is identified by the list of its names; distinct columns have distinct names. -/
def coalitionCount (n : Nat) (kept : List (List Nat × ℚ)) (c : List Nat) : ℚ := ((kept.filter fun p => decide (p.1 = c)).map fun _ => 1 / (n : ℚ)).sum

/-- `sdp_coal_proba`, py_acv.py:632-637, 651. -/
def coalitionMean (kept : List (List Nat × ℚ)) (c : List Nat) : Option ℚ :=
  npDiv ((kept.filter fun p => decide (p.1 = c)).map Prod.snd).sum (kept.filter fun p => decide (p.1 = c)).length

/-- `global_sdp_importance`, py_acv.py:581-651: the kept clusters of all observations; `f i` is the value of observation `i` on the background,
`val i` that on `data` with the given threshold. -/
def globalKept (n m : Nat) (f : Nat → ℚ → List Nat → Option ℚ) (val : Nat → List Nat → Option ℚ) (proba decay thr piLevel : ℚ)
    (C : List (List Nat)) : List (List Nat × ℚ) :=
  allKept n (fun i => ((localClusters (f i) proba decay thr C (List.range m)).1, val i)) piLevel

end Acv
