import Verif.Model.Search
import Verif.Model.LeafShap

/-!
# The variants without parallelism

Models `global_sdp_clf_nopa`, `global_sdp_reg_cat_nopa`, `global_sdp_reg_nopa` and `shap_values_leaves_nopa`
(/repo/acv_explainers/cyext_acv/cyext_acv_nopa.pyx:840-958,962-1292,1299-1495,1503-1700), behind
`ACVTree.importance_sdp_clf_nopa`, `importance_sdp_reg_cat_nopa`, `importance_sdp_reg_nopa` and `shap_values_nopa`
(/repo/acv_explainers/acv_tree.py:342-350,403-413,609-625), documented as "Same as ..., but does not use parallelism".

The three searches differ from those of cyext_acv.pyx in two ways: they have no argument `stop` and always stop, and they read
`power_cpp[s_0]` for `s_0` from `minimal` to `len(va_id)` although the enumeration may have been cut. The probability of a set of
columns is a parameter, as in `Verif.Model.Search`. `shap_values_leaves_nopa` adds each term directly to `phi`, where
`shap_values_leaves_pa` has one cell per leaf and subset number.
-/

namespace Acv

/-- `for s_0 in range(minimal, m + 1)`, cyext_acv_nopa.pyx:1374-1493: `sizes` are the values of `s_0` that remain. `none`:
`power_cpp[s_0]` is read out of bounds (undefined behaviour). Unlike `levelsRf`, the list is read when its size is reached. -/
def readLoop (vals : List Nat → List Nat → List ℚ) (cols : Nat) (pi : ℚ) (half : Nat) (power : List (List (List Nat))) :
    List Nat → Batch → Option Batch
  | [], st => some st
  | s :: sizes, st =>
    match power[s]? with
    | none => none
    | some cands =>
      let st' := scanLevel id vals cols pi cands st
      let ssize := (cands.getLast?.map List.length).getD 0
      if st'.R = [] ∨ half ≤ ssize then some st' else readLoop vals cols pi half power sizes st'

/-- `global_sdp_clf_nopa`, `global_sdp_reg_cat_nopa`, `global_sdp_reg_nopa`, cyext_acv_nopa.pyx:1345-1495: the enumeration starts
at size 0 (line 1355), whatever `minimal` is. An empty group of `C` is dropped here. -/
def globalSdpSeq (sdp : Nat → List Nat → ℚ) (N cols : Nat) (C : List (List Nat)) (pi : ℚ) (minimal : Nat) (half : Nat) :
    Option Batch :=
  let players := searchPlayers C (List.range cols)
  let power := enumSizes players enumCap (List.range (players.length + 1)) 0
  readLoop (fun R S => R.map fun i => sdp i S) cols pi half power (List.range' minimal (players.length + 1 - minimal)) (Batch.init N)

/-- `phi[i, j, i2] += v`, cyext_acv_nopa.pyx:1697, for one output. -/
def addCell (phi : Nat → Nat → ℚ) (i j : Nat) (v : ℚ) : Nat → Nat → ℚ :=
  fun i' j' => if i' = i ∧ j' = j then phi i' j' + v else phi i' j'

/-- The loop over the samples for one leaf, player and subset number, cyext_acv_nopa.pyx:1666-1697. -/
def seqRows (m : Nat) (data : List Row) (X : List Row) (r : Rect) (v : ℚ) (g : List Nat) (rest : List (List Nat)) (counter : Nat)
    (phi : Nat → Nat → ℚ) : Nat → Nat → ℚ :=
  X.zipIdx.foldl (fun phi xi => g.foldl (fun phi j => addCell phi xi.2 j (cyTerm m data r xi.1 g rest counter * v)) phi) phi

/-- The loops over players and subset numbers for one leaf, cyext_acv_nopa.pyx:1590-1697. -/
def seqLeaf (m : Nat) (data : List Row) (C : List (List Nat)) (X : List Row) (r : Rect) (vars : List Nat) (v : ℚ)
    (phi : Nat → Nat → ℚ) : Nat → Nat → ℚ :=
  let node := leafPlayersCy m C vars
  (playersCy m C).foldl (fun phi va =>
    if va ∈ node then
      let rest := node.erase va
      (List.range (2 ^ rest.length)).foldl (fun phi counter => seqRows m data X r v va rest counter phi) phi
    else phi) phi

/-- `shap_values_leaves_nopa`, cyext_acv_nopa.pyx:1503-1700: the value of sample `i` and column `j`, for the output `k`. -/
def shapSeq (ts : List TreeArr) (m : Nat) (data : List Row) (C : List (List Nat)) (X : List Row) (k i j : Nat) : ℚ :=
  ts.foldl (fun phi t => t.leafIdx.foldl (fun phi ℓ =>
    seqLeaf m data C X (t.leafRect ℓ) (t.leafCols ℓ) (t.value ℓ k) phi) phi) (fun _ _ => 0) i j / m

end Acv
