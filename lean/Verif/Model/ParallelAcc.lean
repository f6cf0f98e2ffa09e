import Verif.Model.Parallel
import Verif.Model.TreeSdp
import Verif.Model.ActiveShap

/-!
# The leaf loops of the conditional expectations and same decision probabilities

The loops `for leaf_numb in prange(nb_leaf)` of `compute_exp`, `compute_exp_cat`, `compute_sdp_clf_cat` and `compute_sdp_clf`
(/repo/acv_explainers/cyext_acv/cyext_acv.pyx:52-80,194-222,266-314,377-428) with the sequential loops over the leaves that follow
them, as programs for the interleaving semantics of `Verif.Model.Parallel`; and `shap_values_acv_leaves_nopa`
(/repo/acv_explainers/cyext_acv/cyext_acv_nopa.pyx:1707-1946), behind `ACVTree.shap_values_acv_nopa`.

Simplification: the counters (`lm`, `p_ss`, `p`, `p_s`, ...) are scalars private to the thread and appear as the values added.
-/

namespace Acv

/-- A cell of the tables the iterations share: `mean_forest_b[leaf_numb, i, q]` with `tab = 0` (cyext_acv.pyx:47,187,261), or
`mean_forest_b[b, leaf_numb, i, q]`, `p_n[b, leaf_numb, i]`, `p_u_n[b, leaf_numb, i]`, `p_d_n[b, leaf_numb, i]` with `tab = b` and
`q` from 0 to 2, 3, 4 and 5 (363, 374-376). -/
structure ACell where
  tab : Nat
  leaf : Nat
  row : Nat
  q : Nat
  deriving DecidableEq

/-- The body of the leaf loop: for every sample the leaf admits, `table[.., leaf_numb, i, q] += add`, cyext_acv.pyx:71-80, 196-222,
269-314, 380-428. `add leaf i` is `none` when the loop skips the sample (`continue`, 77, 202, 275, 386). -/
def accProg (tab nbLeaf N Q : Nat) (add : Nat → Nat → Option (Nat → ℚ)) (leaf : Nat) : List (Stmt ACell) :=
  if leaf < nbLeaf then
    (List.range N).flatMap fun i =>
      match add leaf i with
      | none => []
      | some f => (List.range Q).map fun q => ⟨⟨tab, leaf, i, q⟩, [⟨tab, leaf, i, q⟩], fun l => l.headD 0 + f q⟩
  else []

/-- One tree of the loop `for b in range(n_trees)`: the table it writes, its number of leaves and what its leaves add. -/
structure AccTree where
  tab : Nat
  nbLeaf : Nat
  add : Nat → Nat → Option (Nat → ℚ)

/-- The loop over the trees, with one interleaving per tree; the tables are shared between trees. Returns the final tables and the
final configuration of every parallel loop. -/
def accTrees (N Q : Nat) : List AccTree → List (List Nat) → (ACell → ℚ) → (ACell → ℚ) × List (Conf ACell)
  | [], _, mem => (mem, [])
  | t :: ts, scheds, mem =>
    let c := (Conf.start (accProg t.tab t.nbLeaf N Q t.add) mem).run (scheds.headD [])
    let out := accTrees N Q ts scheds.tail c.mem
    (out.1, c :: out.2)

/-- What leaf number `leaf` of tree `t` adds for sample `i` in `compute_exp`, cyext_acv.pyx:55-80: output `q`. -/
def expAdd (t : TreeArr) (m : Nat) (data : List Row) (S : List Nat) (X : List Row) (leaf i : Nat) : Option (Nat → ℚ) :=
  match t.leafIdx[leaf]?, X[i]? with
  | some ℓ, some x =>
    let r := t.leafRect ℓ
    if satCC r S x then some fun q => guardDiv (cntCC data r (List.range m) * t.value ℓ q) (cnt data r S) else none
  | _, _ => none

/-- `compute_exp`, cyext_acv.pyx:29-87: entry `[i, k]` of the result, for `d` outputs, under given interleavings. -/
def expParallel (ts : List TreeArr) (m : Nat) (data : List Row) (S : List Nat) (X : List Row) (d maxLeaves : Nat)
    (scheds : List (List Nat)) : (Nat → Nat → ℚ) × List (Conf ACell) :=
  let out := accTrees X.length d (ts.map fun t => ⟨0, t.leafIdx.length, expAdd t m data S X⟩) scheds (fun _ => 0)
  (fun i k => ((List.range maxLeaves).map fun leaf => out.1 ⟨0, leaf, i, k⟩).sum, out.2)

/-- What a leaf adds in `compute_exp_cat`, cyext_acv.pyx:196-222. -/
def expCatAdd (t : TreeArr) (m : Nat) (data : List Row) (S : List Nat) (X : List Row) (leaf i : Nat) : Option (Nat → ℚ) :=
  match t.leafIdx[leaf]?, X[i]? with
  | some ℓ, some x =>
    let r := t.leafRect ℓ
    if sat r S x then some fun q =>
      guardDiv (((data.filter fun z => eqOn S x z && sat r (List.range m) z).length : ℚ) * t.value ℓ q)
        (data.filter fun z => eqOn S x z).length
    else none
  | _, _ => none

/-- `compute_exp_cat`, cyext_acv.pyx:170-229. -/
def expCatParallel (ts : List TreeArr) (m : Nat) (data : List Row) (S : List Nat) (X : List Row) (d maxLeaves : Nat)
    (scheds : List (List Nat)) : (Nat → Nat → ℚ) × List (Conf ACell) :=
  let out := accTrees X.length d (ts.map fun t => ⟨0, t.leafIdx.length, expCatAdd t m data S X⟩) scheds (fun _ => 0)
  (fun i k => ((List.range maxLeaves).map fun leaf => out.1 ⟨0, leaf, i, k⟩).sum, out.2)

/-- The three groups of rows of cyext_acv.pyx:284-314 and 400-418: all, those predicted as the sample, the others. -/
def sdpRows (lab : Row → Nat) (rows : List Row) (x : Row) : Nat → List Row
  | 0 => rows
  | 1 => rows.filter fun z => lab x = lab z
  | _ => rows.filter fun z => ¬ lab x = lab z

/-- What a leaf adds in `compute_sdp_clf_cat`, cyext_acv.pyx:269-314: `q = 0, 1, 2`. -/
def sdpCatAdd (t : TreeArr) (m : Nat) (lab : Row → Nat) (data : List Row) (S : List Nat) (X : List Row) (leaf i : Nat) :
    Option (Nat → ℚ) :=
  match t.leafIdx[leaf]?, X[i]? with
  | some ℓ, some x =>
    let r := t.leafRect ℓ
    if satCC r S x then some fun q =>
      let rows := sdpRows lab (data.filter (eqOn S x)) x q
      guardDiv (cntCC rows r (List.range m) * t.value ℓ (lab x)) rows.length
    else none
  | _, _ => none

/-- `compute_sdp_clf_cat` on a set that is neither empty nor full, cyext_acv.pyx:266-334. The last tests (327-332) are `clamp01`. -/
def sdpCatParallel (ts : List TreeArr) (m : Nat) (lab : Row → Nat) (data : List Row) (S : List Nat) (X : List Row) (maxLeaves : Nat)
    (scheds : List (List Nat)) : (Nat → ℚ) × List (Conf ACell) :=
  let out := accTrees X.length 3 (ts.map fun t => ⟨0, t.leafIdx.length, sdpCatAdd t m lab data S X⟩) scheds (fun _ => 0)
  let ss := fun i q => ((List.range maxLeaves).map fun leaf => out.1 ⟨0, leaf, i, q⟩).sum
  (fun i => clamp01 (guardDiv (ss i 0 - ss i 2) (ss i 1 - ss i 2)), out.2)

/-- What a leaf adds in `compute_sdp_clf`, cyext_acv.pyx:380-428: `q = 0, 1, 2` for the means, 3, 4, 5 for their weights. -/
def sdpClfAdd (t : TreeArr) (m : Nat) (lab : Row → Nat) (data : List Row) (S : List Nat) (X : List Row) (leaf i : Nat) :
    Option (Nat → ℚ) :=
  match t.leafIdx[leaf]?, X[i]? with
  | some ℓ, some x =>
    let r := t.leafRect ℓ
    if satCC r S x then some fun q =>
      let rows := sdpRows lab data x (q % 3)
      guardDiv (cntCC rows r (List.range m) * (if q < 3 then t.value ℓ (lab x) else 1)) (cntCC rows r S)
    else none
  | _, _ => none

/-- `compute_sdp_clf` on a set that is neither empty nor full, cyext_acv.pyx:377-453. The table of tree `b` is number `b`. -/
def sdpClfParallel (ts : List TreeArr) (m : Nat) (lab : Row → Nat) (data : List Row) (S : List Nat) (X : List Row) (maxLeaves : Nat)
    (scheds : List (List Nat)) : (Nat → ℚ) × List (Conf ACell) :=
  let out := accTrees X.length 6 (ts.zipIdx.map fun tb => ⟨tb.2, tb.1.leafIdx.length, sdpClfAdd tb.1 m lab data S X⟩) scheds
    (fun _ => 0)
  let ss := fun i q => (ts.zipIdx.map fun tb =>
    let n := ((List.range tb.1.leafIdx.length).map fun leaf => out.1 ⟨tb.2, leaf, i, q + 3⟩).sum
    ((List.range maxLeaves).map fun leaf => guardDiv (out.1 ⟨tb.2, leaf, i, q⟩) n).sum).sum
  (fun i => guardDiv (ss i 0 - ss i 2) (ss i 1 - ss i 2), out.2)

/-! ## Active Shapley values without parallelism -/

/-- `phi[i, j, i2] += v`, cyext_acv_nopa.pyx:1859,1938,1944; `none` is NaN. -/
def addCellO (phi : Nat → Nat → Option ℚ) (i j : Nat) (v : Option ℚ) : Nat → Nat → Option ℚ :=
  fun i' j' => if i' = i ∧ j' = j then (phi i' j').bind fun a => v.map (a + ·) else phi i' j'

/-- The loop over the samples and the columns of the player, cyext_acv_nopa.pyx:1840-1859, 1899-1944. -/
def seqRowsO (X : List Row) (va : List Nat) (term : Row → Option ℚ) (phi : Nat → Nat → Option ℚ) : Nat → Nat → Option ℚ :=
  X.zipIdx.foldl (fun phi xi => va.foldl (fun phi j => addCellO phi xi.2 j (term xi.1)) phi) phi

/-- The loop over the players for one leaf, cyext_acv_nopa.pyx:1826-1944. -/
def activeSeqLeaf (m : Nat) (data : List Row) (C : List (List Nat)) (S N : List Nat) (X : List Row) (r : Rect) (vars : List Nat) (v : ℚ)
    (phi : Nat → Nat → Option ℚ) : Nat → Nat → Option ℚ :=
  let players := activePlayersCy C S
  let node := activeLeafPlayersCy C S N vars
  players.foldl (fun phi va =>
    if va ∈ node then
      let rest := node.erase va
      (List.range (2 ^ rest.length)).foldl (fun phi counter =>
        seqRowsO X va (fun x => activeTerm players.length m data r x N va rest counter v) phi) phi
    else seqRowsO X va (fun x => activeOffTerm m data r x N v) phi) phi

/-- `shap_values_acv_leaves_nopa`, cyext_acv_nopa.pyx:1707-1946: the value of sample `i` and column `j`, for the output `k`. -/
def activeSeq (ts : List TreeArr) (m : Nat) (data : List Row) (C : List (List Nat)) (S N : List Nat) (X : List Row) (k i j : Nat) :
    Option ℚ :=
  (ts.foldl (fun phi t => t.leafIdx.foldl (fun phi ℓ =>
    activeSeqLeaf m data C S N X (t.leafRect ℓ) (t.leafCols ℓ) (t.value ℓ k) phi) phi) (fun _ _ => some 0) i j).bind
      fun p => npDiv p (activePlayersCy C S).length

end Acv
