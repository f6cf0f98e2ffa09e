import Verif.Model.LeafShapPy

/-!
# Active Shapley values (Cython)

Models `shap_values_acv_leaves` (/repo/acv_explainers/cyext_acv/cyext_acv.pyx:1755-2020) behind
`ACVTree.shap_values_acv`, the single-sample routines `single_shap_values_acv_leaves` (3301-3565) and
`single_shap_values` (3573-3787), and `shap_values_acv_leaves_adap` (3260-3295) behind `ACVTree.shap_values_acv_adap`.

Divisions are not guarded in the active routines: `0/0` is NaN, modelled by `none` (`npDiv`).
Simplifications: exact rationals; one sample, column and output at a time.
-/

namespace Acv

/-- `remove_va`, cyext_acv.pyx:3362-3364: columns of `S_star` in no coalition. -/
def activeFree (C : List (List Nat)) (S : List Nat) : List Nat := S.filter fun i => decide (i ∉ C.flatten)

/-- `va_id`, cyext_acv.pyx:3358-3377. -/
def activePlayersCy (C : List (List Nat)) (S : List Nat) : List (List Nat) :=
  if hasGroups C then groupUp (activeFree C S) S C else S.map ([·])

/-- `node_idx_trees[b][leaf_numb]` after removal of the null variables, cyext_acv.pyx:3399-3402. -/
def activeVars (N vars : List Nat) : List Nat := vars.diff N

/-- `node_id[leaf_numb]`, cyext_acv.pyx:3413-3438. -/
def activeLeafPlayersCy (C : List (List Nat)) (S N vars : List Nat) : List (List Nat) :=
  if hasGroups C then groupUp (activeFree C S) (activeVars N vars) C else (activeVars N vars).map ([·])

/-- The increment of a player that has no column in the leaf, cyext_acv.pyx:3444-3473. -/
def activeOffTerm (m : Nat) (data : List Row) (r : Rect) (x : Row) (N : List Nat) (v : ℚ) : Option ℚ := do
  let lm : ℚ := cnt data r (List.range m)
  let csi : ℚ := if sat r N x then 1 else 0
  let pS ← npDiv lm data.length
  let pSi ← npDiv (csi * lm) (cnt data r N)
  return (pSi - pS) * v

/-- The increment of a player of the leaf for one subset of the other players of the leaf, cyext_acv.pyx:3481-3556. `n` is
`m = va_id.size()` (3379). -/
def activeTerm (n m : Nat) (data : List Row) (r : Rect) (x : Row) (N va : List Nat) (rest : List (List Nat))
    (counter : Nat) (v : ℚ) : Option ℚ := do
  let sel := maskSel rest counter
  let S := sel.flatten
  let T := S ++ N
  let lm : ℚ := cnt data r (List.range m)
  let cs : ℚ := if sat r T x then 1 else 0
  let csi : ℚ := if sat r T x && sat r va x then 1 else 0
  let pS ← npDiv (cs * lm) (cnt data r T)
  let pSi ← npDiv (csi * lm) ((data.filter (fun z => sat r T z && sat r va z)).length : ℚ)
  let coef := coefLoop n rest.length sel.length
  let pOff ← npDiv lm data.length
  return if S.length ≠ 0 then (coefZero n sel.length + coef) * (pSi - pS) * v
    else (pSi - pOff) * v + coef * (pSi - pS) * v

/-- The writes of one leaf into `phi_n` and `phi_b`, cyext_acv.pyx:3440-3556: column and increment. -/
def activeLeafWrites (m : Nat) (data : List Row) (C : List (List Nat)) (S N : List Nat) (r : Rect) (vars : List Nat)
    (x : Row) (v : ℚ) : List (Nat × Option ℚ) :=
  let players := activePlayersCy C S
  let node := activeLeafPlayersCy C S N vars
  players.flatMap fun va =>
    if va ∈ node then
      let rest := node.erase va
      (List.range (2 ^ rest.length)).flatMap fun counter =>
        va.map fun j => (j, activeTerm players.length m data r x N va rest counter v)
    else va.map fun j => (j, activeOffTerm m data r x N v)

/-- `shap_values_acv_leaves` / `single_shap_values_acv_leaves`, cyext_acv.pyx:1755-2020, 3301-3565: column `j`, output `k`
of the Active Shapley values with active columns `S` and null columns `N`. The final `phi / m` is a numpy division. -/
def activeCy (ts : List TreeArr) (m : Nat) (data : List Row) (C : List (List Nat)) (S N : List Nat) (x : Row) (j k : Nat) :
    Option ℚ :=
  (osum (cellWrites (ts.flatMap fun t => t.leafIdx.flatMap fun ℓ =>
    activeLeafWrites m data C S N (t.leafRect ℓ) (t.leafCols ℓ) x (t.value ℓ k)) j)).bind
      fun p => npDiv p (activePlayersCy C S).length

/-- `shap_values_acv_leaves_adap`, cyext_acv.pyx:3260-3295: row `i` of the result. `Sst i`, `Nst i` are the rows of the
coalition matrices, `size i` the number of active columns; the two slices are `S_star[i, :size[i]]` and
`N_star[i, size[i]:]`. `single_shap_values` (3573-3787) has the body of `shap_values_leaves_pa` for one sample, hence
`shapCy`. The vectors `node_idx_trees` are passed by value, so a call cannot affect the next one. -/
def activeAdap (ts : List TreeArr) (m : Nat) (data : List Row) (C : List (List Nat)) (X : List Row)
    (Sst Nst : Nat → List Nat) (size : Nat → Nat) (i j k : Nat) : Option (Option ℚ) := do
  let x ← X[i]?
  return if size i ≠ m then activeCy ts m data C ((Sst i).take (size i)) ((Nst i).drop (size i)) x j k
    else some (shapCy ts m data C x j k)

/-- A Python list of signed columns with `-1` as filler, as `get_null_coalition` handles it,
/repo/acv_explainers/utils.py:809-817: row `i` of `n_star` and `len_s_star[i]`, for `m` columns. `index` is
`list(range(m))`, `null = list(set(index) - set(s_star[i]))` (order of a set of small integers: ascending),
`n_star[i, len_i:] = null`. -/
def nullRow (m : Nat) (s : List Int) (len : Nat) : List Int :=
  List.replicate len (-1) ++ ((List.range m).map Int.ofNat).filter fun i => decide (i ∉ s)

end Acv
