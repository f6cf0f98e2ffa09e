import Verif.Model.LeafShap

/-!
# Sizes of the scratch buffers of the Shapley routines

/repo/acv_explainers/base_tree.py:555-624, base_agnostree.py:99-160, cyext_acv.pyx:1290-1296,1347-1349,1405-1477.
-/

namespace Acv

/-- `self.max_var` while the trees are loaded: reset to `[]` for every tree (base_tree.py:586), one entry appended per
leaf (base_tree.py:595). -/
def maxVarLoop (ts : List TreeArr) : List Nat :=
  ts.foldl (fun _ t => t.leafIdx.foldl (fun acc ℓ => acc ++ [(t.leafVars ℓ).length]) []) []

/-- `np.max(self.max_var)`, base_tree.py:624; `none` is the `ValueError` of the maximum of an empty array. -/
def maxVar (ts : List TreeArr) : Option Nat :=
  match maxVarLoop ts with
  | [] => none
  | a :: l => some (l.foldl max a)

/-- The second index of every access to `phi_b`, `lm_s`, `lm_si`, `S` for one leaf: all subset numbers of the other
players, for every player of the leaf (cyext_acv.pyx:1397-1409). -/
def leafCounters (m : Nat) (C : List (List Nat)) (vars : List Nat) : List Nat :=
  let node := leafPlayersCy m C vars
  (playersCy m C).flatMap fun va =>
    if va ∈ node then List.range (2 ^ (node.erase va).length) else []

end Acv
