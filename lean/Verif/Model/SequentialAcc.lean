import Verif.Model.ParallelAcc

/-!
# Expectations and same decision probabilities without parallelism

`compute_exp_nopa`, `compute_exp_cat_nopa`, `compute_sdp_clf_cat_nopa` and `compute_sdp_clf_nopa`
(/repo/acv_explainers/cyext_acv/cyext_acv_nopa.pyx:26-89, 166-230, 231-334, 335-448), behind the methods of `ACVTree` of the same names
(/repo/acv_explainers/acv_tree.py): the leaves of each tree are visited one after the other by `range`. What a leaf adds is computed by
the same text as in cyext_acv.pyx and is shared with the parallel model (`expAdd`, `expCatAdd`, `sdpCatAdd`, `sdpClfAdd`).

Simplifications: those of `Verif.Model.ParallelAcc`.
-/

namespace Acv

/-- The loop over the trees with the leaf loops run one leaf after the other, cyext_acv_nopa.pyx:49-77, 190-218, 261-309, 371-423. -/
def accSeq (N Q : Nat) : List AccTree → (ACell → ℚ) → ACell → ℚ
  | [], mem => mem
  | t :: ts, mem => accSeq N Q ts (seqLoop (accProg t.tab t.nbLeaf N Q t.add) t.nbLeaf mem)

/-- `compute_exp_nopa`, cyext_acv_nopa.pyx:26-84: entry `[i, k]`. -/
def expSeq (ts : List TreeArr) (m : Nat) (data : List Row) (S : List Nat) (X : List Row) (d maxLeaves i k : Nat) : ℚ :=
  let out := accSeq X.length d (ts.map fun t => ⟨0, t.leafIdx.length, expAdd t m data S X⟩) (fun _ => 0)
  ((List.range maxLeaves).map fun leaf => out ⟨0, leaf, i, k⟩).sum

/-- `compute_exp_cat_nopa`, cyext_acv_nopa.pyx:166-225: entry `[i, k]`. -/
def expCatSeq (ts : List TreeArr) (m : Nat) (data : List Row) (S : List Nat) (X : List Row) (d maxLeaves i k : Nat) : ℚ :=
  let out := accSeq X.length d (ts.map fun t => ⟨0, t.leafIdx.length, expCatAdd t m data S X⟩) (fun _ => 0)
  ((List.range maxLeaves).map fun leaf => out ⟨0, leaf, i, k⟩).sum

/-- `compute_sdp_clf_cat_nopa` on a set that is neither empty nor full, cyext_acv_nopa.pyx:261-329: entry `i`. -/
def sdpCatSeq (ts : List TreeArr) (m : Nat) (lab : Row → Nat) (data : List Row) (S : List Nat) (X : List Row) (maxLeaves i : Nat) : ℚ :=
  let out := accSeq X.length 3 (ts.map fun t => ⟨0, t.leafIdx.length, sdpCatAdd t m lab data S X⟩) (fun _ => 0)
  let ss := fun q => ((List.range maxLeaves).map fun leaf => out ⟨0, leaf, i, q⟩).sum
  clamp01 (guardDiv (ss 0 - ss 2) (ss 1 - ss 2))

/-- `compute_sdp_clf_nopa` on a set that is neither empty nor full, cyext_acv_nopa.pyx:371-447: entry `i`. The loop that collects the
means stops at the number of leaves of the tree (`range(nb_leaf)`) where the parallel one goes on to the largest number of leaves. -/
def sdpClfSeq (ts : List TreeArr) (m : Nat) (lab : Row → Nat) (data : List Row) (S : List Nat) (X : List Row) (i : Nat) : ℚ :=
  let out := accSeq X.length 6 (ts.zipIdx.map fun tb => ⟨tb.2, tb.1.leafIdx.length, sdpClfAdd tb.1 m lab data S X⟩) (fun _ => 0)
  let ss := fun q => (ts.zipIdx.map fun tb =>
    let n := ((List.range tb.1.leafIdx.length).map fun leaf => out ⟨tb.2, leaf, i, q + 3⟩).sum
    ((List.range tb.1.leafIdx.length).map fun leaf => guardDiv (out ⟨tb.2, leaf, i, q⟩) n).sum).sum
  guardDiv (ss 0 - ss 2) (ss 1 - ss 2)

end Acv
