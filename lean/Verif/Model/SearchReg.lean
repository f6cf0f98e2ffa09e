import Verif.Model.SdpReg

/-!
# The search of sufficient explanations of a regression forest

Models `global_sdp_reg` (/repo/acv_explainers/cyext_acv/cyext_acv.pyx:968-1265), called by `ACVTree.importance_sdp_reg`
(/repo/acv_explainers/acv_tree.py:600-607), for any number of trees. Unlike the other searches it carries numbers from one set of
columns to the next: the arrays `norm`, `norm_u`, `norm_d` are allocated once (lines 1021-1024), and `norm[b]` is read before it is
written for the current observation if tree `b` is not the first one (lines 1208-1240).

Simplifications: those of `SdpReg` and `Search`.
-/

namespace Acv

/-- The loop `for i in range(N)` of one set of columns, cyext_acv.pyx:1199-1255: `R` are the unresolved observations; `m` is
`len(va_id)`, the number of columns tested for membership in a leaf (lines 1087, 1096). -/
def regScanSet (ts : List TreeArr) (m : Nat) (y : Row → ℚ) (tX : ℚ) (data X : List Row) (cols : Nat) (R : List Nat)
    (st : Norms × (Nat → Best)) (S : List Nat) : Norms × (Nat → Best) :=
  R.foldl (fun st i =>
    let r := regObs ts m y tX data S st.1 (X.getD i fun _ => 0)
    (r.1, upd st.2 i (consider cols S r.2 (st.2 i)))) st

/-- The loop over the sizes, cyext_acv.pyx:1047-1263. -/
def regSearchLoop (ts : List TreeArr) (m : Nat) (y : Row → ℚ) (tX : ℚ) (data X : List Row) (cols : Nat) (pi : ℚ) (stop : Bool) (half : Nat) :
    List (List (List Nat)) → Norms → Batch → Batch
  | [], _, st => st
  | cands :: ls, N, st =>
    let r := cands.foldl (regScanSet ts m y tX data X cols st.R) (N, st.best)
    let st' := closeLevel id pi { st with best := r.2 }
    let ssize := (cands.getLast?.map List.length).getD 0
    if stop && (decide (st'.R = []) || decide (half ≤ ssize)) then st' else regSearchLoop ts m y tX data X cols pi stop half ls r.1 st'

/-- `ACVTree.importance_sdp_reg`, acv_tree.py:600-607 and cyext_acv.pyx:968-1265. `none`: out-of-bounds read of `power_cpp`. -/
def importanceSdpReg (ts : List TreeArr) (y : Row → ℚ) (tX : ℚ) (data : List Row) (X : List Row) (cols : Nat)
    (C : List (List Nat)) (pi : ℚ) (minimal : Nat) (stop : Bool) (half : Nat) : Option Batch :=
  (levelsRf (searchPlayers C (List.range cols)) minimal).map fun levels =>
    regSearchLoop ts (searchPlayers C (List.range cols)).length y tX data X cols pi stop half levels Norms.zero (Batch.init X.length)

end Acv
