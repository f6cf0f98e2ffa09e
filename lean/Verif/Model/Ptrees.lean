import Verif.Model.Search
import Verif.Model.TreeSdp

/-!
# Search of sufficient explanations, trees in parallel

Models `global_sdp_clf_ptrees`, /repo/acv_explainers/cyext_acv/cyext_acv.pyx:3075-3255, behind `ACVTree.importance_sdp_clf_ptrees`
(/repo/acv_explainers/acv_tree.py:528-543).

Simplifications: exact rationals; the trees are summed in order (each writes its own cells); all groups of `C` are players, here an empty group is
dropped.
-/

namespace Acv

/-- The probability of one sample for the columns `S`, cyext_acv.pyx:3170-3226: neither normalised nor clipped, and no special case for the
empty set. -/
def ptreesValue (ts : List TreeArr) (m : Nat) (lab : Row → Nat) (data : List Row) (S : List Nat) (x : Row) : ℚ :=
  let up := data.filter fun z => lab x = lab z
  let down := data.filter fun z => ¬ lab x = lab z
  let mean := fun rows => sumLeaves ts (lab x) fun r v =>
    if satCC r S x then guardDiv (cntCC rows r (List.range m) * v) (cntCC rows r S) else 0
  guardDiv (mean data - mean down) (mean up - mean down)

/-- One candidate for one sample, cyext_acv.pyx:3227-3237: the test is `ss >= pi_level and ss >= sdp[i]`. -/
def considerPi (pi : ℚ) (cols : Nat) (S : List Nat) (v : ℚ) (b : Best) : Best :=
  let b1 := if pi ≤ v ∧ b.sdp ≤ v then ⟨v, S.length, writeRow S b.star⟩ else b
  if S.length = cols then ⟨1, S.length, writeRow S b1.star⟩ else b1

/-- A value below `pi` never replaces the recorded one: here it is -1 (`considerPi_eq`). -/
def maskPi (pi v : ℚ) : ℚ := if pi ≤ v then v else -1

/-- `global_sdp_clf_ptrees`, cyext_acv.pyx:3075-3255: the loop ends early only if no sample is left, so `half` is larger than the number of
columns. `none`: out-of-bounds read of `power_cpp`. -/
def globalSdpPtrees (v : Nat → List Nat → ℚ) (N cols : Nat) (C : List (List Nat)) (pi : ℚ) (minimal : Nat) (stop : Bool) : Option Batch :=
  (levelsRf (searchPlayers C (List.range cols)) minimal).map fun levels =>
    searchLoop clearTail (fun R S => R.map fun i => maskPi pi (v i S)) cols pi stop (cols + 1) levels (Batch.init N)

/-- `ACVTree.importance_sdp_clf_ptrees`, acv_tree.py:528-543. -/
def importanceSdpPtrees (ts : List TreeArr) (lab : Row → Nat) (data : List Row) (X : List Row) (cols : Nat) (C : List (List Nat)) (pi : ℚ)
    (minimal : Nat) (stop : Bool) : Option Batch :=
  globalSdpPtrees (fun i S => ptreesValue ts cols lab data S (X.getD i fun _ => 0)) X.length cols C pi minimal stop

end Acv
