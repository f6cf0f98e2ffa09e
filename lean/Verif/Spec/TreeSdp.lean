import Verif.Spec.LeafGame

/-!
# Specification for conditional expectations and same decision probabilities
-/

namespace Acv

/-- No test of the tree compares an entry of `z` with a threshold equal to it. -/
def OffSplits (t : TreeArr) (z : Row) : Prop :=
  ∀ n < t.size, 0 ≤ t.left n → z (t.feature n).toNat ≠ t.threshold n

open Classical in
/-- The rows that agree with `x` on the columns of `S`. -/
noncomputable def matching (S : List Nat) (x : Row) (data : List Row) : List Row :=
  data.filter fun z => ∀ s ∈ S, z s = x s

/-- Mean of a function over a list of rows, 0 for the empty list. -/
def meanOver (rows : List Row) (P : Row → ℚ) : ℚ := (rows.map P).sum / rows.length

/-- `lo <= v <= hi`. -/
def InClosedIv (i : Ival) (v : ℚ) : Prop := (∀ l, i.lo = some l → l ≤ v) ∧ ∀ h, i.hi = some h → v ≤ h

/-- Weighted mean of the values of the leaves of a tree, 0 if the weights add up to 0. -/
def leafMean (t : TreeArr) (k : Nat) (w : Nat → ℚ) : ℚ := (t.leafIdx.map fun ℓ => w ℓ * t.value ℓ k).sum / (t.leafIdx.map w).sum

end Acv
