import Verif.Spec.LeafGame

/-!
# Specification: normalised leaf shares

The share of a leaf is divided by the sum of the shares of all leaves of its tree. A quotient by 0 is 0.
-/

namespace Acv

/-- The share of leaf `ℓ` at coalition `S` as a fraction of the shares of all leaves of the tree. -/
noncomputable def normShare (t : TreeArr) (d : Nat) (data : List Row) (ℓ : Nat) (x : Row) (S : Finset (List Nat)) : ℚ :=
  leafShare d data (t.leafRect ℓ) x S / (t.leafIdx.map fun ℓ' => leafShare d data (t.leafRect ℓ') x S).sum

/-- The normalised game: for each tree the weighted mean of its leaf values, the weights being the normalised shares. -/
noncomputable def normGame (ts : List TreeArr) (d : Nat) (data : List Row) (x : Row) (k : Nat) (S : Finset (List Nat)) : ℚ :=
  (ts.map fun t => (t.leafIdx.map fun ℓ => t.value ℓ k * normShare t d data ℓ x S).sum).sum

/-- The players of `S` one of whose columns is tested on the way to leaf `ℓ`. -/
def touching (t : TreeArr) (ℓ : Nat) (S : Finset (List Nat)) : Finset (List Nat) :=
  S.filter fun g => ∃ s ∈ g, s ∈ t.leafCols ℓ

/-- The game in which the share of each leaf is normalised at the players that touch this leaf. -/
noncomputable def leafwiseNormGame (ts : List TreeArr) (d : Nat) (data : List Row) (x : Row) (k : Nat) (S : Finset (List Nat)) : ℚ :=
  (ts.map fun t => (t.leafIdx.map fun ℓ => t.value ℓ k * normShare t d data ℓ x (touching t ℓ S)).sum).sum

end Acv
