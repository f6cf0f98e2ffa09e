import Verif.Spec.Tree
import Verif.Spec.Shapley
import Verif.Model.LeafShap

/-!
# Specification: the leaf game explained by the Shapley values

Players are groups of columns (a single column is a group of one).
-/

namespace Acv

/-- `z` agrees with the rectangle `r` on all columns of the players of `S`. -/
def AgreesOn (r : Rect) (S : Finset (List Nat)) (z : Row) : Prop :=
  ∀ g ∈ S, ∀ s ∈ g, (∀ l, (r s).lo = some l → l < z s) ∧ (∀ h, (r s).hi = some h → z s ≤ h)

open Classical in
/-- Share of a leaf in the game at coalition `S`: `[x_S in leaf_S] * #(data in leaf) / #(data in leaf on S)`, where a
quotient with no data at all counts as 0. -/
noncomputable def leafShare (d : Nat) (data : List Row) (r : Rect) (x : Row) (S : Finset (List Nat)) : ℚ :=
  if AgreesOn r S x then
    ((data.filter (fun z => InBox d r z)).length : ℚ) / (data.filter (fun z => AgreesOn r S z)).length
  else 0

/-- The game: sum over all leaves of all trees of (leaf value) * (leaf share). -/
noncomputable def leafGame (ts : List TreeArr) (d : Nat) (data : List Row) (x : Row) (k : Nat) (S : Finset (List Nat)) : ℚ :=
  (ts.map fun t => (t.leafIdx.map fun ℓ => t.value ℓ k * leafShare d data (t.leafRect ℓ) x S).sum).sum

/-- Valid coalition arguments over `m` columns: `[[]]` (no coalition), or a non-empty list of non-empty, pairwise disjoint
groups of different columns. -/
def ValidGroups (m : Nat) (C : List (List Nat)) : Prop :=
  C = [[]] ∨ (C ≠ [] ∧ (∀ g ∈ C, g ≠ [] ∧ g.Nodup ∧ ∀ s ∈ g, s < m) ∧ C.Pairwise List.Disjoint)

/-- The players: the (non-empty) groups of `C`, and every column in no group alone. -/
def playerSet (m : Nat) (C : List (List Nat)) : Finset (List Nat) :=
  (C.filter (· ≠ [])).toFinset ∪ ((Finset.range m).filter (fun i => ∀ g ∈ C, i ∉ g)).image ([·])

end Acv
