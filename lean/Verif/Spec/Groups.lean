import Mathlib.Data.List.Sort

/-! # Specification of groups of columns -/

namespace Acv

/-- The groups split the columns `0, …, m - 1`: every column is in exactly one group, once, and no group is empty. -/
def SplitsColumns (m : Nat) (G : List (List Nat)) : Prop := G.flatten.Perm (List.range m) ∧ ∀ g ∈ G, g ≠ []

/-- Groups accepted by the Python functions: none at all, or groups of at least two columns without common column. -/
def PyGroups (C : List (List Nat)) : Prop := C = [[]] ∨ (C ≠ [] ∧ C.flatten.Nodup ∧ ∀ c ∈ C, 2 ≤ c.length)

end Acv
