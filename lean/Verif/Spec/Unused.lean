import Verif.Spec.Tree
import Verif.Model.LeafShap

/-!
# Specification: columns that a model does not use
-/

namespace Acv

/-- Some split of some tree tests column `j`. -/
def UsesColumn (ts : List TreeArr) (j : Nat) : Prop := ∃ t ∈ ts, ∃ n < t.size, 0 ≤ t.left n ∧ t.feature n = (j : Int)

/-- The two rows have the same entries in the columns that the model uses. -/
def SameUsed (ts : List TreeArr) (z z' : Row) : Prop := ∀ j, UsesColumn ts j → z' j = z j

/-- The two sets contain the same columns that the model uses. -/
def SameUsedColumns (ts : List TreeArr) (S S' : List Nat) : Prop := ∀ j, UsesColumn ts j → (j ∈ S' ↔ j ∈ S)

end Acv
