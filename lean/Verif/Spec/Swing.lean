import Verif.Model.Swing
import Verif.Spec.LeafGame

/-!
# Specification: the game explained by the swing Shapley values
-/

namespace Acv

open Classical in
/-- The coalition `T` of players decides: it is everybody, or it is not empty and the same decision probability of its columns is at least
`thr`. -/
noncomputable def swingGame (ts : List TreeArr) (m : Nat) (lab : Row → Nat) (data : List Row) (P : Finset (List Nat)) (thr : ℚ) (x : Row)
    (T : Finset (List Nat)) : ℚ :=
  let G := fun rows => leafGame ts m rows x (lab x) T
  let same := G (data.filter fun z => lab x = lab z)
  let other := G (data.filter fun z => lab x ≠ lab z)
  if T = P ∨ (T ≠ ∅ ∧ thr ≤ (G data - other) / (same - other)) then 1 else 0

/-- The columns of the players of a coalition. -/
def colsOf (T : Finset (List Nat)) : Finset Nat := T.biUnion List.toFinset

end Acv
