import Verif.Spec.Search

/-!
# What the searches of divergent explanations should find
-/

namespace Acv

/-- The columns that stay fixed when the columns `S` change, in increasing order. -/
def otherCols (cols : Nat) (S : List Nat) : List Nat := (List.range cols).filter fun j => decide (j ∉ S)

/-- The report of a sample: `S` are the recorded columns, and the recorded probability is that of a changed (or target) decision
when all the *other* columns are fixed; `p T` is the probability when the columns `T` are fixed. No set of fewer players reaches
`pi`, no set of as many players does better. -/
def DivergentReport (players : List (List Nat)) (cols minimal : Nat) (p : List Nat → ℚ) (pi : ℚ) (S : List Nat) (value : ℚ) : Prop :=
  ∃ k, minimal ≤ k ∧ Candidate players k S ∧ value = p (otherCols cols S) ∧
    (∀ k' S', minimal ≤ k' → k' < k → Candidate players k' S' → p (otherCols cols S') < pi) ∧
    ∀ S', Candidate players k S' → p (otherCols cols S') ≤ p (otherCols cols S)

end Acv
