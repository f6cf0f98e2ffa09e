import Verif.Spec.Rules
import Verif.Spec.Projected

/-!
# Specification for counterfactual rules
-/

namespace Acv

/-- `v` may replace the value of variable `s`: a training value of `s` inside the interval of the rule, or the lower bound of the
interval if it contains no training value. -/
def NewValue (N : Nat) (data : Nat → Row) (cond : Rule) (s : Nat) (v : ℚ) : Prop :=
  (∃ i < N, data i s = v ∧ (cond s).1 ≤ v ∧ v ≤ (cond s).2) ∨
  ((∀ i < N, ¬ ((cond s).1 ≤ data i s ∧ data i s ≤ (cond s).2)) ∧ v = (cond s).1)

/-- `z` is `x` with new values for the variables of `S`. -/
structure SampleOf (N : Nat) (data : Nat → Row) (cond : Rule) (S : List Nat) (x z : Row) : Prop where
  outside : ∀ j, j ∉ S → z j = x j
  inside : ∀ s ∈ S, NewValue N data cond s (z s)

/-- The intervals of the rule are not empty on the columns below `m`. -/
def NonEmptyRule (m : Nat) (r : Rule) : Prop := ∀ s < m, (r s).1 ≤ (r s).2

/-- The training rows inside the leaf (bounds included). -/
def RowIn (m N : Nat) (data : Nat → Row) (leaf : Box) (i : Nat) : Prop := i < N ∧ InBoxM m leaf (data i)

open Classical in
/-- The share of the training rows inside the leaf that have the wanted output (0 if there is no row). -/
noncomputable def wantedShare (m N : Nat) (data : Nat → Row) (good : Nat → Prop) (leaf : Box) : ℚ :=
  (((Finset.range N).filter fun i => InBoxM m leaf (data i)).filter good).card /
    ((Finset.range N).filter fun i => InBoxM m leaf (data i)).card

end Acv
