import Verif.Spec.Projected
import Mathlib.Order.Interval.Set.Basic
import Mathlib.Order.Interval.Set.Defs

/-!
# Specification for the conditional walks
-/

namespace Acv

/-- The values a conditional probability lets every column take. -/
abbrev Values := Nat → Set ℚ

/-- `X_S = x_S`, nothing else is known. -/
def pointValues (S : List Nat) (x : Row) : Values := fun f => {v | f ∈ S → v = x f}

/-- `X_S = x_S` and every other column in its interval of `cond`. -/
def condValues (S : List Nat) (x : Row) (cond : Rule) : Values :=
  fun f => {v | (f ∈ S → v = x f) ∧ (f ∉ S → (cond f).1 ≤ v ∧ v ≤ (cond f).2)}

/-- Every column outside `S` in its interval of `cond`, the columns of `S` free. -/
def intvValues (S : List Nat) (cond : Rule) : Values := fun f => {v | f ∉ S → (cond f).1 ≤ v ∧ v ≤ (cond f).2}

/-- The row satisfies the condition. -/
def Satisfies (A : Values) (z : Row) : Prop := ∀ f, z f ∈ A f

/-- The nodes reached from the root when every split is left open unless the condition decides it: the left child is followed if
some allowed value goes left, the right child if some allowed value goes right. -/
inductive CondVisits (t : TreeArr) (A : Values) : Nat → Prop
  | root : CondVisits t A 0
  | left {n c : Nat} : CondVisits t A n → n < t.size → t.left n = (c : Int) →
      (∃ v ∈ A (t.feature n).toNat, v ≤ t.threshold n) → CondVisits t A c
  | right {n c : Nat} : CondVisits t A n → n < t.size → t.right n = (c : Int) →
      (∃ v ∈ A (t.feature n).toNat, t.threshold n < v) → CondVisits t A c

/-- The row lies on the side of every split that the condition decides, among the splits reached under the condition. -/
def OnDecidedSide (t : TreeArr) (A : Values) (z : Row) : Prop :=
  ∀ n < t.size, CondVisits t A n → 0 ≤ t.left n →
    ((∀ v ∈ A (t.feature n).toNat, v ≤ t.threshold n) → z (t.feature n).toNat ≤ t.threshold n) ∧
    ((∀ v ∈ A (t.feature n).toNat, t.threshold n < v) → t.threshold n < z (t.feature n).toNat)

/-- The memory cell just before the tree looks like a leaf or like padding: a negative feature and children -1. -/
def Mem.BeforeIsPadding (mem : Mem) : Prop := mem.feat (-1) < 0 ∧ mem.lc (-1) = -1 ∧ mem.rc (-1) = -1

/-- The memory holds a well-formed tree whose leaves are stored as skranger and sklearn do. -/
structure TreeStored (m : Nat) (t : TreeArr) (mem : Mem) : Prop where
  wf : WellFormed t m
  holds : mem.Holds t
  leafChildren : LeafChildren t
  negLeaf : NegLeafFeature t
  before : mem.BeforeIsPadding

end Acv
