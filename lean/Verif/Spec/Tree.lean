import Verif.Model.Tree

/-!
# Specification: what it means for arrays to describe a binary decision tree
-/

namespace Acv

/-- A binary decision tree whose nodes carry the array index they are stored at. -/
inductive BTree where
  | leaf (id : Nat)
  | node (id f : Nat) (thr : ℚ) (l r : BTree)
deriving Repr

namespace BTree

def id : BTree → Nat
  | leaf i => i
  | node i _ _ _ _ => i

/-- All node indices, parent first. -/
def ids : BTree → List Nat
  | leaf i => [i]
  | node i _ _ l r => i :: (l.ids ++ r.ids)

/-- Indices of the leaves. -/
def leaves : BTree → List Nat
  | leaf i => [i]
  | node _ _ _ l r => l.leaves ++ r.leaves

/-- All variables tested. -/
def vars : BTree → List Nat
  | leaf _ => []
  | node _ f _ l r => f :: (l.vars ++ r.vars)

/-- The leaf in which a complete observation ends: left iff `x f ≤ thr`. -/
def descend (x : Nat → ℚ) : BTree → Nat
  | leaf i => i
  | node _ f thr l r => if x f ≤ thr then l.descend x else r.descend x

/-- Number of edges of the longest branch. -/
def height : BTree → Nat
  | leaf _ => 0
  | node _ _ _ l r => max l.height r.height + 1

end BTree

/-- The arrays of `t` describe the binary tree `b`: children, features and thresholds are those of `b`, the default
child is one of the two children, and the children of a leaf are negative. -/
def Encodes (t : TreeArr) : BTree → Prop
  | .leaf i => t.left i < 0 ∧ t.right i < 0
  | .node i f thr l r =>
    t.left i = l.id ∧ t.right i = r.id ∧ (t.dflt i = t.left i ∨ t.dflt i = t.right i) ∧
    t.feature i = f ∧ t.threshold i = thr ∧ Encodes t l ∧ Encodes t r

/-- `t` is a well-formed tree array over `d` features: it describes the tree `b`, rooted at index 0, in which every index
below `size` occurs exactly once, and every tested feature is below `d`. -/
structure IsTree (t : TreeArr) (d : Nat) (b : BTree) : Prop where
  root : b.id = 0
  enc : Encodes t b
  nodup : b.ids.Nodup
  all : ∀ n, n ∈ b.ids ↔ n < t.size
  vars : ∀ f ∈ b.vars, f < d

/-- `t` is a well-formed tree array over `d` features. -/
def WellFormed (t : TreeArr) (d : Nat) : Prop := ∃ b, IsTree t d b

/-- A complete observation seen as an observation with missing values. -/
def full (x : Nat → ℚ) : Obs := fun j => some (x j)

/-- Node `c` is a child of node `p`. -/
def ChildOf (t : TreeArr) (p c : Nat) : Prop := p < t.size ∧ (t.left p = (c : Int) ∨ t.right p = (c : Int))

/-- `Above t k p n`: `n` is reached from `p` by `k` parent-to-child steps. -/
inductive Above (t : TreeArr) : Nat → Nat → Nat → Prop
  | refl (n) : Above t 0 n n
  | step {k p q n} : ChildOf t p q → Above t k q n → Above t (k + 1) p n

end Acv

namespace Acv

/-- One decision of a descent, with missing values: from the internal node `n` go to the default child if the tested
value is missing, to the left child if it is at most the threshold, to the right child otherwise. -/
def StepTo (t : TreeArr) (x : Obs) (n m : Nat) : Prop :=
  0 ≤ t.left n ∧
  match x (t.feature n).toNat with
  | none => t.dflt n = (m : Int)
  | some v => (v ≤ t.threshold n ∧ t.left n = (m : Int)) ∨ (t.threshold n < v ∧ t.right n = (m : Int))

/-- The descent of `x` that starts at `n` passes through `m`. -/
inductive Visits (t : TreeArr) (x : Obs) : Nat → Nat → Prop
  | refl (n) : Visits t x n n
  | step {n m k} : StepTo t x n m → Visits t x m k → Visits t x n k

/-- The descent of `x` from the root ends in leaf `ℓ`. -/
def EndsIn (t : TreeArr) (x : Obs) (ℓ : Nat) : Prop := Visits t x 0 ℓ ∧ t.left ℓ < 0

end Acv

namespace Acv

/-- `x` lies in the half-open box `(lo, hi]` of `p` on the first `d` coordinates (a missing bound is infinite). -/
def InBox (d : Nat) (p : Rect) (x : Nat → ℚ) : Prop :=
  ∀ j < d, (∀ l, (p j).lo = some l → l < x j) ∧ (∀ h, (p j).hi = some h → x j ≤ h)

end Acv
