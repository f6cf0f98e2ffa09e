import Verif.Spec.Tree
import Verif.Model.Projected

/-!
# Specification for the projected forest
-/

namespace Acv

/-- The memory holds the arrays of the tree `t` in cells `0 .. size-1`. -/
def Mem.Holds (mem : Mem) (t : TreeArr) : Prop :=
  ∀ n < t.size, mem.feat n = t.feature n ∧ mem.thr n = t.threshold n ∧ mem.lc n = t.left n ∧ mem.rc n = t.right n

/-- Leaves carry a negative feature (skranger and sklearn store -2), base_agnostree.py:219-226. -/
def NegLeafFeature (t : TreeArr) : Prop := ∀ n < t.size, t.left n < 0 → t.feature n < 0

/-- Cells with a negative index look like leaves: a feature outside `S` and negative children. -/
def Mem.Benign (mem : Mem) (S : List Nat) : Prop :=
  ∀ n : Int, n < 0 → inS S (mem.feat n) = false ∧ mem.lc n < 0 ∧ mem.rc n < 0

/-- The children of a leaf are stored as -1 (base_agnostree.py:213-218; sklearn and skranger convention). -/
def LeafChildren (t : TreeArr) : Prop := ∀ n < t.size, t.left n < 0 → t.left n = -1 ∧ t.right n = -1

/-- The memory cell just before the tree looks like a leaf or like padding: its feature is not a column of `S` and its
children are -1. -/
def Mem.BeforeIsLeaf (mem : Mem) (S : List Nat) : Prop :=
  ¬ (0 ≤ mem.feat (-1) ∧ (mem.feat (-1)).toNat ∈ S) ∧ mem.lc (-1) = -1 ∧ mem.rc (-1) = -1

/-- A memory whose cells `0 .. size-1` hold the tree `t` and whose other cells are those of `junk`. -/
def Mem.ofTree (t : TreeArr) (junk : Mem) : Mem where
  feat := fun n => if 0 ≤ n ∧ n < t.size then t.feature n.toNat else junk.feat n
  thr := fun n => if 0 ≤ n ∧ n < t.size then t.threshold n.toNat else junk.thr n
  lc := fun n => if 0 ≤ n ∧ n < t.size then t.left n.toNat else junk.lc n
  rc := fun n => if 0 ≤ n ∧ n < t.size then t.right n.toNat else junk.rc n

/-- The nodes visited by the projected descent of `x`: at a split on a column of `S` the child chosen by `x`, at another split
both children. -/
inductive ProjVisits (t : TreeArr) (S : List Nat) (x : Row) : Nat → Prop
  | root : ProjVisits t S x 0
  | left {n c : Nat} : ProjVisits t S x n → n < t.size → t.left n = (c : Int) →
      ((t.feature n).toNat ∈ S → x (t.feature n).toNat ≤ t.threshold n) → ProjVisits t S x c
  | right {n c : Nat} : ProjVisits t S x n → n < t.size → t.right n = (c : Int) →
      ((t.feature n).toNat ∈ S → t.threshold n < x (t.feature n).toNat) → ProjVisits t S x c

/-- `z` has the same entries as `x` on the columns of `S`. -/
def SameOn (S : List Nat) (x z : Row) : Prop := ∀ s ∈ S, z s = x s

/-- `lo < z_j <= hi` for every column `j < m`. -/
def InRule (m : Nat) (r : Rule) (z : Row) : Prop := ∀ j < m, (r j).1 < z j ∧ z j ≤ (r j).2

end Acv
