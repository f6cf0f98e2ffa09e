import Verif.Spec.Projected

/-!
# Specification of the biased rules (C79)
-/

namespace Acv

/-- The nodes at depth `k` of the projected descent of `x`: at a split on a column of `S` the child chosen by `x`, at another split
both children. -/
inductive ProjAt (t : TreeArr) (S : List Nat) (x : Row) : Nat → Nat → Prop
  | root : ProjAt t S x 0 0
  | left {k n c : Nat} : ProjAt t S x k n → n < t.size → t.left n = (c : Int) →
      ((t.feature n).toNat ∈ S → x (t.feature n).toNat ≤ t.threshold n) → ProjAt t S x (k + 1) c
  | right {k n c : Nat} : ProjAt t S x k n → n < t.size → t.right n = (c : Int) →
      ((t.feature n).toNat ∈ S → t.threshold n < x (t.feature n).toNat) → ProjAt t S x (k + 1) c

/-- `z` is on the side of `x` (the threshold counts for both sides) at every split on a column of `S` met in the first `d` levels of
the projected descent of `x`, and its values in `S` are within ±1e10. -/
def FirstLevels (t : TreeArr) (S : List Nat) (x : Row) (d : Nat) (z : Row) : Prop :=
  (∀ f ∈ S, -10000000000 ≤ z f ∧ z f ≤ 10000000000) ∧
  ∀ k < d, ∀ n, ProjAt t S x k n → n < t.size → 0 ≤ t.feature n → (t.feature n).toNat ∈ S →
    (x (t.feature n).toNat ≤ t.threshold n → z (t.feature n).toNat ≤ t.threshold n) ∧
    (t.threshold n < x (t.feature n).toNat → t.threshold n ≤ z (t.feature n).toNat)

/-- `lo <= z_f <= hi` for the columns of `S`. -/
def Meets (S : List Nat) (r : Rule) (z : Row) : Prop := ∀ f ∈ S, (r f).1 ≤ z f ∧ z f ≤ (r f).2

end Acv
