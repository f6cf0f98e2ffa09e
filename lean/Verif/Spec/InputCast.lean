import Verif.Spec.Tree
import Mathlib.Data.Rat.Defs
import Mathlib.Algebra.Order.Ring.Rat
import Mathlib.Algebra.Order.Group.Unbundled.Abs

/-!
# Numbers in single precision
-/

namespace Acv

/-- `v` has at most 24 significant bits (the numbers of single precision, with an unbounded exponent). -/
def IsSingle (v : ℚ) : Prop := ∃ n e : Int, |n| ≤ 2 ^ 24 ∧ v = n * 2 ^ e

/-- At every split that the descent of `x` meets, the tested value is a number of single precision or is further from the threshold than half a unit in
its 24th significant bit can reach (`2 ^ -24` of its size). -/
def ClearOfSplits (t : TreeArr) (x : Nat → ℚ) : Prop :=
  ∀ n, Visits t (full x) 0 n → 0 ≤ t.left n →
    IsSingle (x (t.feature n).toNat) ∨ |x (t.feature n).toNat| / 2 ^ 24 < |x (t.feature n).toNat - t.threshold n|

end Acv
