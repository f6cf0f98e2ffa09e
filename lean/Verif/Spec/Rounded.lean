import Mathlib.Algebra.Order.Field.Rat
import Mathlib.Algebra.Order.Group.Abs

/-!
# Specification of a rounding
-/

namespace Acv

/-- `rnd` has relative error at most `u`. -/
def RelErr (rnd : ℚ → ℚ) (u : ℚ) : Prop := ∀ q, |rnd q - q| ≤ u * |q|

/-- The numbers with 53 significant bits: those of double precision when the exponent is not bounded. -/
def IsDouble (v : ℚ) : Prop := ∃ n e : Int, |n| ≤ 2 ^ 53 ∧ v = n * 2 ^ e

end Acv
