import Verif.Model.Projected

/-!
# Specification: two forests together
-/

namespace Acv

/-- `c` is the mean of `a` and `b`, with `n` parts of the first and `n'` parts of the second. -/
def AverageOf (n n' : Nat) (a b c : ℚ) : Prop := ((n : ℚ) + n') * c = n * a + n' * b

/-- The rule `r` asks for what `p` and `q` ask for. -/
def BothRules (p q r : Rule) : Prop := ∀ j, r j = (max (p j).1 (q j).1, min (p j).2 (q j).2)

end Acv
