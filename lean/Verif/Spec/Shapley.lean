import Mathlib.Algebra.BigOperators.Group.Finset.Basic
import Mathlib.Algebra.Order.Field.Rat
import Mathlib.Data.Nat.Factorial.Basic
import Mathlib.Data.Finset.Powerset

/-!
# Specification: the Shapley value of a cooperative game (textbook definition)
-/

namespace Acv

/-- Weight `|S|! (n - 1 - |S|)! / n!` of a coalition of size `s` among `n` players. -/
def shapW (n s : Nat) : ℚ := (s.factorial * (n - 1 - s).factorial : ℚ) / n.factorial

/-- The Shapley value of player `i` in the game `v` on the finite set of players `P`. -/
def shapley {ι : Type} [DecidableEq ι] (P : Finset ι) (v : Finset ι → ℚ) (i : ι) : ℚ :=
  ∑ S ∈ (P.erase i).powerset, shapW P.card S.card * (v (insert i S) - v S)

end Acv
