import Verif.Model.Rules
import Mathlib.Data.Finset.Range
import Mathlib.Data.Finset.Filter
import Mathlib.Data.Finset.Card

/-!
# Specification for rules
-/

namespace Acv

/-- On the columns below `m`, the intervals of `a` are included in those of `b`. -/
def RuleLe (m : Nat) (a b : Rule) : Prop := ∀ j < m, (b j).1 ≤ (a j).1 ∧ (a j).2 ≤ (b j).2

/-- `lo <= z_j <= hi` for every column `j < m`. -/
def InClosed (m : Nat) (r : Rule) (z : Row) : Prop := ∀ j < m, (r j).1 ≤ z j ∧ z j ≤ (r j).2

/-- `v` lies between two values of column `j` of the data. -/
def Between (N : Nat) (data : Nat → Row) (j : Nat) (v : ℚ) : Prop := (∃ i < N, data i j ≤ v) ∧ ∃ i < N, v ≤ data i j

/-- The intervals of a rule are non-empty and their bounds are infinite (`-1e10`, `1e10`) or lie within the range of the data. -/
def BoundsInRange (m N : Nat) (data : Nat → Row) (r : Rule) : Prop :=
  ∀ j < m, (r j).1 ≤ (r j).2 ∧ ((r j).1 = -10000000000 ∨ Between N data j (r j).1) ∧
    ((r j).2 = 10000000000 ∨ Between N data j (r j).2)

/-- On the columns below `m`, the intervals of the box `a` are included in those of `b`. -/
def BoxIncl (m : Nat) (a b : Box) : Prop :=
  ∀ s < m, (b.getD s (0, 0)).1 ≤ (a.getD s (0, 0)).1 ∧ (a.getD s (0, 0)).2 ≤ (b.getD s (0, 0)).2

/-- `lo <= z_j <= hi` for every column `j < m` of the box. -/
def InBoxM (m : Nat) (b : Box) (z : Row) : Prop := ∀ s < m, (b.getD s (0, 0)).1 ≤ z s ∧ z s ≤ (b.getD s (0, 0)).2

/-- Two numbers equal up to numpy's tolerance: `1e-8` plus `1e-5` of the second one. -/
def CloseNum (a b : ℚ) : Prop := |a - b| ≤ 1/10^8 + 1/10^5 * |b|

/-- All the bounds of two rules are equal up to numpy's tolerance. -/
def CloseRules (m : Nat) (a b : Rule) : Prop := ∀ s < m, CloseNum (a s).1 (b s).1 ∧ CloseNum (a s).2 (b s).2

/-- `z` meets the conditions of the rule on the columns of `S`. -/
def MeetsOn (S : List Nat) (rule : Rule) (z : Row) : Prop := ∀ s ∈ S, (rule s).1 ≤ z s ∧ z s ≤ (rule s).2

/-- Rule `i` of `n` rules is a right answer for `x` among the rules that `x` meets and whose coverage is at least `minCov`: it is one of
them, its accuracy is at least `minAcc` and no other one is more accurate. -/
structure RightAnswer (n : Nat) (rules : Nat → Rule) (S : Nat → List Nat) (cov : Nat → ℚ) (acc : Nat → Option ℚ) (minCov minAcc : ℚ) (x : Row)
    (i : Nat) : Prop where
  lt : i < n
  meets : MeetsOn (S i) (rules i) x
  coverage : minCov ≤ cov i
  accuracy : ∃ a, acc i = some a ∧ minAcc ≤ a ∧ ∀ j < n, MeetsOn (S j) (rules j) x → minCov ≤ cov j → ∀ b, acc j = some b → b ≤ a

/-- The same for a regression: the mean squared error is at most `maxMse` and no other one is smaller. -/
structure RightAnswerReg (n : Nat) (rules : Nat → Rule) (S : Nat → List Nat) (cov : Nat → ℚ) (mse : Nat → Option ℚ) (minCov maxMse : ℚ) (x : Row)
    (i : Nat) : Prop where
  lt : i < n
  meets : MeetsOn (S i) (rules i) x
  coverage : minCov ≤ cov i
  error : ∃ a, mse i = some a ∧ a ≤ maxMse ∧ ∀ j < n, MeetsOn (S j) (rules j) x → minCov ≤ cov j → ∀ b, mse j = some b → a ≤ b

open Classical in
/-- The rows among the first `N` that meet the rule on `S`. -/
noncomputable def rowsMeeting (N : Nat) (data : Nat → Row) (S : List Nat) (rule : Rule) : Finset Nat :=
  (Finset.range N).filter fun i => MeetsOn S rule (data i)

open Classical in
/-- The proportion of label `c` among the rows that meet the rule on `S`. -/
noncomputable def labelShare (N : Nat) (data : Nat → Row) (y : Nat → ℚ) (S : List Nat) (rule : Rule) (c : ℚ) : ℚ :=
  ((rowsMeeting N data S rule).filter fun i => y i = c).card / (rowsMeeting N data S rule).card

end Acv
