import Verif.Spec.Tree
import Verif.Model.LeafShap

/-!
# Specification: rows that a model cannot tell apart
-/

namespace Acv

/-- Some split of some tree asks whether column `f` is at most `thr`. -/
def IsTest (ts : List TreeArr) (f : Nat) (thr : ℚ) : Prop :=
  ∃ t ∈ ts, ∃ n < t.size, 0 ≤ t.left n ∧ t.feature n = (f : Int) ∧ t.threshold n = thr

/-- The two rows answer every test of the model in the same way. -/
def SameAnswers (ts : List TreeArr) (z z' : Row) : Prop := ∀ f thr, IsTest ts f thr → (z' f ≤ thr ↔ z f ≤ thr)

/-- Moreover they lie on the same thresholds. -/
def SameOrder (ts : List TreeArr) (z z' : Row) : Prop := SameAnswers ts z z' ∧ ∀ f thr, IsTest ts f thr → (z' f = thr ↔ z f = thr)

end Acv
