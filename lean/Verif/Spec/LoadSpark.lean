import Verif.Model.LoadSpark
import Verif.Spec.Tree

/-!
# Specification: what a Spark tree predicts

From Spark's documentation: a continuous split sends an observation left when its value is at most the threshold.
-/

namespace Acv

/-- The values of the node in which the observation ends. -/
def SparkNode.outcome (x : Nat → ℚ) : SparkNode → Nat → ℚ
  | .leaf v _ => v
  | .split f (.continuous thr) _ _ l r => if x f ≤ thr then l.outcome x else r.outcome x
  | .split f (.categorical cats) _ _ l r => if cats.any (fun c => decide (x f = c)) then l.outcome x else r.outcome x

/-- The number of training rows of that node. -/
def SparkNode.rows (x : Nat → ℚ) : SparkNode → ℚ
  | .leaf _ c => c
  | .split f (.continuous thr) _ _ l r => if x f ≤ thr then l.rows x else r.rows x
  | .split f (.categorical cats) _ _ l r => if cats.any (fun c => decide (x f = c)) then l.rows x else r.rows x

/-- All splits are continuous and on the columns below `d`. -/
def SparkNode.Numeric (d : Nat) : SparkNode → Prop
  | .leaf _ _ => True
  | .split f test _ _ l r => f < d ∧ (∃ thr, test = .continuous thr) ∧ l.Numeric d ∧ r.Numeric d

/-- Some split is categorical. -/
def SparkNode.HasCategorical : SparkNode → Prop
  | .leaf _ _ => False
  | .split _ test _ _ l r => (∃ cats, test = .categorical cats) ∨ l.HasCategorical ∨ r.HasCategorical

/-- Spark's prediction at a node: the statistics of the classes as shares for a classifier, the prediction itself for a regressor. -/
def sparkShare (normalize : Bool) (K : Nat) (v : Nat → ℚ) (k : Nat) : ℚ :=
  if normalize then v k / ((List.range K).map v).sum else v k

/-- The value of the leaf in which a complete observation ends. -/
def TreeArr.outcomeAt (t : TreeArr) (x : Nat → ℚ) (k : Nat) : ℚ := ((t.leafOf (full x)).map fun ℓ => t.value ℓ k).getD 0

end Acv
