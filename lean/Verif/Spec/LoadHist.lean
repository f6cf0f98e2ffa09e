import Verif.Model.LoadHist
import Verif.Spec.Tree
import Mathlib.Logic.Relation

/-!
# Specification: what a histogram gradient boosting tree predicts

From scikit-learn's documentation of `TreePredictor`: missing values follow `missing_go_to_left`; a categorical split sends the listed categories
left; a numerical split sends values up to the threshold left.
-/

namespace Acv

/-- The observation goes left at the node. -/
def HistNode.GoesLeft (v : HistNode) (x : Obs) : Prop :=
  match x v.feature with
  | none => v.missingLeft = true
  | some a => if v.isCategorical then ∃ c ∈ v.categories, a = (c : Nat) else a ≤ v.threshold

/-- One step of scikit-learn's descent. -/
def HistStep (nodes : List HistNode) (x : Obs) (n m : Nat) : Prop :=
  ∃ v, nodes[n]? = some v ∧ v.isLeaf = false ∧ ((v.GoesLeft x ∧ m = v.left) ∨ (¬ v.GoesLeft x ∧ m = v.right))

/-- The descent from the first node ends in the leaf `ℓ`. -/
def HistEnds (nodes : List HistNode) (x : Obs) (ℓ : Nat) : Prop :=
  Relation.ReflTransGen (HistStep nodes x) 0 ℓ ∧ ∃ v, nodes[ℓ]? = some v ∧ v.isLeaf = true

/-- The rows of the array are the nodes of the tree `b`. -/
def HistShape (nodes : List HistNode) : BTree → Prop
  | .leaf i => ∃ v, nodes[i]? = some v ∧ v.isLeaf = true
  | .node i f thr l r => (∃ v, nodes[i]? = some v ∧ v.isLeaf = false ∧ v.left = l.id ∧ v.right = r.id ∧ v.feature = f ∧ v.threshold = thr) ∧
      HistShape nodes l ∧ HistShape nodes r

/-- A predictor of scikit-learn over `d` columns: its rows are the nodes of a binary tree, rooted at 0, each once. -/
structure HistFitted (d : Nat) (nodes : List HistNode) : Prop where
  shape : ∃ b : BTree, b.id = 0 ∧ HistShape nodes b ∧ b.ids.Nodup ∧ (∀ n, n ∈ b.ids ↔ n < nodes.length) ∧ ∀ f ∈ b.vars, f < d

end Acv
