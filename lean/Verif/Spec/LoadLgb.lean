import Verif.Model.LoadLgb
import Verif.Spec.Tree

/-!
# Specification: what a LightGBM tree predicts

From LightGBM's documentation of its decisions (`NumericalDecision`, `CategoricalDecision`).
-/

namespace Acv

/-- Does the observation go left? -/
def lgbLeft (test : LgbTest) (defaultLeft : Bool) (missing : MissingType) (v : Option ℚ) : Bool :=
  match test with
  | .le thr =>
    match missing, v with
    | .nan, none => defaultLeft
    | .nan, some a => decide (a ≤ thr)
    | .none, v => decide (v.getD 0 ≤ thr)
    | .zero, v => if v.getD 0 = 0 then defaultLeft else decide (v.getD 0 ≤ thr)
  | .eq cats =>
    match v with
    | none => false
    | some a => cats.any fun c => decide (a = c)

/-- The value LightGBM predicts with the tree. -/
def LgbNode.predict (x : Obs) : LgbNode → ℚ
  | .leaf _ v _ => v
  | .stump v => v
  | .split _ f test dl m _ _ l r => if lgbLeft test dl m (x f) then l.predict x else r.predict x

/-- The number of training rows of the leaf the observation ends in. -/
def LgbNode.reached (x : Obs) : LgbNode → ℚ
  | .leaf _ _ c => c
  | .stump _ => 0
  | .split _ f test dl m _ _ l r => if lgbLeft test dl m (x f) then l.reached x else r.reached x

/-- Indices of the splits. -/
def LgbNode.splits : LgbNode → List Nat
  | .leaf _ _ _ => []
  | .stump _ => []
  | .split i _ _ _ _ _ _ l r => i :: (l.splits ++ r.splits)

/-- Indices of the leaves. -/
def LgbNode.leafIds : LgbNode → List Nat
  | .leaf i _ _ => [i]
  | .stump _ => []
  | .split _ _ _ _ _ _ _ l r => l.leafIds ++ r.leafIds

/-- Tested features. -/
def LgbNode.features : LgbNode → List Nat
  | .leaf _ _ _ => []
  | .stump _ => []
  | .split _ f _ _ _ _ _ l r => f :: (l.features ++ r.features)

/-- All splits compare with a number. -/
def LgbNode.Numeric : LgbNode → Prop
  | .leaf _ _ _ => True
  | .stump _ => False
  | .split _ _ test _ _ _ _ l r => (∃ thr, test = .le thr) ∧ l.Numeric ∧ r.Numeric

/-- The missing values of `x` are treated by the splits as `default_left` says: no NaN where `missing_type` is not `"NaN"`, and no zero where
it is `"Zero"`. -/
def LgbNode.Handles (x : Obs) : LgbNode → Prop
  | .leaf _ _ _ => True
  | .stump _ => True
  | .split _ f _ _ m _ _ l r => (m ≠ .nan → x f ≠ none) ∧ (m = .zero → x f ≠ some 0) ∧ l.Handles x ∧ r.Handles x

/-- A dump as LightGBM writes it: splits are numbered from 0 with the root first, leaves from 0, without gap or repetition. -/
structure LgbDump (numLeaves : Nat) (T : LgbNode) : Prop where
  numeric : T.Numeric
  splits : T.splits.Perm (List.range (numLeaves - 1))
  leaves : T.leafIds.Perm (List.range numLeaves)
  root : T.splits.head? = some 0 ∨ T.splits = []

end Acv
