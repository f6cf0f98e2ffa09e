import Verif.Model.LoadCat
import Verif.Spec.Tree

/-!
# Specification: what a CatBoost oblivious tree predicts

From CatBoost's documentation of its JSON model: bit `i` of the index of the leaf tells whether the observation passes `splits[i]`. Float and
categorical features are numbered separately: `float_feature_index` counts the float features only.
-/

namespace Acv

/-- What the model file says about the features: the column of each float feature and of each categorical feature, whether a missing value of
a float feature passes its borders (`nan_value_treatment` `"AsTrue"`), and the value of each target statistic. -/
structure CbFeatures where
  floatColumn : Nat → Nat
  catColumn : Nat → Nat
  nanPasses : Nat → Bool
  ctrValue : Nat → Obs → ℚ

/-- The observation passes the split. -/
def cbPasses (F : CbFeatures) (x : Obs) : CbSplit → Bool
  | .float k b => match x (F.floatColumn k) with
    | none => F.nanPasses k
    | some v => decide (b < v)
  | .oneHot k v => decide (x (F.catColumn k) = some v)
  | .ctr k b => decide (b < F.ctrValue k x)

/-- The index of the leaf: bit `i` is `splits[i]`. -/
def cbIndex (F : CbFeatures) (x : Obs) (splits : List CbSplit) : Nat :=
  match splits with
  | [] => 0
  | s :: l => (cbPasses F x s).toNat + 2 * cbIndex F x l

/-- The value CatBoost predicts with the tree. -/
def cbPredict (F : CbFeatures) (x : Obs) (splits : List CbSplit) (values : List ℚ) : ℚ := values.getD (cbIndex F x splits) 0

/-- Only numeric splits; `float_feature_index` is the column; missing values of tested features do not pass. -/
def CbPlain (F : CbFeatures) (x : Obs) (splits : List CbSplit) : Prop :=
  ∀ s ∈ splits, ∃ k b, s = .float k b ∧ F.floatColumn k = k ∧ (x k = none → F.nanPasses k = false)

end Acv
