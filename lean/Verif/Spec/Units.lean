import Verif.Model.Cdp
import Mathlib.Order.Monotone.Basic

/-!
# Specification: the same model and data, in other units

`φ f` converts the entries of column `f`, for example kilograms to grams or a price to its logarithm.
-/

namespace Acv

/-- A row with its entries converted. -/
def inUnits (φ : Nat → ℚ → ℚ) (z : Row) : Row := fun j => φ j (z j)

/-- An observation with missing entries, the others converted. -/
def obsInUnits (φ : Nat → ℚ → ℚ) (x : Obs) : Obs := fun j => (x j).map (φ j)

/-- A tree with its thresholds converted. -/
def TreeArr.inUnits (φ : Nat → ℚ → ℚ) (t : TreeArr) : TreeArr := { t with threshold := fun n => φ (t.feature n).toNat (t.threshold n) }

/-- The same for the arrays read by the loops of the projected forest. -/
def Mem.inUnits (φ : Nat → ℚ → ℚ) (mem : Mem) : Mem := { mem with thr := fun n => φ (mem.feat n).toNat (mem.thr n) }

/-- A condition on the columns with its bounds converted. -/
def condInUnits (φ : Nat → ℚ → ℚ) (c : Rule) : Rule := fun f => (φ f (c f).1, φ f (c f).2)

/-- A bound of a rule in the old and in the new units: it is absent in both (`init` is the number that stands for an absent bound), or
converted. -/
def SameBound (init : ℚ) (conv : ℚ → ℚ) (b b' : ℚ) : Prop := (b = init ∧ b' = init) ∨ b' = conv b

end Acv
