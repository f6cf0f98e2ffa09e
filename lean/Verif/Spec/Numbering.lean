import Verif.Model.Cdp
import Mathlib.Logic.Equiv.Defs

/-!
# Specification: the same model and data, with the columns in another order

Column `j` of the old table is column `π j` of the new one.
-/

namespace Acv

/-- Column `j` of the old row is column `π j` of the new row. -/
def renumRow (π : Equiv.Perm Nat) (z : Row) : Row := fun j => z (π.symm j)

/-- The same for an observation with missing entries. -/
def renumObs (π : Equiv.Perm Nat) (x : Obs) : Obs := fun j => x (π.symm j)

/-- The same for the bounds of a rule. -/
def renumRule (π : Equiv.Perm Nat) (r : Rule) : Rule := fun j => r (π.symm j)

/-- The number of a column in the arrays of a tree; negative numbers mark leaves and padding. -/
def renumFeature (π : Equiv.Perm Nat) (f : Int) : Int := if 0 ≤ f then (π f.toNat : Int) else f

/-- The same tree on the renumbered columns. -/
def TreeArr.renum (π : Equiv.Perm Nat) (t : TreeArr) : TreeArr := { t with feature := fun n => renumFeature π (t.feature n) }

/-- The same for the arrays read by the loops of the projected forest. -/
def Mem.renum (π : Equiv.Perm Nat) (mem : Mem) : Mem := { mem with feat := fun n => renumFeature π (mem.feat n) }

end Acv
