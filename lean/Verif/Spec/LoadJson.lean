import Verif.Model.LoadJson
import Verif.Spec.Tree

/-!
# Specification: what a dumped XGBoost tree predicts

From XGBoost's documentation: the child `yes` is taken when the value is below (strictly) the split condition, the child `no` otherwise, the child
`missing` when the value is missing.
-/

namespace Acv

/-- The identifier of the child that is taken. -/
def xgbChoice (x : Obs) (feature : Nat) (cond : ℚ) (yes no missing : Nat) : Nat :=
  match x feature with
  | none => missing
  | some v => if v < cond then yes else no

/-- The value of the leaf that is reached. -/
def XgbDump.predict (x : Obs) : XgbDump → ℚ
  | .leaf _ v _ => v
  | .split _ f thr yes no mis _ a b => if xgbChoice x f thr yes no mis = a.id then a.predict x else b.predict x

/-- The cover of the leaf that is reached. -/
def XgbDump.reached (x : Obs) : XgbDump → ℚ
  | .leaf _ _ c => c
  | .split _ f thr yes no mis _ a b => if xgbChoice x f thr yes no mis = a.id then a.reached x else b.reached x

/-- All identifiers. -/
def XgbDump.ids : XgbDump → List Nat
  | .leaf i _ _ => [i]
  | .split i _ _ _ _ _ _ a b => i :: (a.ids ++ b.ids)

/-- `yes` and `no` name the two children in any order, `missing` one of them. -/
def XgbDump.Linked : XgbDump → Prop
  | .leaf _ _ _ => True
  | .split _ _ _ yes no mis _ a b => ((yes = a.id ∧ no = b.id) ∨ (yes = b.id ∧ no = a.id)) ∧ (mis = yes ∨ mis = no) ∧ a.Linked ∧ b.Linked

/-- The columns tested. -/
def XgbDump.vars : XgbDump → List Nat
  | .leaf _ _ _ => []
  | .split _ f _ _ _ _ _ a b => f :: (a.vars ++ b.vars)

/-- The observation hits no split condition exactly. -/
def XgbDump.Off (x : Obs) : XgbDump → Prop
  | .leaf _ _ _ => True
  | .split _ f thr _ _ _ _ a b => x f ≠ some thr ∧ a.Off x ∧ b.Off x

/-- A dump of XGBoost: the root has number 0 and no number occurs twice. -/
structure IsXgbDump (T : XgbDump) : Prop where
  root : T.id = 0
  nodup : T.ids.Nodup
  linked : T.Linked

end Acv
