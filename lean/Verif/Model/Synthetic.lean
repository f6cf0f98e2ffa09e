import Mathlib.Data.Rat.Defs
import Mathlib.Algebra.Order.Ring.Rat
import Mathlib.Data.List.Sort

/-!
# The synthetic data set

Models `return_c_values`, `return_strong_features`, `encode_as_magic_int` and `get_feature_names` (/repo/acv_explainers/utils.py:406-463, 517-537).

Simplifications: the cardinality is not negative; exact rationals; a text is a list of characters; every random number is a value of an arbitrary oracle.
-/

namespace Acv

/-- `string.ascii_lowercase`. -/
def lowercase : List Char := "abcdefghijklmnopqrstuvwxyz".toList

/-- `suffixes`, utils.py:420-423. -/
def suffixes : List (List Char) := lowercase.flatMap fun i => lowercase.map fun j => [i, j]

/-- `c_pos` of `return_c_values`, utils.py:424. -/
def cPos (cardinality : Nat) : List (List Char) := (suffixes.map fun s => s ++ ['A']).take (cardinality / 2)

/-- `c_neg` of `return_c_values`, utils.py:425. -/
def cNeg (cardinality : Nat) : List (List Char) := (suffixes.map fun s => s ++ ['B']).take (cardinality / 2)

/-- `random.choice(l)`: the element of a random index; `none`: IndexError on an empty list. -/
def choice {α : Type} (l : List α) (k : Nat) : Option α := l[k % l.length]?

/-- The random numbers of one row of `return_strong_features`: the coin and the two choices. -/
structure RowDraw where
  coin : Bool
  c : Nat
  z : Nat

/-- One row of `return_strong_features`, utils.py:449, 453-462; `zs` are the numbers drawn in utils.py:448. -/
def strongRow (pivot : ℚ) (cardinality : Nat) (zs : List ℚ) (y : Bool) (d : RowDraw) : Option (List Char × ℚ) :=
  let zPos := zs.filter fun z => decide (pivot < z)
  let zNeg := zs.filter fun z => decide (z ≤ pivot)
  if y && d.coin then (choice (cPos cardinality ++ cNeg cardinality) d.c).bind fun c => (choice zPos d.z).map fun z => (c, z)
  else if y && !d.coin then (choice (cPos cardinality) d.c).bind fun c => (choice zNeg d.z).map fun z => (c, z)
  else (choice (cNeg cardinality) d.c).bind fun c => (choice zNeg d.z).map fun z => (c, z)

/-- `return_strong_features`, utils.py:429-463. -/
def strongFeatures (pivot : ℚ) (cardinality : Nat) (zs : List ℚ) (ys : List Bool) (draws : Nat → RowDraw) : Option (List (List Char × ℚ)) :=
  ys.zipIdx.mapM fun p => strongRow pivot cardinality zs p.1 (draws p.2)

/-- The last character, as a number (`x[-1]`, utils.py:524). -/
def lastCode (s : List Char) : Nat := (s.getLastD 'A').toNat

/-- `sorted(df['c'].unique(), key=lambda x: x[-1])`, utils.py:524: the distinct values in the order of their first
occurrence, sorted stably by their last character. -/
def magicValues (column : List (List Char)) : List (List Char) := column.reverse.dedup.reverse.insertionSort fun a b => lastCode a ≤ lastCode b

/-- `OrdinalEncoder(categories=[values]).fit_transform`, utils.py:525-526: the index of the value. -/
def magicCode (column : List (List Char)) (s : List Char) : Nat := (magicValues column).idxOf s

/-- `get_feature_names`, utils.py:533-537. -/
def featureNames (columns : List (List Char)) (includeC : Bool) : List (List Char) :=
  let names := columns.filter fun f => f.head? != some 'y'
  if includeC then names else names.filter fun f => f.head? != some 'c'

end Acv
