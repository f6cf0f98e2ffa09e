import Verif.Model.LoadText
import Verif.Spec.LoadJson

/-!
# Specification: the text dump of an XGBoost tree

From XGBoost's documentation, `get_dump(with_stats=True)`: one line per node in preorder, indented by its depth, every line ended.
-/

namespace Acv

/-- A tree with the decimal texts of its numbers. -/
inductive XgbText where
  | leaf (id : Nat) (value cover : List Char)
  | split (id : Nat) (name cond : List Char) (yes no missing : Nat) (gain cover : List Char) (c1 c2 : XgbText)

/-- A natural number in decimal. -/
def num (n : Nat) : List Char := Nat.toDigits 10 n

/-- The lines of a dump. -/
def XgbText.lines (depth : Nat) : XgbText → List (List Char)
  | .leaf i v c => [List.replicate depth '\t' ++ num i ++ [':', 'l', 'e', 'a', 'f', '='] ++ v ++ [',', 'c', 'o', 'v', 'e', 'r', '='] ++ c]
  | .split i name thr yes no mis g c a b =>
    (List.replicate depth '\t' ++ num i ++ [':', '['] ++ name ++ ['<'] ++ thr ++ [']', ' ', 'y', 'e', 's', '='] ++ num yes ++
      [',', 'n', 'o', '='] ++ num no ++ [',', 'm', 'i', 's', 's', 'i', 'n', 'g', '='] ++ num mis ++ [',', 'g', 'a', 'i', 'n', '='] ++ g ++
      [',', 'c', 'o', 'v', 'e', 'r', '='] ++ c) :: (a.lines (depth + 1) ++ b.lines (depth + 1))

/-- The text of a dump. -/
def XgbText.text (X : XgbText) : List Char := (X.lines 0).flatMap (· ++ ['\n'])

/-- The characters in which XGBoost writes a number. -/
def IsNumber (s : List Char) : Prop := ∀ c ∈ s, c ∈ ['0', '1', '2', '3', '4', '5', '6', '7', '8', '9', '.', 'e', '+', '-']

/-- The text `X` writes the tree `T`: same shape and numbers of nodes, names `name f` of the columns, and numbers that `float` reads as those of `T`. -/
def XgbText.Writes (fl : List Char → Option ℚ) (name : Nat → List Char) : XgbText → XgbDump → Prop
  | .leaf i v c, .leaf j v' c' => i = j ∧ IsNumber v ∧ fl v = some v' ∧ IsNumber c ∧ fl c = some c'
  | .split i s thr yes no mis g c a b, .split j f thr' yes' no' mis' c' a' b' =>
    i = j ∧ s = name f ∧ IsNumber thr ∧ fl thr = some thr' ∧ yes = yes' ∧ no = no' ∧ mis = mis' ∧ IsNumber g ∧ IsNumber c ∧ fl c = some c' ∧
      a.Writes fl name a' ∧ b.Writes fl name b'
  | _, _ => False

/-- The name XGBoost gives to column `f` when the data have no names. -/
def defaultName (f : Nat) : List Char := 'f' :: num f

end Acv
