import Verif.Model.LoadJson

/-!
# Loading text dumps of XGBoost

Models the branch of `SingleTree.__init__` for the text dump of an XGBoost tree, with statistics (/repo/acv_explainers/base_tree.py:1040-1092), which
users reach by passing `{"trees": [text, ...]}` to the explainer (70-84). A text is a list of characters; `none` stands for an exception.

Simplifications: exact rationals; `int(...)` reads decimal numerals without a sign or underscores and refuses everything else; `float(...)` is an
arbitrary reading `fl` of texts, which may refuse some.
-/

namespace Acv

/-- Python's `s.split(sep)` for a non-empty separator: `skip` characters of a separator remain to be dropped, `cur` is the current piece, reversed. -/
def splitGo (sep : List Char) : List Char → Nat → List Char → List (List Char)
  | [], _, cur => [cur.reverse]
  | _ :: s, k + 1, cur => splitGo sep s k cur
  | c :: s, 0, cur => if sep.isPrefixOf (c :: s) then cur.reverse :: splitGo sep s (sep.length - 1) [] else splitGo sep s 0 (c :: cur)

/-- Python's `s.split(sep)`. -/
def pySplit (sep s : List Char) : List (List Char) := splitGo sep s 0 []

/-- Python's `sep in s`. -/
def pyIn (sep : List Char) : List Char → Bool
  | [] => sep.isPrefixOf []
  | c :: s => sep.isPrefixOf (c :: s) || pyIn sep s

/-- Python's `s.lstrip()`. -/
def lstrip (s : List Char) : List Char := s.dropWhile Char.isWhitespace

/-- `int(s)`. -/
def pyInt (s : List Char) : Option Nat :=
  let r := (lstrip (lstrip s).reverse).reverse
  if r ≠ [] ∧ r.all Char.isDigit then some (Nat.ofDigitChars 10 r 0) else none

/-- `d[key] = value` for a dictionary in the order of insertion. -/
def dictPut (key : Nat) (v : List Char) : List (Nat × List Char) → List (Nat × List Char)
  | [] => [(key, v)]
  | p :: d => if p.1 = key then (key, v) :: d else p :: dictPut key v d

/-- One step of the loop that fills `nodes_dict`, base_tree.py:1046. -/
def dictLine (d : List (Nat × List Char)) (n : List Char) : Option (List (Nat × List Char)) := do
  let value ← (pySplit [':'] n)[1]?
  let key ← (pySplit [':'] n)[0]? >>= pyInt
  some (dictPut key value d)

/-- `nodes_dict`, base_tree.py:1044-1046. -/
def textNodes (text : List Char) : Option (List (Nat × List Char)) :=
  ((pySplit ['\n'] text.dropLast).map lstrip).foldlM dictLine []

/-- `int(value.split(sep)[1].split(",")[0])`, base_tree.py:1068-1070. -/
def intField (sep value : List Char) : Option Nat := do
  let a ← (pySplit sep value)[1]?
  let b ← (pySplit [','] a)[0]?
  pyInt b

/-- `float(value.split(sep)[1].split(",")[0])`, base_tree.py:1062 and 1078. -/
def floatField (fl : List Char → Option ℚ) (sep value : List Char) : Option ℚ := do
  let a ← (pySplit sep value)[1]?
  let b ← (pySplit [','] a)[0]?
  fl b

/-- `feature = int(ft.split(op)[0][2:])` and `threshold = float(ft.split(op)[1][:-1])`, base_tree.py:1073-1074 and 1076-1077. -/
def condAt (fl : List Char → Option ℚ) (op ft : List Char) : Option (Nat × ℚ) := do
  let a ← (pySplit op ft)[0]?
  let f ← pyInt (a.drop 2)
  let b ← (pySplit op ft)[1]?
  let t ← fl b.dropLast
  some (f, t)

/-- The variables `feature` and `threshold` after base_tree.py:1071-1077; they keep their values when neither sign occurs. -/
def condVars (fl : List Char → Option ℚ) (value : List Char) (old : Option (Nat × ℚ)) : Option (Option (Nat × ℚ)) := do
  let ft ← (pySplit [' '] value)[0]?
  let v1 ← if pyIn ['<'] ft then (condAt fl ['<'] ft).map some else some old
  if pyIn ['='] ft then (condAt fl ['='] ft).map some else some v1

/-- One node, base_tree.py:1057-1084: the arrays and the two variables that outlive the iteration. -/
def textNode (fl : List Char → Option ℚ) (st : TreeArr × Option (Nat × ℚ)) (node : Nat × List Char) : Option (TreeArr × Option (Nat × ℚ)) :=
  let value := node.2
  if pyIn ['l', 'e', 'a', 'f'] value then do
    let val ← floatField fl ['l', 'e', 'a', 'f', '='] value
    let c ← (pySplit ['c', 'o', 'v', 'e', 'r', '='] value)[1]?
    let w ← fl c
    some (st.1.putXgbLeaf node.1 val w, st.2)
  else do
    let yes ← intField ['y', 'e', 's', '='] value
    let no ← intField ['n', 'o', '='] value
    let mis ← intField ['m', 'i', 's', 's', 'i', 'n', 'g', '='] value
    let vars ← condVars fl value st.2
    let w ← floatField fl ['c', 'o', 'v', 'e', 'r', '='] value
    let ft ← vars
    some (st.1.putXgbSplit node.1 ft.1 ft.2 yes no mis w, vars)

/-- The arrays before the loop, base_tree.py:1047-1054. -/
def textInit (m : Nat) : TreeArr := ⟨m, fun _ => -1, fun _ => -1, fun _ => -1, fun _ => -2, fun _ => -1, fun _ _ => 1, fun _ => 0⟩

/-- `SingleTree(text, scaling)`, base_tree.py:1040-1092, before the expectations of the internal nodes are computed. -/
def xgbText (fl : List Char → Option ℚ) (scaling : ℚ) (text : List Char) : Option TreeArr := do
  let d ← textNodes text
  let t ← d.foldlM (textNode fl) (textInit ((d.map (·.1)).foldl max 0 + 1), none)
  some { t.1 with value := fun i k => t.1.value i k * scaling }

end Acv
