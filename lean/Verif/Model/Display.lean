import Verif.Model.Counterfactual

/-!
# The rules shown to the user

`print_rule` (/repo/acv_explainers/utils_cr.py:271-284), `CR.show_global_counterfactuals` and `CR.show_local_counterfactuals`
(/repo/acv_explainers/counterfactual_rules.py:295-360), and the rule of the explanation page (/repo/acv_app/sdp_app.py:53-63).

Simplification: a printed line is represented by the values formatted into it; blank lines and the conversion of numbers to text are left
out.
-/

namespace Acv

/-- A line of `print_rule`, utils_cr.py:274, 278-283: `If {col} in [{lo}, {hi}] and`, `Then the output is {}`, `... Probability = {}`.
`sdp` tells the two pairs of last lines apart; an output `none` is NaN. -/
inductive Shown where
  | cond (col : String) (lo hi : ℚ)
  | output (sdp : Bool) (v : Option ℚ)
  | prob (sdp : Bool) (v : ℚ)
  deriving DecidableEq

/-- The lines of the conditions, utils_cr.py:272-275: a column whose interval contains `[-1e10, 1e10]` is left out. `none` is the
IndexError when there are more names than columns. -/
def condLines : List String → Box → Option (List Shown)
  | [], _ => some []
  | _ :: _, [] => none
  | c :: names, p :: r =>
    (condLines names r).map fun l => if p.1 ≤ -10000000000 ∧ p.2 ≥ 10000000000 then l else .cond c p.1 p.2 :: l

/-- `print_rule(col_name, r, decision, sdp, output)`, utils_cr.py:271-284. -/
def printRule (names : List String) (r : Box) (decision : ℚ) (sdp : Bool) (output : Option ℚ) : Option (List Shown) :=
  (condLines names r).map fun l => l ++ [.output sdp output, .prob sdp decision]

/-- `np.mean(self.y_train[w != 0])`, counterfactual_rules.py:311, 345. -/
def shownOutput (N : Nat) (y w : Nat → ℚ) : Option ℚ :=
  npMean (((List.range N).filter fun i => decide (w i ≠ 0)).map y)

/-- The loop over the counterfactuals of one example, counterfactual_rules.py:307-312, 322-327, 341-346, 353-358: the number of the
example, the number of the counterfactual and its lines. The loop runs over the probabilities; the rules and the weights are indexed. -/
def showCfs (classifier : Bool) (m N : Nat) (names : List String) (y : Nat → ℚ) (target : ℚ) (idt : Nat)
    (cfs : List (Rule × ℚ × (Nat → ℚ))) : Option (List (Nat × Nat × List Shown)) :=
  cfs.zipIdx.mapM fun c =>
    (printRule names (boxOf m c.1.1) c.1.2.1 false (if classifier then some target else shownOutput N y c.1.2.2)).map
      fun lines => (idt, c.2, lines)

/-- `show_local_counterfactuals(x, y_target)`, counterfactual_rules.py:330-360: the counterfactuals of every row of `x`. -/
def showLocal (classifier : Bool) (m N : Nat) (names : List String) (y : Nat → ℚ) (targets : List ℚ)
    (cfs : List (List (Rule × ℚ × (Nat → ℚ)))) : Option (List (List (Nat × Nat × List Shown))) :=
  cfs.zipIdx.mapM fun c => if classifier then (targets[c.2]?).bind fun t => showCfs true m N names y t c.2 c.1
    else showCfs false m N names y 0 c.2 c.1

/-- `show_global_counterfactuals()`, counterfactual_rules.py:295-328: every sufficient rule with its probability and its output, then its
counterfactuals. `rules` holds `self.rules`, `self.sdp_rules`, `self.y_rules` and the regional counterfactuals of every rule. -/
def showGlobal (classifier : Bool) (m N : Nat) (names : List String) (y : Nat → ℚ) (targets : List ℚ)
    (rules : List ((Rule × ℚ × ℚ) × List (Rule × ℚ × (Nat → ℚ)))) : Option (List (List Shown × List (Nat × Nat × List Shown))) :=
  rules.zipIdx.mapM fun c => (printRule names (boxOf m c.1.1.1) c.1.1.2.1 true (some c.1.1.2.2)).bind fun head =>
    (if classifier then (targets[c.2]?).bind fun t => showCfs true m N names y t c.2 c.1.2 else showCfs false m N names y 0 c.2 c.1.2).map
      fun l => (head, l)

/-- An entry of `rule_string`, sdp_app.py:59-61, 76-78: `{lo} <= {col} <= {hi}`, with an infinite bound (`none`) in place of bounds beyond
`1e10`. -/
structure ShownBound where
  lo : Option ℚ
  col : Nat
  hi : Option ℚ
  deriving DecidableEq

/-- The conditions joined by `and` in `rule_string`, sdp_app.py:59-62, 76-79; the names of the columns are represented by their numbers. -/
def ruleString (S : List Nat) (rule : Rule) : List ShownBound :=
  S.map fun i => ⟨if (rule i).1 > -10000000000 then some (rule i).1 else none, i,
    if (rule i).2 < 10000000000 then some (rule i).2 else none⟩

end Acv
