import Verif.Model.LeafShap
import Verif.Model.Tree
import Verif.Model.Rules

/-!
# The plot of Shapley values

`waterfall` (/repo/acv_app/plots.py:90-330) and the page that calls it (/repo/acv_app/sv_app.py:6-30).

Simplification: of the drawing, only the arrows (row, start and signed length), their labels and the two vertical lines are modelled.
`np.argsort` is not stable, so the order of the features is a parameter.
-/

namespace Acv

/-- What the label of a row names: one feature, plots.py:192-195, or `"%d other features"`, 199. -/
inductive BarLabel where
  | feature (j : Nat)
  | others (count : Nat)
  deriving DecidableEq

/-- An arrow of the plot: an entry of `pos_inds`, `pos_lefts`, `pos_widths` (`red`) or of `neg_inds`, `neg_lefts`, `neg_widths`, with the
label of its row. -/
structure Bar where
  row : Nat
  left : ℚ
  width : ℚ
  red : Bool
  label : BarLabel
  deriving DecidableEq

/-- The loop over the individual features, plots.py:172-195: the arrows from the top row down, and the last `loc`. `top` is `rng[i] + 1`. -/
def waterLoop (v : Nat → ℚ) : List Nat → Nat → ℚ → List Bar × ℚ
  | [], _, loc => ([], loc)
  | j :: js, top, loc =>
    let loc' := loc - v j
    let rest := waterLoop v js (top - 1) loc'
    (⟨top - 1, loc', v j, decide (v j ≥ 0), .feature j⟩ :: rest.1, rest.2)

/-- What is drawn: the arrows, the line of the base value and the line of the prediction (plots.py:318-320). -/
structure WaterPlot where
  bars : List Bar
  base : ℚ
  fx : ℚ
  deriving DecidableEq

/-- `waterfall(base_values, values, ..., max_display)`, plots.py:145-320. `n` is `len(values)`, `order` is `np.argsort(-np.abs(values))`.
`none`: the maximum of an empty list (ValueError, 214) or the division by zero (318). -/
def waterfall (base : ℚ) (n : Nat) (v : Nat → ℚ) (order : List Nat) (maxDisplay : Nat) : Option WaterPlot :=
  let numFeatures := min maxDisplay n
  let fx := base + ((List.range n).map v).sum
  let numIndividual := if numFeatures = n then numFeatures else numFeatures - 1
  let l := waterLoop v (order.take numIndividual) numFeatures fx
  let last :=
    if numFeatures < n then
      let remaining := base - l.2
      if remaining < 0 then [(⟨0, l.2 + remaining, -remaining, true, .others (n - numFeatures + 1)⟩ : Bar)]
      else [⟨0, l.2 + remaining, -remaining, false, .others (n - numFeatures + 1)⟩]
    else []
  if numFeatures = 0 then none else some ⟨l.1 ++ last, base, fx⟩

/-- `write_pg`, sv_app.py:6-30, for the observation `idx` of the box (13-16): the Shapley values of the first 100 rows of the test set
(`sv`, 12), the mean prediction of the test set (26, 29) and the plot with the default `max_display=10`. `pred` are the predictions of
class 1 or of the single output, `order` the result of `np.argsort`. `none`: an error (the index is not among the first 100 rows). -/
def svPage (m : Nat) (sv : Row → Nat → ℚ) (pred : Row → ℚ) (test : List Row) (order : (Nat → ℚ) → List Nat) (idx : Nat) : Option WaterPlot :=
  match (test.take 100)[idx]?, npMean (test.map pred) with
  | some x, some base => waterfall base m (sv x) (order (sv x)) 10
  | _, _ => none

end Acv
