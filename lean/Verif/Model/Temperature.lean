import Verif.Model.MaxRule
import Verif.Model.Counterfactual
import Mathlib.Analysis.SpecialFunctions.Log.Basic

/-!
# The temperature of the searches by simulated annealing

Models the acceptance of a candidate in `rules_simulated_annealing` (/repo/acv_explainers/utils.py:2148-2154, /repo/acv_explainers/utils_cr.py:749-755)
and in `simulated_annealing` (utils.py:1593-1599, utils_cr.py:339-345), which `MaxRule` and `Counterfactual` leave arbitrary.

Simplifications: real numbers; the temperature is not 0; `u i` is the number that `rand()` returns in iteration `i`.
-/

namespace Acv

/-- `t = temp / np.log(float(i + 1))` and `metropolis = np.exp(-diff / t)`, utils_cr.py:340-341. In iteration 0 the logarithm is 0, so that numpy's
`t` is infinite, `-diff / t` is 0 and the exponential is 1. -/
noncomputable def metropolis (temp : ℝ) (i : Nat) (diff : ℝ) : ℝ :=
  if i = 0 then 1 else Real.exp (-diff / (temp / Real.log (i + 1)))

open Classical in
/-- `diff > 0 or rand() < metropolis`, utils_cr.py:343. -/
noncomputable def accepts (temp : ℝ) (u : Nat → ℝ) (i : Nat) (diff : ℚ) : Bool :=
  decide (0 < diff ∨ u i < metropolis temp i diff)

/-- The loop of `rules_simulated_annealing`, utils.py:2131-2154 and utils_cr.py:732-755, with its acceptance. -/
noncomputable def annealLoopT (temp : ℝ) (u : Nat → ℝ) (value : Rule → ℚ) (gen : Nat → Rule → Option (List Rule)) (maxConv : Nat) :
    Nat → Nat → Anneal → Option Anneal
  | 0, _, s => some s
  | k + 1, i, s =>
    match gen i s.curr with
    | none => none
    | some cands =>
      match bestCand value cands with
      | none => none
      | some cand =>
        let s := { s with seen := s.seen ++ cands }
        let s := if s.bestEval < value cand then { s with best := cand, bestEval := value cand, move := 0 }
          else { s with move := s.move + 1 }
        if maxConv < s.move then some s
        else
          let s := if accepts temp u i (value cand - s.currEval) = true then { s with curr := cand, currEval := value cand } else s
          annealLoopT temp u value gen maxConv k (i + 1) s

/-- `rules_simulated_annealing`, utils.py:2119-2156 and utils_cr.py:722-757, with its acceptance. -/
noncomputable def annealingT (temp : ℝ) (u : Nat → ℝ) (m N : Nat) (data : Nat → Row) (bad : Nat → Bool) (left right : Nat → List ℚ)
    (nTry batch maxIter maxConv : Nat) (rule : Rule) (first : Nat → Draw) (draws : Nat → Nat → Nat → Draw) : Option Anneal :=
  match validRule m N data bad left right nTry rule first with
  | none => none
  | some b =>
    if m = 1 ∧ maxIter ≠ 0 then none
    else
      let v := volume m N data b
      annealLoopT temp u (volume m N data) (fun i c => genRules m N data bad left right nTry batch c (draws i)) maxConv maxIter 0
        ⟨b, v, b, v, 0, [b]⟩

/-- The loop of `simulated_annealing`, utils_cr.py:323-346, with its acceptance. -/
noncomputable def sampleLoopT (temp : ℝ) (u : Nat → ℝ) (score : Row → ℚ) (gen : Nat → Row → Option (List Row)) (maxConv : Nat) :
    Nat → Nat → Sample → Option Sample
  | 0, _, s => some s
  | k + 1, i, s =>
    match gen i s.curr with
    | none => none
    | some cands =>
      match bestRow score cands with
      | none => none
      | some cand =>
        let s := { s with seen := s.seen ++ cands }
        let s := if s.bestEval < score cand then { s with best := cand, bestEval := score cand, move := 0 }
          else { s with move := s.move + 1 }
        if 0 < s.bestEval ∧ maxConv < s.move then some s
        else
          let s := if accepts temp u i (score cand - s.currEval) = true then { s with curr := cand, currEval := score cand } else s
          sampleLoopT temp u score gen maxConv k (i + 1) s

/-- `simulated_annealing`, utils_cr.py:300-348, with its acceptance. -/
noncomputable def sampleCfT (temp : ℝ) (u : Nat → ℝ) (N : Nat) (data : Nat → Row) (score : Row → ℚ) (cond : Rule) (S : List Nat) (x : Row)
    (batch maxIter maxConv : Nat) (first : Nat → Nat) (draws : Nat → Nat → Nat → Nat) : Option Sample :=
  let b := genCand N data cond S x first
  sampleLoopT temp u score (fun i c => some ((List.range batch).map fun k => genCand N data cond S c (draws i k))) maxConv maxIter 0
    ⟨b, score b, b, score b, 0, [b]⟩

end Acv
