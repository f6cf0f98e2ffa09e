import Verif.Model.Counterfactual

/-!
# The figures reported by `CR`

Models the constructor of `CR` as far as `model` is concerned (/repo/acv_explainers/counterfactual_rules.py:6-9),
`run_sampling_local_counterfactuals` (99-139) and `run_sampling_regional_counterfactuals_alltests` (245-294). The explainer's
`predict`, the outlier score of the isolation forest and the random numbers are parameters. `np.mean([])` is NaN (`none`).
-/

namespace Acv

/-- `self.model = None`, counterfactual_rules.py:8: the argument `model` is not kept. -/
def crModel {M : Type} (_model : Option M) : Option M := none

/-- One observation of `run_sampling_local_counterfactuals`: the row, `down[i]`, `up[i]`, the rules found for it with their
probabilities, `S_star_local[i]` and the random numbers of its sampling. -/
structure CrObs (α : Type) where
  x : Row
  down : ℚ
  up : ℚ
  rules : List (Rule × ℚ × α)
  sStar : List Nat
  first : Nat → Nat
  draws : Nat → Nat → Nat → Nat
  accept : Nat → Bool

/-- `np.mean` of a list of booleans: NaN for an empty list. -/
def meanBool (l : List Bool) : Option ℚ := if l = [] then none else some ((l.count true : ℚ) / l.length)

/-- What the loop appends for one observation, counterfactual_rules.py:117-135: nothing without rule, else one entry of `errs_local`, and
one of `errs_local_original` if `self.model` is not `None`. `none`: an exception of `simulated_annealing`. -/
def crEntry {α : Type} (N : Nat) (data : Nat → Row) (score : Row → ℚ) (classifier : Bool) (pred : Row → ℚ) (model : Option (Row → ℚ))
    (batch maxIter : Nat) (o : CrObs α) : Option (List Bool × List Bool) :=
  (runSampling N data score o.rules o.sStar o.x batch maxIter o.first o.draws o.accept).map fun
    | none => ([], [])
    | some s =>
      ([if classifier then decide (pred s.best ≠ pred o.x) else decide (o.down ≤ pred s.best) && decide (pred s.best ≤ o.up)],
        match model with
        | none => []
        | some f => [decide (f s.best ≠ f o.x)])

/-- `accuracy_local`, `accuracy_local_original`, `coverage_local`. -/
structure CrFigures where
  accuracy : Option ℚ
  original : Option ℚ
  coverage : ℚ

/-- `run_sampling_local_counterfactuals`, counterfactual_rules.py:99-139, for a `CR` built with the argument `model`. With no observation
the code raises `ZeroDivisionError` (`none`). -/
def crLocal {α : Type} (N : Nat) (data : Nat → Row) (score : Row → ℚ) (classifier : Bool) (pred : Row → ℚ) (model : Option (Row → ℚ))
    (batch maxIter : Nat) (obs : List (CrObs α)) : Option CrFigures :=
  match obs.mapM (crEntry N data score classifier pred (crModel model) batch maxIter) with
  | none => none
  | some es =>
    if obs = [] then none
    else some ⟨meanBool (es.flatMap Prod.fst), meanBool (es.flatMap Prod.snd), ((es.flatMap Prod.fst).length : ℚ) / obs.length⟩

/-- One region of `run_sampling_regional_counterfactuals_alltests`: the rule, the counterfactual rules found for it with their
probabilities, and `S_star_regional[i]`. -/
structure CrRegion where
  rule : Rule
  cfs : List (Rule × ℚ)
  sStar : List Nat

/-- `x_in` of one region and one test row, counterfactual_rules.py:259-266 (lower bounds excluded, upper bounds included), times the
largest probability of its counterfactual rules, or 0 if there is none. -/
def regionWeight (m : Nat) (g : CrRegion) (x : Row) : ℚ :=
  if g.cfs = [] then 0
  else if (List.range m).all fun s => decide (x s ≤ (g.rule s).2) && decide ((g.rule s).1 < x s) then
    (g.cfs.map Prod.snd).foldl max ((g.cfs.map Prod.snd).headD 0) else 0

/-- `best_counterfactuals[i]`, counterfactual_rules.py:269-270: the first region of largest weight. -/
def bestRegion (m : Nat) (gs : List CrRegion) (x : Row) : Nat := argmaxQ (gs.map fun g => regionWeight m g x)

/-- The body of the loop for one test row, counterfactual_rules.py:272-289. `counterfactuals_samples_regional[best_id][k][0]` is a row of
two numbers, not a rule, so `cond[i, 0]` in `generate_candidate` (utils_cr.py:286) raises `IndexError` as soon as `S` is not empty. With an
empty `S` the observation itself comes back; the entry appended to `errs_regional` is then `entry`. -/
def allTestsRow (m : Nat) (gs : List CrRegion) (entry : Row → Bool) (x : Row) : Except String (List Bool) :=
  match gs[bestRegion m gs x]? with
  | none => .error "IndexError"
  | some g => if g.cfs = [] then .ok [] else if g.sStar = [] then .ok [entry x] else .error "IndexError"

/-- `run_sampling_regional_counterfactuals_alltests`, counterfactual_rules.py:245-294: `accuracy_regional`, `coverage_regional`. -/
def allTests (m : Nat) (gs : List CrRegion) (entry : Row → Bool) (tests : List Row) : Except String (Option ℚ × ℚ) :=
  match tests.mapM (allTestsRow m gs entry) with
  | .error e => .error e
  | .ok es => if tests = [] then .error "ZeroDivisionError" else .ok (meanBool es.flatten, (es.flatten.length : ℚ) / tests.length)

end Acv
