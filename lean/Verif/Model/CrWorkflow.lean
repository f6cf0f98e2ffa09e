import Verif.Model.Divergent
import Verif.Model.CrMetrics

/-!
# The stages of a `CR` object

Models which attributes the stages of `CR` (/repo/acv_explainers/counterfactual_rules.py:6-243) read and write: a stage does not receive
the result of the stage before it, it reads it from the object. What a stage computes is a parameter (`CrEngine`); `crEngine` below fills
it with the functions of `Verif/Model/Divergent.lean`, `Verif/Model/Cdp.lean` and `Verif/Model/Counterfactual.lean`.

The arguments of a call other than the observations (targets, levels, random numbers of the call) are one value of type `P`.
Exceptions are values, by name. Not modelled: the means and the coverage (`Verif/Model/CrMetrics.lean`), and
`run_sampling_regional_counterfactuals_alltests` (there too).
-/

namespace Acv

/-- What the stages compute. `X`: observations, `P`: the other arguments of a call, `S`: a divergent set with its complement and
weights, `R`: the counterfactual rules of an observation or of a region with their probabilities, `G`: a region (a sufficient rule),
`D`: a sample with its score. -/
structure CrEngine (X P S R G D : Type) where
  /-- `importance_cdp_rf`, `get_active_null_coalition_list`, `compute_cdp_weights`, counterfactual_rules.py:52-61. -/
  localSets : List X → P → Except String (List S)
  /-- The body of the loop of `return_global_counterfactuals`, utils_cr.py:121-150, for one observation. -/
  localRule : X → P → Nat → S → Except String R
  /-- `len(counterfactuals_samples_local[i]) == 0`. -/
  noRule : R → Bool
  /-- `simulated_annealing`, counterfactual_rules.py:118-121; the first argument is the call that fitted the isolation forest. -/
  localSample : P → X → P → Nat → S → R → Except String D
  /-- `importance_sdp_rf`, `get_active_null_coalition_list`, `compute_sdp_maxrules`, counterfactual_rules.py:144-155. -/
  regions : List X → P → Except String (List G)
  /-- `importance_cdp_intv`, `get_active_null_coalition_list`, `compute_cdp_intv_weights`, counterfactual_rules.py:165-180. -/
  regionalSets : List X → List G → P → Except String (List S)
  /-- The body of the loop of `return_ge_global_counterfactuals`, utils_cr.py:245-271, for one region: the first `P` is the call of
  `run_regional_divergent_set` (targets), the second the present call. -/
  regionalRule : X → P → P → Nat → G → S → Except String R
  /-- `y_rules_target` and `down_up` are both given in a call of `run_regional_divergent_set`. -/
  given : P → Bool
  /-- `self.x_test[x_in][:max_obs]`, counterfactual_rules.py:219-224. -/
  tests : P → G → List X
  /-- `simulated_annealing`, counterfactual_rules.py:225-228, for the `k`-th test row of region `i`. -/
  regionalSample : P → X → P → Nat → Nat → S → R → Except String D

/-- The attributes of the object. `none` is `None` or a missing attribute. -/
structure CrState (X P S R G D : Type) where
  /-- `S_star_local`, `S_bar_set_local`, `w_local`. -/
  sets : Option (List S) := none
  /-- `counterfactuals_samples_local`, `counterfactuals_samples_sdp_local`. -/
  rules : Option (List R) := none
  /-- `isolation`: the call that fitted it. `none` is the pair `(None, None)` of the constructor. -/
  isolation : Option P := none
  /-- `dist_local`, `score_local`. -/
  samples : Option (List D) := none
  /-- `x_rules`. -/
  xRules : Option (List X) := none
  /-- `rules`. -/
  regions : Option (List G) := none
  /-- `y_rules_target`, `down_up`. -/
  targets : Option P := none
  /-- `S_star_regional`, `S_bar_set_regional`, `w_regional`. -/
  regionalSets : Option (List S) := none
  /-- `counterfactuals_samples_regional`, `counterfactuals_samples_sdp_regional`. -/
  regionalRules : Option (List R) := none
  /-- `dist_regional`, `score_regional`. -/
  regionalSamples : Option (List D) := none

/-- The calls. -/
inductive CrCall (X P : Type) where
  /-- `run_local_divergent_set(x, ...)` -/
  | localSets (x : List X) (p : P)
  /-- `run_local_counterfactual_rules(x, ...)` -/
  | localRules (x : List X) (p : P)
  /-- `run_sampling_local_counterfactuals(x, ...)` -/
  | localSampling (x : List X) (p : P)
  /-- `run_sufficient_rules(x_rule, y_rule, ...)` -/
  | sufficientRules (x : List X) (p : P)
  /-- `run_regional_divergent_set(...)` -/
  | regionalSets (p : P)
  /-- `run_regional_counterfactual_rules(...)` -/
  | regionalRules (p : P)
  /-- `run_sampling_regional_counterfactuals(...)` -/
  | regionalSampling (p : P)

/-- `attribute[i]` where the attribute may still be `None`. -/
def pyIndex {α : Type} (l : Option (List α)) (i : Nat) : Except String α :=
  match l with
  | none => .error "TypeError"
  | some l =>
    match l[i]? with
    | none => .error "IndexError"
    | some a => .ok a

/-- A loop that appends: the samples appended before the exception stay in the attribute. -/
def appendLoop {α D : Type} (f : α → Except String (List D)) : List α → List D → List D × Option String
  | [], acc => (acc, none)
  | a :: l, acc =>
    match f a with
    | .error e => (acc, some e)
    | .ok ds => appendLoop f l (acc ++ ds)

variable {X P S R G D : Type}

/-- The body of the loop of `run_local_counterfactual_rules`, counterfactual_rules.py:74-97, utils_cr.py:121-150: row `i` of the argument
with row `i` of the stored sets. -/
def localRuleRow (e : CrEngine X P S R G D) (st : CrState X P S R G D) (p : P) (r : X × Nat) : Except String R :=
  match pyIndex st.sets r.2 with
  | .error err => .error err
  | .ok s => e.localRule r.1 p r.2 s

/-- The body of the loop of `run_sampling_local_counterfactuals`, counterfactual_rules.py:116-123. -/
def localSampleRow (e : CrEngine X P S R G D) (st : CrState X P S R G D) (p : P) (r : X × Nat) : Except String (List D) :=
  match pyIndex st.rules r.2 with
  | .error err => .error err
  | .ok c =>
    if e.noRule c then .ok []
    else
      match pyIndex st.sets r.2 with
      | .error err => .error err
      | .ok s => (e.localSample p r.1 p r.2 s c).map fun d => [d]

/-- The body of the loop of `return_ge_global_counterfactuals`, utils_cr.py:245-271: row `i` of `x_rules` with row `i` of the stored sets
and of the regions. -/
def regionalRuleRow (e : CrEngine X P S R G D) (st : CrState X P S R G D) (t p : P) (r : X × Nat) : Except String R :=
  match pyIndex st.regionalSets r.2 with
  | .error err => .error err
  | .ok s =>
    match pyIndex st.regions r.2 with
    | .error err => .error err
    | .ok g => e.regionalRule r.1 t p r.2 g s

/-- One test row of a region, counterfactual_rules.py:224-230: without isolation forest `self.isolation.decision_function` is an
attribute of a tuple. -/
def regionalSampleTest (e : CrEngine X P S R G D) (st : CrState X P S R G D) (p : P) (i : Nat) (c : R) (z : X × Nat) :
    Except String (List D) :=
  match pyIndex st.regionalSets i with
  | .error err => .error err
  | .ok s =>
    match st.isolation with
    | none => .error "AttributeError"
    | some f => (e.regionalSample f z.1 p i z.2 s c).map fun d => [d]

/-- The test rows of the regions in the order of the loops of `run_sampling_regional_counterfactuals`, counterfactual_rules.py:217-224: a
region of which the rules or the bounds cannot be read gives the exception. -/
def regionalSampleRow (e : CrEngine X P S R G D) (st : CrState X P S R G D) (p : P) (i : Nat) :
    Except String (List (Nat × R × (X × Nat))) :=
  match pyIndex st.regionalRules i with
  | .error err => .error err
  | .ok c =>
    if e.noRule c then .ok []
    else
      match pyIndex st.regions i with
      | .error err => .error err
      | .ok g => .ok ((e.tests p g).zipIdx.map fun z => (i, c, z))

/-- The two nested loops, counterfactual_rules.py:217-239. -/
def regionalLoop (e : CrEngine X P S R G D) (st : CrState X P S R G D) (p : P) : List Nat → List D → List D × Option String
  | [], acc => (acc, none)
  | i :: l, acc =>
    match regionalSampleRow e st p i with
    | .error err => (acc, some err)
    | .ok zs =>
      match appendLoop (fun z => regionalSampleTest e st p z.1 z.2.1 z.2.2) zs acc with
      | (acc', some err) => (acc', some err)
      | (acc', none) => regionalLoop e st p l acc'

/-- A call: the object afterwards, and the exception raised if any. An attribute is written when the right-hand side has been computed;
the sampling stages empty their lists first, and the local one fits the isolation forest before. `run_regional_divergent_set` reads
`self.x_rules.shape` (counterfactual_rules.py:158-161) before it stores the targets (163) unless both are given. With `rules` still `None`
(only after a failed `run_sufficient_rules`) the compiled routine gets `None` for an array; that is an exception here. -/
def CrState.call (e : CrEngine X P S R G D) (st : CrState X P S R G D) : CrCall X P → CrState X P S R G D × Option String
  | .localSets x p =>
    match e.localSets x p with
    | .error err => (st, some err)
    | .ok s => ({ st with sets := some s }, none)
  | .localRules x p =>
    match x.zipIdx.mapM (localRuleRow e st p) with
    | .error err => (st, some err)
    | .ok r => ({ st with rules := some r }, none)
  | .localSampling x p =>
    let o := appendLoop (localSampleRow e st p) x.zipIdx []
    ({ st with isolation := some p, samples := some o.1 }, o.2)
  | .sufficientRules x p =>
    match e.regions x p with
    | .error err => ({ st with xRules := some x }, some err)
    | .ok g => ({ st with xRules := some x, regions := some g }, none)
  | .regionalSets p =>
    match st.xRules, st.regions with
    | none, _ => (if e.given p then { st with targets := some p } else st, some "AttributeError")
    | some _, none => ({ st with targets := some p }, some "rules is None")
    | some x, some g =>
      match e.regionalSets x g p with
      | .error err => ({ st with targets := some p }, some err)
      | .ok s => ({ st with targets := some p, regionalSets := some s }, none)
  | .regionalRules p =>
    match st.xRules, st.targets with
    | some x, some t =>
      match x.zipIdx.mapM (regionalRuleRow e st t p) with
      | .error err => (st, some err)
      | .ok r => ({ st with regionalRules := some r }, none)
    | _, _ => (st, some "AttributeError")
  | .regionalSampling p =>
    match st.xRules, st.targets with
    | some x, some _ =>
      let o := regionalLoop e st p (List.range x.length) []
      ({ st with regionalSamples := some o.1 }, o.2)
    | _, _ => (st, some "AttributeError")

/-! ## The stages filled in -/

/-- The arguments of a call besides the observations: `y_target`, `down`, `up` by row (`y_rules_target`, `down_up` for the regional
stages), whether they were given, the levels, `stop`, the options of the samplings and the random numbers. `score` is the decision function
of the isolation forest fitted by the call. -/
structure CrParams where
  target : Nat → ℚ
  down : Nat → ℚ
  up : Nat → ℚ
  given : Bool
  acc : ℚ
  pi : ℚ
  stop : Bool
  half : Nat
  draws : Nat → Nat → AnnealDraws
  score : Row → ℚ
  batch : Nat
  maxIter : Nat
  maxObs : Nat
  first : Nat → Nat → Nat → Nat
  rand : Nat → Nat → Nat → Nat → Nat → Nat
  accept : Nat → Nat → Nat → Bool

/-- A divergent set, its complement and the weights of the training rows. -/
abbrev CrSet := List Nat × List Nat × (Nat → ℚ)

/-- Counterfactual rules with their probabilities and weights. -/
abbrev CrRules := List (Rule × ℚ × (Nat → ℚ))

/-- `get_active_null_coalition_list` for row `i`, /repo/acv_explainers/utils.py:820-827. -/
def crSplit (m : Nat) (b : Best) : List Nat × List Nat :=
  ((activeNull m b.star b.len).1.map Int.toNat, (activeNull m b.star b.len).2.map Int.toNat)

/-- The arguments of the projected-forest calls. -/
def crCallOf (a : CfArgs) (x : List Row) (p : CrParams) : RfCall where
  mems := a.mems
  X := fun i => x.getD i fun _ => 0
  yX := p.target
  data := a.data
  y := a.y
  minSize := a.minSize
  maxDepth := a.maxDepth
  nData := a.N
  classifier := a.classifier
  t := fun i => (p.down i, p.up i)

/-- The wanted output of row `i`. -/
def crArgs (a : CfArgs) (p : CrParams) (i : Nat) : CfArgs := { a with target := p.target i, down := p.down i, up := p.up i }

/-- `run_local_divergent_set`, counterfactual_rules.py:43-61. `order`: the columns by importance. -/
def crLocalSets (a : CfArgs) (order : List Nat) (x : List Row) (p : CrParams) : Except String (List CrSet) :=
  match importanceCdpRf (crCallOf a x p) p.down p.up x.length a.m order [[]] p.pi 1 p.stop p.half with
  | none => .error "undefined"
  | some b => .ok (x.zipIdx.map fun r =>
      let s := crSplit a.m (b.best r.2)
      (s.1, s.2, (cdpWeights a.mems s.2 r.1 (p.target r.2) (p.down r.2) (p.up r.2) a.data a.y a.minSize a.maxDepth a.N a.classifier).2))

/-- `run_regional_divergent_set`, counterfactual_rules.py:157-180. -/
def crRegionalSets (a : CfArgs) (order : List Nat) (x : List Row) (g : List Rule) (p : CrParams) : Except String (List CrSet) :=
  match importanceCdpIntv (crCallOf a x p) (fun i => g.getD i Rule.init) x.length a.m order [[]] p.pi 1 p.stop p.half with
  | none => .error "undefined"
  | some b => .ok (x.zipIdx.map fun r =>
      let s := crSplit a.m (b.best r.2)
      (s.1, s.2, (cdpIntv a.mems s.2 (g.getD r.2 Rule.init) (p.target r.2) (p.down r.2, p.up r.2) a.data a.y a.minSize a.maxDepth a.N
        a.classifier).2))

/-- `simulated_annealing` on the rule of largest probability, counterfactual_rules.py:118-121 and 225-228. -/
def crSample (a : CfArgs) (score : Row → ℚ) (p : CrParams) (i k : Nat) (z : Row) (s : CrSet) (c : CrRules) : Except String Sample :=
  match runSampling a.N a.data score c s.1 z p.batch p.maxIter (p.first i k) (p.rand i k) (p.accept i k) with
  | some (some d) => .ok d
  | _ => .error "ValueError"

/-- `x_test[x_in][:max_obs]`, counterfactual_rules.py:219-224: both bounds included. -/
def crTests (m : Nat) (xTest : List Row) (maxObs : Nat) (g : Rule) : List Row :=
  (xTest.filter fun z => (List.range m).all fun s => decide (z s ≤ (g s).2) && decide ((g s).1 ≤ z s)).take maxObs

/-- The engine of a `CR` object with training set and forest `a` and test rows `xTest`. The regions found by `compute_sdp_maxrules` are a
parameter. -/
def crEngine (a : CfArgs) (order : List Nat) (xTest : List Row) (regions : List Row → CrParams → Except String (List Rule)) :
    CrEngine Row CrParams CrSet CrRules Rule Sample where
  localSets := crLocalSets a order
  localRule := fun x p i s => runLocal (crArgs a p i) s.1 s.2.1 x s.2.2 p.acc p.pi (p.draws i)
  noRule := List.isEmpty
  localSample := fun f x p i s c => crSample a f.score p i 0 x s c
  regions := regions
  regionalSets := crRegionalSets a order
  regionalRule := fun x t p i g s => regionalCf (crArgs a t i) s.1 x g s.2.2 p.acc p.pi (p.draws i)
  given := CrParams.given
  tests := fun p g => crTests a.m xTest p.maxObs g
  regionalSample := fun f z p i k s c => crSample a f.score p i k z s c

/-! ## Histories -/

/-- The object after a sequence of calls on a new object (`__init__`, counterfactual_rules.py:6-41); the caller goes on after an
exception. -/
def CrState.after (e : CrEngine X P S R G D) (h : List (CrCall X P)) : CrState X P S R G D :=
  h.foldl (fun st c => (st.call e c).1) {}

/-- The exception raised by the last call of `h ++ [c]`, if any. -/
def crRaised (e : CrEngine X P S R G D) (h : List (CrCall X P)) (c : CrCall X P) : Option String := ((CrState.after e h).call e c).2

end Acv
