import Verif.Model.Cdp
import Verif.Model.Rules
import Mathlib.Data.Rat.Floor

/-!
# Counterfactual rules

Models /repo/acv_explainers/utils_cr.py (`return_xy_cnt`, `return_leaf_cnt`, `get_compatible_leaf`, `return_counterfactuals`,
`return_global_counterfactuals`, the `ge` versions, the `reg` versions, `rules_by_annealing`, `generate_candidate`,
`simulated_annealing`) and the methods of `CR` (/repo/acv_explainers/counterfactual_rules.py) that call them.

Simplifications: exact rationals, one observation, NaN as `none`; a raised exception is `none` or `Except.error`; every random number
is a value of an arbitrary oracle; `np.argsort` is stable. The classifier and regression versions of a function differ by the test
`y == y_target` against `down <= y <= up`: `hit i` is the outcome of that test for training row `i`.
-/

namespace Acv

/-! ## Compatible leaves -/

/-- `return_xy_cnt`, utils_cr.py:7-25, and `return_xy_cnt_reg`, 361-382: the training rows with the wanted output that fall in the
projected leaf of `x`, the first ten rows with the wanted output if there is none. -/
def cntRows (N : Nat) (w : Nat → ℚ) (hit : Nat → Bool) : List Nat :=
  let l := (List.range N).filter fun i => decide (w i ≠ 0) && hit i
  if l = [] then ((List.range N).filter hit).take 10 else l

/-- A rule as the list of its `m` intervals. -/
def boxOf (m : Nat) (r : Rule) : Box := (List.range m).map r

/-- `rules_unique` of `return_leaf_cnt`, utils_cr.py:40-44 (and 398-402): the distinct rules with `sdp >= pi`, or the five rules of
largest `sdp`. -/
def pickLeaves (pi : ℚ) (cands : List (ℚ × Box)) : List Box :=
  let good := cands.filter fun p => decide (pi ≤ p.1)
  if good ≠ [] then npUnique (good.map Prod.snd)
  else ((cands.insertionSort fun p q => q.1 ≤ p.1).take 5).map Prod.snd

/-- `left_by_var[var]` of `return_possible_values`, utils_cr.py:620-635. -/
def crLeft (rule : Rule) (others : List Rule) (var : Nat) : List ℚ :=
  ((others.map fun r => (r var).1).filter (fun v => decide (v < (rule var).1)) ++ [(rule var).1]).dedup

/-- `right_by_var[var]`, utils_cr.py:620-635. -/
def crRight (rule : Rule) (others : List Rule) (var : Nat) : List ℚ :=
  ((others.map fun r => (r var).2).filter (fun v => decide ((rule var).2 < v)) ++ [(rule var).2]).dedup

/-- `bad_sample = 1. - (x_in > 0)`, utils_cr.py:770-777: the row is in neither the rule nor one of the other rules. -/
def crBad (m : Nat) (data : Nat → Row) (rule : Rule) (others : List Rule) (i : Nat) : Bool :=
  !(inClosedB m rule (data i) || others.any fun r => inClosedB m r (data i))

/-- The random numbers of one call of `rules_by_annealing`. -/
structure AnnealDraws where
  first : Nat → Draw
  draws : Nat → Nat → Nat → Draw
  accept : Nat → Bool

/-- One round of `rules_by_annealing`, utils_cr.py:760-787. The loop `rules_simulated_annealing` (718-757) is that of utils.py. -/
def crAnneal (m N : Nat) (data : Nat → Row) (rule : Rule) (others : List Rule) (nTry batch maxIter maxConv : Nat)
    (o : AnnealDraws) : Option Anneal :=
  annealing m N data (crBad m data rule others) (crLeft rule others) (crRight rule others) nTry batch maxIter maxConv rule
    o.first o.draws o.accept

/-- The loop of `return_leaf_cnt`, utils_cr.py:46-54 (404-418): each leaf is enlarged with the leaves that are not close to it;
`np.squeeze(sr[-1])` has the right shape when there are at least two columns. -/
def enlargeLeaves (m N : Nat) (data : Nat → Row) (leaves : List Box) (nTry batch maxIter maxConv : Nat) (o : Nat → AnnealDraws) :
    Option (List Box) :=
  leaves.zipIdx.mapM fun p =>
    (crAnneal m N data (ruleOf p.1) ((leaves.filter fun r => !allclose m (ruleOf r) (ruleOf p.1)).map ruleOf) nTry batch maxIter
      maxConv (o p.2)).map fun s => boxOf m s.best

/-- `np.round(v, 2)`: to the nearest multiple of 0.01, ties to even, utils_cr.py:86. -/
def roundCents (v : ℚ) : ℚ :=
  let k := ⌊v * 100⌋
  let r := v * 100 - k
  (if r < 1/2 then k else if 1/2 < r then k + 1 else if k % 2 = 0 then k else k + 1 : Int) / 100

/-- `np.round(compatible_leaves, 2)`, utils_cr.py:86. -/
def roundBox (b : Box) : Box := b.map fun p => (roundCents p.1, roundCents p.2)

/-- `partition_leaf` of `get_compatible_leaf`, utils_cr.py:83-88. -/
def compatibleLeaves (m : Nat) (leaves : List Box) : List Box := (removeIn m (npUnique leaves)).map roundBox

/-- `acc = np.mean(y_in == y_target)`, utils_cr.py:95-98: NaN if no training row is in the leaf. -/
def leafAcc (m N : Nat) (data : Nat → Row) (hit : Nat → Bool) (leaf : Box) : Option ℚ :=
  npMean (((List.range N).filter fun i => inClosedB m (ruleOf leaf) (data i)).map fun i => if hit i then 1 else 0)

/-- `np.argmax` of a list: the first NaN if there is one, the first maximum otherwise. -/
def argmaxNan (l : List (Option ℚ)) : Nat := if l.idxOf none < l.length then l.idxOf none else l.idxOf (npMax l)

/-- `acc >= acc_level`, utils_cr.py:101: false for NaN. -/
def reaches (level : ℚ) : Option ℚ → Bool
  | none => false
  | some a => decide (level ≤ a)

/-- The end of `get_compatible_leaf`, utils_cr.py:90-108: the leaves with `acc >= acc_level` (false for NaN), or the leaf
`np.argmax(leaves_acc)`; `np.argmax` raises on an empty list. -/
def sufLeaves (m N : Nat) (data : Nat → Row) (hit : Nat → Bool) (accLevel : ℚ) (part : List Box) : Except String (List Box) :=
  if part = [] then .error "ValueError"
  else
    let suf := part.filter fun b => reaches accLevel (leafAcc m N data hit b)
    if suf = [] then .ok [part.getD (argmaxNan (part.map (leafAcc m N data hit))) []] else .ok suf

/-- The candidate leaves of `return_leaf_cnt`, utils_cr.py:36-39: for every row of `x_train_cnt` the rule of `compute_sdp_rule` with all
the variables (`compute_cdp_rule` with `down` and `up` for a regression, 391-397). -/
def leafCands (m N : Nat) (mems : List Mem) (data : Nat → Row) (y : Nat → ℚ) (minSize maxDepth : Nat) (classifier : Bool)
    (target down up : ℚ) (rows : List Nat) : List (ℚ × Box) :=
  rows.map fun i =>
    let r := if classifier then sdpRule mems (List.range m) (data i) target data y minSize maxDepth N true (0, 0)
      else cdpRule mems (List.range m) (data i) (y i) down up data y minSize maxDepth N false
    (r.1, boxOf m r.2)

/-- `y_train == y_target` or `down <= y_train <= up`. -/
def wanted (classifier : Bool) (target down up : ℚ) (y : Nat → ℚ) (i : Nat) : Bool :=
  if classifier then decide (y i = target) else decide (down ≤ y i) && decide (y i ≤ up)

/-- The parameters shared by the functions of utils_cr.py: `m` columns, `N` training rows, the forest, the training set, the wanted
output and the levels. -/
structure CfArgs where
  m : Nat
  N : Nat
  mems : List Mem
  data : Nat → Row
  y : Nat → ℚ
  minSize : Nat
  maxDepth : Nat
  classifier : Bool
  target : ℚ
  down : ℚ
  up : ℚ
  nTry : Nat
  batch : Nat
  maxIter : Nat
  maxConv : Nat

/-- The test of the wanted output. -/
def CfArgs.hit (a : CfArgs) (i : Nat) : Bool := wanted a.classifier a.target a.down a.up a.y i

/-- `get_compatible_leaf`, utils_cr.py:69-108, and `get_compatible_leaf_reg`, 421-460: the first component (`suf_leaf`). -/
def getCompatible (a : CfArgs) (w : Nat → ℚ) (pi accLevel : ℚ) (o : Nat → AnnealDraws) : Except String (List Box) :=
  match enlargeLeaves a.m a.N a.data (pickLeaves pi (leafCands a.m a.N a.mems a.data a.y a.minSize a.maxDepth a.classifier a.target a.down
      a.up (cntRows a.N w a.hit))) a.nTry a.batch a.maxIter a.maxConv o with
  | none => .error "IndexError"
  | some l => sufLeaves a.m a.N a.data a.hit accLevel (compatibleLeaves a.m l)

/-! ## Counterfactual rules of an observation -/

/-- `cond` of `return_counterfactuals`, utils_cr.py:121-130: `[-1e10, 1e10]`, then `x` on `S_bar_set`, then the leaf on `S_star`. -/
def cfCond (sStar sBar : List Nat) (x : Row) (leaf : Box) : Rule :=
  fun s => if s ∈ sStar then ruleOf leaf s else if s ∈ sBar then (x s, x s) else (-10000000000, 10000000000)

/-- `cond` of `return_ge_counterfactuals`, utils_cr.py:208-209: the rule, then the leaf on `S_star`. -/
def geCond (sStar : List Nat) (cond : Rule) (leaf : Box) : Rule := fun s => if s ∈ sStar then ruleOf leaf s else cond s

/-- `np.argmax` of a list without NaN: the first maximum. -/
def argmaxQ (l : List ℚ) : Nat := argmaxNan (l.map some)

/-- The selection of `return_counterfactuals`, utils_cr.py:119-161 (199-233, 463-507, 546-580): the conditions whose probability reaches
`pi_level`, with probability and weights, or the condition of the first largest probability, computed again; `np.argmax` raises on an
empty list. -/
def selectCf {α : Type} (prob : Rule → ℚ × α) (pi : ℚ) (conds : List Rule) : Except String (List (Rule × ℚ × α)) :=
  let ok := conds.filter fun c => decide (pi ≤ (prob c).1)
  if ok ≠ [] then .ok (ok.map fun c => (c, prob c))
  else if conds = [] then .error "ValueError"
  else
    let c := conds.getD (argmaxQ (conds.map fun c => (prob c).1)) Rule.init
    .ok [(c, prob c)]

/-- The conditional probability and weights of `return_counterfactuals`, utils_cr.py:133-135, 479-482: `S = S_bar_set`. A classifier
passes `down = up = 0`, which are not read. -/
def cfProb (a : CfArgs) (sBar : List Nat) (x : Row) (cond : Rule) : ℚ × (Nat → ℚ) :=
  cdpCond a.mems sBar x cond a.target a.down a.up a.data a.y a.minSize a.maxDepth a.N a.classifier

/-- The conditional probability and weights of `return_ge_counterfactuals`, utils_cr.py:212-213, 557: `S = [-6]`, i.e. no variable. -/
def geProb (a : CfArgs) (x : Row) (cond : Rule) : ℚ × (Nat → ℚ) :=
  cdpCond a.mems [] x cond a.target a.down a.up a.data a.y a.minSize a.maxDepth a.N a.classifier

/-- `return_counterfactuals`, utils_cr.py:111-161, and `return_counterfactuals_reg`, 463-507. -/
def returnCf (a : CfArgs) (sStar sBar : List Nat) (x : Row) (pi : ℚ) (suf : List Box) : Except String (List (Rule × ℚ × (Nat → ℚ))) :=
  selectCf (cfProb a sBar x) pi (suf.map (cfCond sStar sBar x))

/-- `return_ge_counterfactuals`, utils_cr.py:199-233, and `return_ge_counterfactuals_reg`, 546-580. -/
def returnGe (a : CfArgs) (sStar : List Nat) (x : Row) (cond : Rule) (pi : ℚ) (suf : List Box) :
    Except String (List (Rule × ℚ × (Nat → ℚ))) :=
  selectCf (geProb a x) pi (suf.map (geCond sStar cond))

/-- `remove_in_wsdp(counterfactuals, counterfactuals_sdp, w_cond)`, utils_cr.py:188, 263. -/
def pruneCf {α : Type} (m : Nat) (l : List (Rule × ℚ × α)) : List (Rule × ℚ × α) :=
  npDelete l (removeList m (l.map fun p => boxOf m p.1))

/-- The body of the loop of `return_global_counterfactuals`, utils_cr.py:176-194 (and `_reg`, 522-541). -/
def localCf (a : CfArgs) (sStar sBar : List Nat) (x : Row) (w : Nat → ℚ) (accLevel pi : ℚ) (o : Nat → AnnealDraws) :
    Except String (List (Rule × ℚ × (Nat → ℚ))) :=
  match getCompatible a w pi accLevel o with
  | .error e => .error e
  | .ok suf =>
    match returnCf a sStar sBar x pi suf with
    | .error e => .error e
    | .ok l => .ok (pruneCf a.m l)

/-- The body of the loop of `return_ge_global_counterfactuals`, utils_cr.py:245-271 (and `_reg`, 592-617). -/
def regionalCf (a : CfArgs) (sStar : List Nat) (x : Row) (cond : Rule) (w : Nat → ℚ) (accLevel pi : ℚ) (o : Nat → AnnealDraws) :
    Except String (List (Rule × ℚ × (Nat → ℚ))) :=
  match getCompatible a w pi accLevel o with
  | .error e => .error e
  | .ok suf =>
    match returnGe a sStar x cond pi suf with
    | .error e => .error e
    | .ok l => .ok (pruneCf a.m l)

/-- `CR.run_local_counterfactual_rules` for one observation, /repo/acv_explainers/counterfactual_rules.py:62-98: for a regression it passes
`pi_level=acc_level`. -/
def runLocal (a : CfArgs) (sStar sBar : List Nat) (x : Row) (w : Nat → ℚ) (accLevel pi : ℚ) (o : Nat → AnnealDraws) :
    Except String (List (Rule × ℚ × (Nat → ℚ))) :=
  localCf a sStar sBar x w accLevel (if a.classifier then pi else accLevel) o

/-! ## Sampling -/

/-- `x_poss[i]`, utils_cr.py:286. -/
def possible (N : Nat) (data : Nat → Row) (cond : Rule) (s : Nat) : List ℚ :=
  ((List.range N).filter fun i => decide ((cond s).1 ≤ data i s) && decide (data i s ≤ (cond s).2)).map fun i => data i s

/-- One row of `generate_candidate`, utils_cr.py:285-297: `draw k` is the random number of the `k`-th variable of `S`; a variable
without possible value takes the lower bound. -/
def genCand (N : Nat) (data : Nat → Row) (cond : Rule) (S : List Nat) (x : Row) (draw : Nat → Nat) : Row :=
  S.zipIdx.foldl (fun c p => fun j =>
    if j = p.1 then (if possible N data cond p.1 = [] then (cond p.1).1 else pick (possible N data cond p.1) (draw p.2)) else c j) x

/-- One row of `generate_candidate` of /repo/acv_explainers/utils.py:1545-1553: `np.random.randint(0, 0)` raises (`none`) when a
variable has no possible value. -/
def genCandOld (N : Nat) (data : Nat → Row) (cond : Rule) (S : List Nat) (x : Row) (draw : Nat → Nat) : Option Row :=
  if S.all fun s => !(possible N data cond s).isEmpty then some (genCand N data cond S x draw) else none

/-- `candidate = x_cand[np.argmax(score_candidates)]`, utils_cr.py:328-329; `np.max` raises on an empty batch. -/
def bestRow (score : Row → ℚ) : List Row → Option Row
  | [] => none
  | c :: cs => some (cs.foldl (fun a b => if score a < score b then b else a) c)

/-- The variables of `simulated_annealing`; `seen` is a ghost list of the rows scored so far. -/
structure Sample where
  best : Row
  bestEval : ℚ
  curr : Row
  currEval : ℚ
  move : Nat
  seen : List Row

/-- The loop of `simulated_annealing`, utils_cr.py:323-346. `accept i` stands for `rand() < exp(-diff / t)`. -/
def sampleLoop (score : Row → ℚ) (gen : Nat → Row → Option (List Row)) (accept : Nat → Bool) (maxConv : Nat) :
    Nat → Nat → Sample → Option Sample
  | 0, _, s => some s
  | k + 1, i, s =>
    match gen i s.curr with
    | none => none
    | some cands =>
      match bestRow score cands with
      | none => none
      | some cand =>
        let s := { s with seen := s.seen ++ cands }
        let s := if s.bestEval < score cand then { s with best := cand, bestEval := score cand, move := 0 }
          else { s with move := s.move + 1 }
        if 0 < s.bestEval ∧ maxConv < s.move then some s
        else
          let s := if 0 < score cand - s.currEval ∨ accept i = true then { s with curr := cand, currEval := score cand } else s
          sampleLoop score gen accept maxConv k (i + 1) s

/-- `simulated_annealing`, utils_cr.py:300-348. `first` and `draws i b` are the random numbers of the first row and of row `b` of
iteration `i`. -/
def sampleCf (N : Nat) (data : Nat → Row) (score : Row → ℚ) (cond : Rule) (S : List Nat) (x : Row) (batch maxIter maxConv : Nat)
    (first : Nat → Nat) (draws : Nat → Nat → Nat → Nat) (accept : Nat → Bool) : Option Sample :=
  let b := genCand N data cond S x first
  sampleLoop score (fun i c => some ((List.range batch).map fun k => genCand N data cond S c (draws i k))) accept maxConv maxIter 0
    ⟨b, score b, b, score b, 0, [b]⟩

/-- `simulated_annealing` of utils.py:1556-1604. -/
def sampleCfOld (N : Nat) (data : Nat → Row) (score : Row → ℚ) (cond : Rule) (S : List Nat) (x : Row) (batch maxIter maxConv : Nat)
    (first : Nat → Nat) (draws : Nat → Nat → Nat → Nat) (accept : Nat → Bool) : Option Sample :=
  match genCandOld N data cond S x first with
  | none => none
  | some b =>
    sampleLoop score (fun i c => (List.range batch).mapM fun k => genCandOld N data cond S c (draws i k)) accept maxConv maxIter 0
      ⟨b, score b, b, score b, 0, [b]⟩

/-- The rule used by `CR.run_sampling_local_counterfactuals` for an observation, counterfactual_rules.py:118-123: the first rule of largest
probability, none if the list is empty. -/
def bestCf {α : Type} (l : List (Rule × ℚ × α)) : Option Rule :=
  if l = [] then none else (l[argmaxQ (l.map fun p => p.2.1)]?).map Prod.fst

/-- The sample of `CR.run_sampling_local_counterfactuals` for one observation, counterfactual_rules.py:117-124; `some none`: no rule, no
sample. `simulated_annealing` uses its default `max_iter_convergence=10`. -/
def runSampling {α : Type} (N : Nat) (data : Nat → Row) (score : Row → ℚ) (l : List (Rule × ℚ × α)) (sStar : List Nat) (x : Row)
    (batch maxIter : Nat) (first : Nat → Nat) (draws : Nat → Nat → Nat → Nat) (accept : Nat → Bool) : Option (Option Sample) :=
  match bestCf l with
  | none => some none
  | some cond => (sampleCf N data score cond sStar x batch maxIter 10 first draws accept).map some

/-- `CR.run_sampling_regional_counterfactuals`, counterfactual_rules.py:196-239: number of samples drawn, and `nb`, over the rules:
`(has counterfactuals, number of test rows in the rule)`. -/
def regionalCounts (maxObs : Nat) (rules : List (Bool × Nat)) : Nat × Nat :=
  rules.foldl (fun a r => if r.1 then
    (a.1 + (if 0 < r.2 then min r.2 maxObs else 0), a.2 + (if r.2 ≤ maxObs then r.2 else maxObs)) else a) (0, 0)

end Acv
