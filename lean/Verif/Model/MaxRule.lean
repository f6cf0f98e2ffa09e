import Verif.Model.Projected

/-!
# Maximal rules by simulated annealing

Models `ACXplainer.compute_sdp_maxrules` with `algo2=False` (/repo/acv_explainers/acv_agnosticX.py:328-422), i.e.
`compute_sdp_maxrule` (/repo/acv_explainers/cyext_acv/cyext_acv.pyx:5325-5357) followed by `rules_by_annealing`
(/repo/acv_explainers/utils.py:2015-2175) with `value_function = volume_rectangles`.

Simplifications: exact rationals; one observation; a rule is a function of the column and only the columns below `m` are
read; `none` stands for a raised exception. Every random number is a value of an arbitrary oracle.
-/

namespace Acv

/-- The random numbers of one call of `generate_newrule`, utils.py:2034-2053: whether `np.random.rand() > p_best`, and for every
column the two numbers drawn by `rdm_sample_fromlist`. -/
structure Draw where
  explore : Bool
  lo : Nat → Nat
  hi : Nat → Nat

/-- `left_by_var[var]`, utils.py:2015-2031: the lower bounds `<= rule[var, 0]` of the rules with `sdp >= pi_level`, and
`rule[var, 0]` itself. The order of `list(set)` is arbitrary; here the order of the rows. -/
def possibleLeft (rule : Rule) (N : Nat) (ruleData : Nat → Rule) (sdp : Nat → ℚ) (pi : ℚ) (var : Nat) : List ℚ :=
  (((((List.range N).filter fun i => decide (pi ≤ sdp i)).map fun i => (ruleData i var).1).filter
    fun v => decide (v ≤ (rule var).1)) ++ [(rule var).1]).dedup

/-- `right_by_var[var]`, utils.py:2015-2031. -/
def possibleRight (rule : Rule) (N : Nat) (ruleData : Nat → Rule) (sdp : Nat → ℚ) (pi : ℚ) (var : Nat) : List ℚ :=
  (((((List.range N).filter fun i => decide (pi ≤ sdp i)).map fun i => (ruleData i var).2).filter
    fun v => decide ((rule var).2 ≤ v)) ++ [(rule var).2]).dedup

/-- `rdm_sample_fromlist`, utils.py:2034-2035: `np.random.randint(0, len)` (the oracle's number modulo `len`). -/
def pick (l : List ℚ) (k : Nat) : ℚ := l.getD (k % l.length) 0

/-- `generate_newrule`, utils.py:2038-2053. `none`: `np.random.randint(0, 0)` raises on an empty list. -/
def newRule (m : Nat) (rule : Rule) (left right : Nat → List ℚ) (d : Draw) : Option Rule :=
  let L := fun i => if d.explore then left i else (left i).filter fun v => decide (v ≤ (rule i).1)
  let R := fun i => if d.explore then right i else (right i).filter fun v => decide ((rule i).2 ≤ v)
  if (List.range m).all fun i => !(L i).isEmpty && !(R i).isEmpty then
    some fun i => if i < m then (pick (L i) (d.lo i), pick (R i) (d.hi i)) else rule i
  else none

/-- `np.prod([(x[s] <= rule[s, 1]) * (x[s] >= rule[s, 0]) for s in range(d)])`, utils.py:2057-2058. -/
def inClosedB (m : Nat) (rule : Rule) (z : Row) : Bool :=
  (List.range m).all fun s => decide (z s ≤ (rule s).2) && decide ((rule s).1 ≤ z s)

/-- `check_rule`, utils.py:2056-2059, with `bad_sample = 1. - (sdp_all >= pi_level)` (2165). -/
def checkRule (m N : Nat) (data : Nat → Row) (bad : Nat → Bool) (rule : Rule) : Bool :=
  (List.range N).all fun i => !(inClosedB m rule (data i) && bad i)

/-- The loop of `generate_valid_rule`, utils.py:2062-2072: `k` attempts remain, `it` were made. -/
def validLoop (m N : Nat) (data : Nat → Row) (bad : Nat → Bool) (left right : Nat → List ℚ) (rule : Rule)
    (draws : Nat → Draw) : Nat → Nat → Option Rule
  | 0, _ => some rule
  | k + 1, it =>
    match newRule m rule left right (draws it) with
    | none => none
    | some g => if checkRule m N data bad g then some g else validLoop m N data bad left right rule draws k (it + 1)

/-- `generate_valid_rule`, utils.py:2062-2072: `while valid == False and it <= n_try`. -/
def validRule (m N : Nat) (data : Nat → Row) (bad : Nat → Bool) (left right : Nat → List ℚ) (nTry : Nat) (rule : Rule)
    (draws : Nat → Draw) : Option Rule :=
  validLoop m N data bad left right rule draws (nTry + 1) 0

/-- `generate_rules`, utils.py:2075-2078. -/
def genRules (m N : Nat) (data : Nat → Row) (bad : Nat → Bool) (left right : Nat → List ℚ) (nTry nGen : Nat) (rule : Rule)
    (draws : Nat → Nat → Draw) : Option (List Rule) :=
  (List.range nGen).mapM fun b => validRule m N data bad left right nTry rule (draws b)

/-- `np.max(x_train[:, j])`, utils.py:2123. -/
def colMax (data : Nat → Row) (N j : Nat) : ℚ := (List.range N).foldl (fun a i => max a (data i j)) (data 0 j)

/-- `np.min(x_train[:, j])`, utils.py:2124. -/
def colMin (data : Nat → Row) (N j : Nat) : ℚ := (List.range N).foldl (fun a i => min a (data i j)) (data 0 j)

/-- `convert_boundvalues` on one bound, utils.py:2081-2091: `<= -1e10` becomes the minimum, then `>= 1e10` the maximum. -/
def convBound (mn mx v : ℚ) : ℚ :=
  let v := if v ≤ -10000000000 then mn else v
  if 10000000000 ≤ v then mx else v

/-- `volume_rectangle`, utils.py:2094-2101. -/
def volume (m N : Nat) (data : Nat → Row) (r : Rule) : ℚ :=
  (List.range m).foldl (fun v i =>
    v * (convBound (colMin data N i) (colMax data N i) (r i).2 - convBound (colMin data N i) (colMax data N i) (r i).1)) 1

/-- `np.max(score_candidates)` and `x_cand[np.argmax(score_candidates)]` (first maximum), utils.py:2136-2137; `none`: `np.max`
raises on an empty batch. -/
def bestCand (value : Rule → ℚ) : List Rule → Option Rule
  | [] => none
  | c :: cs => some (cs.foldl (fun a b => if value a < value b then b else a) c)

/-- The variables of `rules_simulated_annealing`; `seen` is a ghost list of all the rules evaluated so far. -/
structure Anneal where
  best : Rule
  bestEval : ℚ
  curr : Rule
  currEval : ℚ
  move : Nat
  seen : List Rule

/-- The loop of `rules_simulated_annealing`, utils.py:2131-2154. `accept i` stands for `rand() < exp(-diff / t)`, which is left
arbitrary. -/
def annealLoop (value : Rule → ℚ) (gen : Nat → Rule → Option (List Rule)) (accept : Nat → Bool) (maxConv : Nat) :
    Nat → Nat → Anneal → Option Anneal
  | 0, _, s => some s
  | k + 1, i, s =>
    match gen i s.curr with
    | none => none
    | some cands =>
      match bestCand value cands with
      | none => none
      | some cand =>
        let s := { s with seen := s.seen ++ cands }
        let s := if s.bestEval < value cand then { s with best := cand, bestEval := value cand, move := 0 }
          else { s with move := s.move + 1 }
        if maxConv < s.move then some s
        else
          let s := if 0 < value cand - s.currEval ∨ accept i = true then { s with curr := cand, currEval := value cand } else s
          annealLoop value gen accept maxConv k (i + 1) s

/-- `rules_simulated_annealing`, utils.py:2119-2156. `curr = np.squeeze(best[0])` (2128) has shape `(2,)` when there is one
column, so that the next `generate_newrule` raises an `IndexError` (`none`). -/
def annealing (m N : Nat) (data : Nat → Row) (bad : Nat → Bool) (left right : Nat → List ℚ) (nTry batch maxIter maxConv : Nat)
    (rule : Rule) (first : Nat → Draw) (draws : Nat → Nat → Nat → Draw) (accept : Nat → Bool) : Option Anneal :=
  match validRule m N data bad left right nTry rule first with
  | none => none
  | some b =>
    if m = 1 ∧ maxIter ≠ 0 then none
    else
      let v := volume m N data b
      annealLoop (volume m N data) (fun i c => genRules m N data bad left right nTry batch c (draws i)) accept maxConv maxIter 0
        ⟨b, v, b, v, 0, [b]⟩

/-- One round of `rules_by_annealing`, utils.py:2159-2175. -/
def ruleByAnnealing (m N : Nat) (data : Nat → Row) (rule : Rule) (ruleData : Nat → Rule) (sdp : Nat → ℚ) (pi : ℚ)
    (nTry batch maxIter maxConv : Nat) (first : Nat → Draw) (draws : Nat → Nat → Nat → Draw) (accept : Nat → Bool) :
    Option Anneal :=
  annealing m N data (fun i => !decide (pi ≤ sdp i)) (possibleLeft rule N ruleData sdp pi) (possibleRight rule N ruleData sdp pi)
    nTry batch maxIter maxConv rule first draws accept

/-- `sdp_data[i, j]` of `compute_sdp_maxrule`, cyext_acv.pyx:5351-5355: computed only for the rows with `weights != 0`. -/
def sdpAll (mems : List Mem) (S : List Nat) (x : Row) (yx : ℚ) (data : Nat → Row) (y : Nat → ℚ) (minSize maxDepth N : Nat)
    (classifier : Bool) (t : ℚ × ℚ) (j : Nat) : ℚ :=
  if ruleWeights mems S x data minSize maxDepth N j ≠ 0 then
    (sdpRule mems S (data j) yx data y minSize maxDepth N classifier t).1
  else 0

/-- `partition_byobs_data[i, j]` of `compute_sdp_maxrule`, cyext_acv.pyx:5334-5355. -/
def rulesAll (mems : List Mem) (S : List Nat) (x : Row) (yx : ℚ) (data : Nat → Row) (y : Nat → ℚ) (minSize maxDepth N : Nat)
    (classifier : Bool) (t : ℚ × ℚ) (j : Nat) : Rule :=
  if ruleWeights mems S x data minSize maxDepth N j ≠ 0 then
    (sdpRule mems S (data j) yx data y minSize maxDepth N classifier t).2
  else Rule.init

/-- `ACXplainer.compute_sdp_maxrules(algo2=False)` for one observation, acv_agnosticX.py:328-422. -/
def sdpMaxRule (m : Nat) (mems : List Mem) (S : List Nat) (x : Row) (yx : ℚ) (data : Nat → Row) (y : Nat → ℚ)
    (minSize maxDepth N : Nat) (classifier : Bool) (t : ℚ × ℚ) (pi : ℚ) (nTry batch maxIter maxConv : Nat)
    (first : Nat → Draw) (draws : Nat → Nat → Nat → Draw) (accept : Nat → Bool) : Option Anneal :=
  ruleByAnnealing m N data (sdpRule mems S x yx data y minSize maxDepth N classifier t).2
    (rulesAll mems S x yx data y minSize maxDepth N classifier t) (sdpAll mems S x yx data y minSize maxDepth N classifier t) pi
    nTry batch maxIter maxConv first draws accept

end Acv
