import Verif.Model.MaxRule
import Mathlib.Data.List.Sort

/-!
# Operations on lists of rules

Models the rule extension `algo2` (`find_nbor`, `extend_rec`, `find_union`, `extend_partition`,
/repo/acv_explainers/utils.py:927-969), the removal of nested rules (`remove_in`, /repo/acv_explainers/utils_cr.py:57-66 and
utils.py:1380-1389, 1909-1918; `remove_in_wsdp`, utils_cr.py:790-809 and utils.py:2178-2188) and the global rule model
(`unique_rules_s_star`, `compute_rules_metrics`, `global_rules_model`, `global_rules_model_reg`, utils.py:972-1099).

Simplifications: exact rationals, NaN as `none`. A rule of an array `(n, m, 2)` is a `Rule` read on the columns below `m`, or a
`Box`, the list of its `m` rows.
-/

namespace Acv

/-! ## Extension by neighbours -/

/-- `find_nbor`, utils.py:927-937: the columns where the rectangles touch, with the side of `rec_a` (0 or 1). -/
def findNbor (a b : Rule) (S : List Nat) : List (Nat × Bool) :=
  S.filterMap fun k =>
    if (a k).1 = (b k).2 then some (k, false) else if (a k).2 = (b k).1 then some (k, true) else none

/-- `rec_a[k, dim[i]] = rec_b[k, dim[i]]`, utils.py:948. -/
def setSide (b : Rule) (a : Rule) (kd : Nat × Bool) : Rule :=
  fun j => if j = kd.1 then (if kd.2 then ((a j).1, (b j).2) else ((b j).1, (a j).2)) else a j

/-- `extend_rec`, utils.py:940-949. Python parses the test as `(not b0 <= a0) and b1 >= a1`. -/
def extendRec (a b : Rule) (S : List Nat) (axs : List (Nat × Bool)) : Rule :=
  if S.any fun k => decide (k ∉ axs.map Prod.fst) && (!decide ((b k).1 ≤ (a k).1) && decide ((a k).2 ≤ (b k).2)) then a
  else axs.foldl (setSide b) a

/-- `del list_ric[i]` for the first rule that touches: the rule, its axes and the other rules, utils.py:952-962. -/
def firstNbor (a : Rule) (S : List Nat) : List Rule → Option (Rule × List (Nat × Bool) × List Rule)
  | [] => none
  | b :: l =>
    if findNbor a b S ≠ [] then some (b, findNbor a b S, l)
    else (firstNbor a S l).map fun r => (r.1, r.2.1, b :: r.2.2)

/-- `find_union`, utils.py:952-963; `fuel` is the number of rules (one is deleted at each call). -/
def findUnionAux (S : List Nat) : Nat → Rule → List Rule → Rule
  | 0, a, _ => a
  | fuel + 1, a, l =>
    match firstNbor a S l with
    | none => a
    | some (b, axs, rest) => findUnionAux S fuel (extendRec a b S axs) rest

/-- `find_union`, utils.py:952-963. -/
def findUnion (S : List Nat) (a : Rule) (l : List Rule) : Rule := findUnionAux S l.length a l

/-- One round of `extend_partition`, utils.py:966-969. -/
def extendPartition (N : Nat) (rule : Rule) (ruleData : Nat → Rule) (sdp : Nat → ℚ) (pi : ℚ) (S : List Nat) : Rule :=
  findUnion S rule (((List.range N).filter fun j => decide (pi ≤ sdp j)).map ruleData)

/-- `ACXplainer.compute_sdp_maxrules(algo2=True)` for one observation, /repo/acv_explainers/acv_agnosticX.py:384-422. -/
def sdpMaxRuleAlgo2 (mems : List Mem) (S : List Nat) (x : Row) (yx : ℚ) (data : Nat → Row) (y : Nat → ℚ)
    (minSize maxDepth N : Nat) (classifier : Bool) (t : ℚ × ℚ) (pi : ℚ) : Rule :=
  extendPartition N (sdpRule mems S x yx data y minSize maxDepth N classifier t).2
    (rulesAll mems S x yx data y minSize maxDepth N classifier t) (sdpAll mems S x yx data y minSize maxDepth N classifier t) pi S

/-! ## Nested rules -/

/-- A rule as the list of its `m` intervals. -/
abbrev Box := List (ℚ × ℚ)

/-- Lexicographic comparison of the flattened rows, the order of `np.unique(axis=0)`. -/
def boxLe : Box → Box → Bool
  | [], _ => true
  | _ :: _, [] => false
  | p :: a, q :: b =>
    if p.1 < q.1 then true else if q.1 < p.1 then false else if p.2 < q.2 then true else if q.2 < p.2 then false else boxLe a b

/-- `np.unique(ra, axis=0)`: sorted distinct rows. -/
def npUnique (l : List Box) : List Box := l.dedup.insertionSort fun a b => boxLe a b = true

/-- `np.prod([(ra[i, s, 1] <= ra[j, s, 1]) * (ra[i, s, 0] >= ra[j, s, 0]) for s in range(ra.shape[1])])`, utils_cr.py:63-64. -/
def boxIn (m : Nat) (a b : Box) : Bool :=
  (List.range m).all fun s => decide ((a.getD s (0, 0)).2 ≤ (b.getD s (0, 0)).2) && decide ((b.getD s (0, 0)).1 ≤ (a.getD s (0, 0)).1)

/-- The inner loop of `remove_in`, utils_cr.py:62-65: `if i != j and ra[i] in ra[j]: ra[i] = ra[j]`. -/
def removeInRow (m i : Nat) (ra : List Box) : List Box :=
  (List.range ra.length).foldl
    (fun ra j => if i ≠ j ∧ boxIn m (ra.getD i []) (ra.getD j []) = true then ra.set i (ra.getD j []) else ra) ra

/-- `remove_in`, utils_cr.py:57-66: in place, then `np.unique`. -/
def removeIn (m : Nat) (ra : List Box) : List Box :=
  npUnique ((List.range ra.length).foldl (fun ra i => removeInRow m i ra) ra)

/-- `remove_list` of `remove_in_wsdp`, utils_cr.py:797-805: `j` is appended when `ra[i] in ra[j]`, `i != j`. -/
def removeList (m : Nat) (ra : List Box) : List Nat :=
  (List.range ra.length).flatMap fun i => (List.range ra.length).filter fun j =>
    decide (i ≠ j) && boxIn m (ra.getD i []) (ra.getD j [])

/-- `np.delete(l, remove_list, axis=0)`, utils_cr.py:806-808. -/
def npDelete {α : Type} (l : List α) (rm : List Nat) : List α :=
  (l.zipIdx.filter fun p => decide (p.2 ∉ rm)).map Prod.fst

/-- `remove_in_wsdp(ra, sa, wa)`, utils_cr.py:790-809. -/
def removeInWsdp {α : Type} (m : Nat) (ra : List Box) (sa : List ℚ) (wa : List α) : List Box × List ℚ × List α :=
  (npDelete ra (removeList m ra), npDelete sa (removeList m ra), npDelete wa (removeList m ra))

/-- The inner loop of `remove_in_wsdp(ra, sa)`, utils.py:2183-2187: `ra[i] = ra[j]`, `sa[i] = sa[j]`. -/
def removePairRow (m i : Nat) (st : List Box × List ℚ) : List Box × List ℚ :=
  (List.range st.1.length).foldl
    (fun st j => if i ≠ j ∧ boxIn m (st.1.getD i []) (st.1.getD j []) = true then
      (st.1.set i (st.1.getD j []), st.2.set i (st.2.getD j 0)) else st) st

/-- `remove_in_wsdp(ra, sa)`, utils.py:2178-2188: `np.unique(ra)`, `np.unique(sa)` separately. -/
def removeInWsdpOld (m : Nat) (ra : List Box) (sa : List ℚ) : List Box × List ℚ :=
  let st := (List.range ra.length).foldl (fun st i => removePairRow m i st) (ra, sa)
  (npUnique st.1, st.2.dedup.insertionSort (· ≤ ·))

/-! ## Global rule model -/

/-- `np.allclose(a, b)` on two rules: `|a - b| <= 1e-8 + 1e-5 |b|` for every entry, utils.py:1072, 1084, 1096. -/
def allclose (m : Nat) (a b : Rule) : Bool :=
  (List.range m).all fun s =>
    decide (|(a s).1 - (b s).1| ≤ 1/100000000 + 1/100000 * |(b s).1|) && decide (|(a s).2 - (b s).2| ≤ 1/100000000 + 1/100000 * |(b s).2|)

/-- A rule read from the list of its intervals. -/
def ruleOf (b : Box) : Rule := fun s => b.getD s (0, 0)

/-- `unique_rules_s_star`, utils.py:1090-1099 (and `unique_rules`, 1078-1087): every distinct rule with the output of the first close
rule of the list. -/
def uniqueOutputs {α : Type} (m : Nat) (rules : List Box) (out : List α) : List (Box × α) :=
  (npUnique rules).filterMap fun u => ((rules.zip out).find? fun p => allclose m (ruleOf u) (ruleOf p.1)).map fun p => (u, p.2)

/-- `rules_frequency`, utils.py:1067-1075. -/
def rulesFrequency (m n : Nat) (rules : Nat → Rule) (i : Nat) : ℚ :=
  ((List.range n).filter fun j => allclose m (rules j) (rules i)).length / n

/-- `np.prod([(x[s] <= rule[s, 1]) * (x[s] >= rule[s, 0]) for s in S])`, utils.py:981, 1050-1051. -/
def inRuleS (S : List Nat) (rule : Rule) (z : Row) : Bool :=
  S.all fun s => decide (z s ≤ (rule s).2) && decide ((rule s).1 ≤ z s)

/-- `np.mean` of a list: NaN (`none`) if it is empty. -/
def npMean (l : List ℚ) : Option ℚ := if l = [] then none else some (l.sum / l.length)

/-- The columns of `compute_rules_metrics` for one rule, utils.py:1040-1064. -/
structure Metrics where
  coverage : ℚ
  acc : Option ℚ
  output : Option ℚ
  proba : Option ℚ
  var : Option ℚ
  deriving DecidableEq

/-- `np.var` of a list. -/
def npVar (l : List ℚ) : Option ℚ := (npMean l).bind fun mu => npMean (l.map fun v => (v - mu) ^ 2)

/-- `compute_rules_metrics` for one rule, utils.py:1047-1060. A comparison with NaN is false, so that the class of a rule without
row is 0. For an empty `S`, `np.prod([], axis=0)` is a scalar: it selects every row but `np.sum` of it is 1. -/
def rulesMetrics (N : Nat) (data : Nat → Row) (y : Nat → ℚ) (classifier : Bool) (rule : Rule) (S : List Nat) : Metrics :=
  let ys := ((List.range N).filter fun i => inRuleS S rule (data i)).map y
  let cov : ℚ := (if S = [] then 1 else (ys.length : ℚ)) / N
  if classifier then
    let out : ℚ := match npMean ys with
      | none => 0
      | some v => if 1/2 < v then 1 else 0
    ⟨cov, npMean (ys.map fun v => if v = out then 1 else 0), some out, npMean ys, npVar ys⟩
  else
    match npMean ys with
    | none => ⟨cov, none, none, none, none⟩
    | some mu => ⟨cov, npMean (ys.map fun v => (v - mu) ^ 2), some mu, none, npVar ys⟩

/-- `np.max` of a non-empty list: NaN if some entry is NaN. -/
def npMax : List (Option ℚ) → Option ℚ
  | [] => none
  | a :: l => l.foldl (fun b c => match b, c with
    | some b, some c => some (max b c)
    | _, _ => none) a

/-- `np.min` of a non-empty list: NaN if some entry is NaN. -/
def npMin : List (Option ℚ) → Option ℚ
  | [] => none
  | a :: l => l.foldl (fun b c => match b, c with
    | some b, some c => some (min b c)
    | _, _ => none) a

/-- `np.argmax(y_weights == w)`: the first position of `w`, 0 if there is none (NaN is different from everything). -/
def argEq (l : List (Option ℚ)) (w : Option ℚ) : Nat :=
  match w with
  | none => 0
  | some v => if l.idxOf (some v) < l.length then l.idxOf (some v) else 0

/-- `global_rules_model` for one observation, utils.py:972-1003: the number of the rule that answers, `none` if no rule answers; an
error is the `ValueError` of `np.max` on an empty array. `n` rules. -/
def globalRules (n : Nat) (rules : Nat → Rule) (cov : Nat → ℚ) (acc : Nat → Option ℚ) (minCov : ℚ) (S : Nat → List Nat) (minAcc : ℚ)
    (x : Row) : Except String (Option Nat) :=
  let hit := (List.range n).filter fun i => inRuleS (S i) (rules i) x
  if hit = [] then .ok none
  else
    let w := (hit.filter fun i => decide (minCov ≤ cov i)).map acc
    if w = [] then .error "ValueError"
    else
      let ok := match npMax w with
        | none => false
        | some v => decide (minAcc ≤ v)
      if ok then .ok (some (hit.getD (argEq (hit.map acc) (npMax w)) 0)) else .ok none

/-- `global_rules_model_reg` for one observation, utils.py:1006-1037. -/
def globalRulesReg (n : Nat) (rules : Nat → Rule) (cov : Nat → ℚ) (mse : Nat → Option ℚ) (minCov : ℚ) (S : Nat → List Nat) (minMse : ℚ)
    (x : Row) : Except String (Option Nat) :=
  let hit := (List.range n).filter fun i => inRuleS (S i) (rules i) x
  if hit = [] then .ok none
  else
    let w := (hit.filter fun i => decide (minCov ≤ cov i)).map mse
    if w = [] then .error "ValueError"
    else
      let ok := match npMin w with
        | none => false
        | some v => decide (v ≤ minMse)
      if ok then .ok (some (hit.getD (argEq (hit.map mse) (npMin w)) 0)) else .ok none

/-- `ACXplainer.fit_global_rules`, /repo/acv_explainers/acv_agnosticX.py:164-185: the fitted rules, their explanations and metrics. -/
def fitGlobal (m N : Nat) (data : Nat → Row) (y : Nat → ℚ) (classifier : Bool) (rules : List Box) (sStar : List (List Nat)) :
    List (Box × List Nat × Metrics) :=
  (uniqueOutputs m rules sStar).map fun p => (p.1, p.2, rulesMetrics N data y classifier (ruleOf p.1) p.2)

/-- `ACXplainer.predict_global_rules` for one observation, acv_agnosticX.py:202-213: the rule that answers. -/
def predictGlobal (fit : List (Box × List Nat × Metrics)) (classifier : Bool) (minCov minAcc minReg : ℚ) (x : Row) :
    Except String (Option (Box × List Nat × Metrics)) :=
  let get := fun i => fit.getD i ([], [], ⟨0, none, none, none, none⟩)
  let res := if classifier then
      globalRules fit.length (fun i => ruleOf (get i).1) (fun i => (get i).2.2.coverage) (fun i => (get i).2.2.acc) minCov
        (fun i => (get i).2.1) minAcc x
    else
      globalRulesReg fit.length (fun i => ruleOf (get i).1) (fun i => (get i).2.2.coverage) (fun i => (get i).2.2.acc) minCov
        (fun i => (get i).2.1) minReg x
  match res with
  | .error e => .error e
  | .ok none => .ok none
  | .ok (some i) => .ok (some (get i))

end Acv
