import Verif.Model.Rules
import Verif.Model.Search

/-!
# Biased sufficient rules and the first versions of the rules

Models `single_compute_sdp_rule_biased`, `compile_rules`, `compute_sdp_rule_biased`, `compute_sdp_maxrule_biased`,
`single_compute_sdp_rule_v0_weights`, `compute_sdp_maxrule_opti`, `compute_sdp_maxrule_biased_v2`
(/repo/acv_explainers/cyext_acv/cyext_acv.pyx:4826-5128), `single_compute_sdp_rf_v0` (4030-4086), `single_compute_sdp_rule_v0`
(4680-4747), `compute_sdp_maxrule_v0` (4787-4819), `global_sdp_rf_v0` (4113-4236) and their callers `ACVTree.compute_sdp_*`
(/repo/acv_explainers/acv_tree.py:1142-1207, 1226-1242), which end with `extend_partition`.

Simplifications: exact rationals; one observation; `.error "ValueError"` is the exception of `np.min` of an empty array or
of `np.concatenate` of an empty list.
-/

namespace Acv

/-! ## Biased rules -/

/-- The body of the loop over nodes, cyext_acv.pyx:4845-4861: `nodes_child` and the bounds of the level. -/
def Mem.visitB (mem : Mem) (S : List Nat) (x : Row) (st : List Int × Rule) (n : Int) : List Int × Rule :=
  let f := mem.feat n
  if inS S f then
    if x f.toNat ≤ mem.thr n then (pushBack st.1 (mem.lc n), st.2.below f.toNat (mem.thr n))
    else (pushBack st.1 (mem.rc n), st.2.above f.toNat (mem.thr n))
  else (pushBack (pushBack st.1 (mem.lc n)) (mem.rc n), st.2)

/-- `partition[:, b, level, :]` for the levels that remain, cyext_acv.pyx:4843-4863: each level starts from the bounds of the
buffer (4899-4900), `nodes_child` is not cleared between levels. -/
def Mem.levelRules (mem : Mem) (S : List Nat) (x : Row) : Nat → List Int → List Int → List Rule
  | 0, _, _ => []
  | k + 1, nodes, child =>
    let r := nodes.foldl (mem.visitB S x) (child, Rule.init)
    r.2 :: Mem.levelRules mem S x k r.1 r.1

/-- Intersection of two rules: maximum of the lower bounds, minimum of the upper bounds. -/
def meet (a b : Rule) : Rule := fun f => (max (a f).1 (b f).1, min (a f).2 (b f).2)

/-- `np.min(up, axis=-1)`, `np.max(dn, axis=-1)`, cyext_acv.pyx:4875-4876 and 4884-4885. -/
def meetAll : List Rule → Except String Rule
  | [] => .error "ValueError"
  | r :: rs => .ok (rs.foldl meet r)

/-- `tn`, cyext_acv.pyx:4877-4879. For an empty `S`, `np.prod([], axis=0)` is the scalar 1, so that `tn` is 1. -/
def countIn (S : List Nat) (data : Nat → Row) (N : Nat) (rule : Rule) : Nat :=
  if S = [] then 1 else ((List.range N).filter fun i => inRuleS S rule (data i)).length

/-- The loop `while(tn <= min_node_size)` of `compile_rules` for one tree, cyext_acv.pyx:4872-4880. -/
def compileTree (S : List Nat) (data : Nat → Row) (N minSize : Nat) (levels : List Rule) : Nat → Except String Rule
  | 0 => .error "ValueError"
  | d + 1 =>
    match meetAll (levels.take (d + 1)) with
    | .error e => .error e
    | .ok r => if countIn S data N r ≤ minSize then compileTree S data N minSize levels d else .ok r

/-- `compile_rules`, cyext_acv.pyx:4867-4888. -/
def compileRules (S : List Nat) (data : Nat → Row) (N minSize maxDepth : Nat) (trees : List (List Rule)) : Except String Rule :=
  match trees.mapM fun l => compileTree S data N minSize l maxDepth with
  | .error e => .error e
  | .ok rs => meetAll rs

/-- `compute_sdp_rule_biased` for one observation, cyext_acv.pyx:4895-4919: `single_compute_sdp_rule_biased` returns the variable
`sdp`, which is set to 0 (4833) and never changed. -/
def sdpRuleBiased (mems : List Mem) (S : List Nat) (x : Row) (data : Nat → Row) (minSize maxDepth N : Nat) :
    Except String (ℚ × Rule) :=
  match compileRules S data N minSize maxDepth (mems.map fun mem => mem.levelRules S x maxDepth [0] []) with
  | .error e => .error e
  | .ok r => .ok (0, r)

/-- `ACVTree.compute_sdp_maxrules_biased` for one observation, cyext_acv.pyx:4926-4960 and acv_tree.py:1173-1180: the rules of the
observation and of all background rows, then `extend_partition`. -/
def sdpMaxRuleBiased (mems : List Mem) (S : List Nat) (x : Row) (data : Nat → Row) (minSize maxDepth N : Nat) (pi : ℚ) :
    Except String (ℚ × Rule) :=
  match sdpRuleBiased mems S x data minSize maxDepth N with
  | .error e => .error e
  | .ok (s, r) =>
    match (List.range N).mapM fun j => sdpRuleBiased mems S (data j) data minSize maxDepth N with
    | .error e => .error e
    | .ok rs => .ok (s, extendPartition N r (fun j => (rs.getD j (0, Rule.init)).2) (fun j => (rs.getD j (0, Rule.init)).1) pi S)

/-! ## First versions (`v0`) -/

/-- The "same decision" test of the `v0` functions: `y_x == y_data[i]`, or `(y_x - y_data[i])**2 <= t`, cyext_acv.pyx:4078-4084. -/
def sameDecV0 (classifier : Bool) (yx t y : ℚ) : Bool :=
  if classifier then decide (yx = y) else decide ((yx - y) * (yx - y) ≤ t)

/-- `single_compute_sdp_rf_v0`, cyext_acv.pyx:4030-4086: nodes in vectors. -/
def sdpRfV0 (mems : List Mem) (S : List Nat) (x : Row) (yx : ℚ) (data : Nat → Row) (y : Nat → ℚ) (minSize maxDepth N : Nat)
    (classifier : Bool) (t : ℚ) : ℚ :=
  cellSum (cellsVec mems S x data minSize maxDepth N) fun i => ind (sameDecV0 classifier yx t (y i))

/-- `single_compute_sdp_rule_v0`, cyext_acv.pyx:4680-4747, and the same part of `single_compute_sdp_rule_v0_weights` (4968-5040). -/
def sdpRuleV0 (mems : List Mem) (S : List Nat) (x : Row) (yx : ℚ) (data : Nat → Row) (y : Nat → ℚ) (minSize maxDepth N : Nat)
    (classifier : Bool) (t : ℚ) : ℚ × Rule :=
  let (cells, rule) := forestRun pushBack S x data minSize maxDepth N mems Rule.init
  (cellSum cells fun i => ind (sameDecV0 classifier yx t (y i)), rule)

/-- `w[in_data[i]] += 1./(n_trees*in_data.size())`, cyext_acv.pyx:5031-5039. -/
def weightsV0 (mems : List Mem) (S : List Nat) (x : Row) (data : Nat → Row) (minSize maxDepth N : Nat) (i : Nat) : ℚ :=
  let cells := cellsVec mems S x data minSize maxDepth N
  (cells.map fun c => (c.count i : ℚ) * (1 / ((cells.length : ℚ) * c.length))).sum

/-- `ACVTree.compute_sdp_maxrules_v0` for one observation, cyext_acv.pyx:4787-4819 and acv_tree.py:1190-1196. -/
def sdpMaxRuleV0 (mems : List Mem) (S : List Nat) (x : Row) (yx : ℚ) (data : Nat → Row) (y : Nat → ℚ) (minSize maxDepth N : Nat)
    (classifier : Bool) (t pi : ℚ) : ℚ × Rule :=
  let r := sdpRuleV0 mems S x yx data y minSize maxDepth N classifier t
  (r.1, extendPartition N r.2 (fun j => (sdpRuleV0 mems S (data j) yx data y minSize maxDepth N classifier t).2)
    (fun j => (sdpRuleV0 mems S (data j) yx data y minSize maxDepth N classifier t).1) pi S)

/-- `ACVTree.compute_sdp_maxrules_opti` for one observation, cyext_acv.pyx:5045-5080 and acv_tree.py:1181-1188: only the rows with a
weight are explained, the others keep SDP 0 and the bounds of the buffer. -/
def sdpMaxRuleOpti (mems : List Mem) (S : List Nat) (x : Row) (yx : ℚ) (data : Nat → Row) (y : Nat → ℚ) (minSize maxDepth N : Nat)
    (classifier : Bool) (t pi : ℚ) : ℚ × Rule :=
  let r := sdpRuleV0 mems S x yx data y minSize maxDepth N classifier t
  let all := fun j => if weightsV0 mems S x data minSize maxDepth N j ≠ 0 then
    sdpRuleV0 mems S (data j) yx data y minSize maxDepth N classifier t else (0, Rule.init)
  (r.1, extendPartition N r.2 (fun j => (all j).2) (fun j => (all j).1) pi S)

/-- `ACVTree.compute_sdp_maxrules_biased_v2` for one observation, cyext_acv.pyx:5085-5128 and acv_tree.py:1198-1207: the SDP and the
rule of the observation are those of `v0`, the rules of the rows with a weight are biased, the others are 0. -/
def sdpMaxRuleBiasedV2 (mems : List Mem) (S : List Nat) (x : Row) (yx : ℚ) (data : Nat → Row) (y : Nat → ℚ) (minSize maxDepth N : Nat)
    (classifier : Bool) (t pi : ℚ) : Except String (ℚ × Rule) :=
  let r := sdpRuleV0 mems S x yx data y minSize maxDepth N classifier t
  match (List.range N).mapM fun j => if weightsV0 mems S x data minSize maxDepth N j ≠ 0 then
      sdpRuleBiased mems S (data j) data minSize maxDepth N else .ok (0, fun _ => (0, 0)) with
  | .error e => .error e
  | .ok rs => .ok (r.1, extendPartition N r.2 (fun j => (rs.getD j (0, Rule.init)).2) (fun j => (rs.getD j (0, Rule.init)).1) pi S)

/-- `ACVTree.importance_sdp_rf_v0`, acv_tree.py:1226-1242, i.e. `global_sdp_rf_v0` (cyext_acv.pyx:4113-4236): the same search as
`global_sdp_rf` with the first version of the SDP. `X`, `yX`: the observations and their outputs. -/
def importanceSdpRfV0 (mems : List Mem) (X : Nat → Row) (yX : Nat → ℚ) (data : Nat → Row) (y : Nat → ℚ) (minSize maxDepth N : Nat)
    (classifier : Bool) (t : ℚ) (nObs cols : Nat) (order : List Nat) (C : List (List Nat)) (pi : ℚ) (minimal : Nat) (stop : Bool)
    (half : Nat) : Option Batch :=
  importanceSdpRf (fun i S => sdpRfV0 mems S (X i) (yX i) data y minSize maxDepth N classifier t) nObs cols order C pi minimal stop half

end Acv
