import Verif.Model.Projected

/-!
# Counterfactual, conditional and interventional decision probabilities

Models the loops of `single_compute_cdp_rf` (/repo/acv_explainers/cyext_acv/cyext_acv.pyx:7040-7110), `single_compute_cdp_rule`
(6779-6853), `single_compute_cdp_rule_weights` (7290-7368), `single_compute_cdp_cond_rule_weights` (6885-7007),
`single_compute_ddp_cond_rule_weights` (5647-5770), `single_compute_cdp_intv_rule_weights` (7425-7522) and
`single_compute_ddp_intv_rule_weights` (6482-6582).

Simplifications as in `Verif.Model.Projected`. The vector `S = [-6]` that `return_ge_counterfactuals` passes
(/repo/acv_explainers/utils_cr.py:199-233) names no variable and is represented by `[]`.
-/

namespace Acv

/-- Which children of a node are pushed: `some true` only the left one, `some false` only the right one, `none` both.
First branch of the loops with a condition: the variable is in `S`, follow `x`, cyext_acv.pyx:6914-6944. -/
def dirPoint (x : Row) (f : Int) (thr : ℚ) : Option Bool := some (decide (x f.toNat ≤ thr))

/-- The `elif` branches on `cond[f, 1] <= thr` and `cond[f, 0] > thr`, cyext_acv.pyx:6946-6970 and 7457-7481; the last two branches
(6972-6992) both push the two children. -/
def dirBox (cond : Rule) (f : Int) (thr : ℚ) : Option Bool :=
  if 0 ≤ f ∧ (cond f.toNat).2 ≤ thr then some true
  else if 0 ≤ f ∧ thr < (cond f.toNat).1 then some false
  else none

/-- The decision of the loops that condition on `x` over `S` only, cyext_acv.pyx:7063-7089. -/
def dirS (S : List Nat) (x : Row) (f : Int) (thr : ℚ) : Option Bool := if inS S f then dirPoint x f thr else none

/-- The decision of `single_compute_cdp_cond_rule_weights`, cyext_acv.pyx:6914-6992, and of `single_compute_ddp_cond_rule_weights`,
cyext_acv.pyx:5677-5755. -/
def dirCond (S : List Nat) (x : Row) (cond : Rule) (f : Int) (thr : ℚ) : Option Bool :=
  if inS S f then dirPoint x f thr else dirBox cond f thr

/-- The decision of `single_compute_cdp_intv_rule_weights`, cyext_acv.pyx:7453-7503: a variable of `S` is left free. -/
def dirIntv (S : List Nat) (cond : Rule) (f : Int) (thr : ℚ) : Option Bool :=
  if inS S f then none else dirBox cond f thr

/-- The body of the loop over nodes, cyext_acv.pyx:6911-6992: push the children, erase the rows on the other side, narrow the
rule. -/
def Mem.visitD (mem : Mem) (push : List Int → Int → List Int) (dir : Int → ℚ → Option Bool) (data : Nat → Row) (n : Int)
    (st : PState) : PState :=
  match dir (mem.feat n) (mem.thr n) with
  | some true =>
    { child := push st.child (mem.lc n)
      rows := st.rows.filter fun i => !decide (mem.thr n < data i (mem.feat n).toNat)
      rule := st.rule.below (mem.feat n).toNat (mem.thr n) }
  | some false =>
    { child := push st.child (mem.rc n)
      rows := st.rows.filter fun i => !decide (data i (mem.feat n).toNat ≤ mem.thr n)
      rule := st.rule.above (mem.feat n).toNat (mem.thr n) }
  | none => { st with child := push (push st.child (mem.lc n)) (mem.rc n) }

/-- The loop over the nodes of a level, cyext_acv.pyx:6909-6996. -/
def Mem.scanD (mem : Mem) (push : List Int → Int → List Int) (dir : Int → ℚ → Option Bool) (data : Nat → Row) (minSize : Nat) :
    List Int → PState → PState
  | [], st => st
  | n :: ns, st =>
    let st' := mem.visitD push dir data n st
    if st'.rows.length < minSize then st' else Mem.scanD mem push dir data minSize ns st'

/-- The loop over the levels, cyext_acv.pyx:6907-6998. -/
def Mem.levelsD (mem : Mem) (push : List Int → Int → List Int) (dir : Int → ℚ → Option Bool) (data : Nat → Row) (minSize : Nat) :
    Nat → List Int → PState → PState
  | 0, _, st => st
  | k + 1, nodes, st =>
    let st' := mem.scanD push dir data minSize nodes st
    Mem.levelsD mem push dir data minSize k st'.child st'

/-- The walk of one tree, cyext_acv.pyx:6896-6998. -/
def Mem.runD (mem : Mem) (push : List Int → Int → List Int) (dir : Int → ℚ → Option Bool) (data : Nat → Row)
    (minSize maxDepth N : Nat) (rule : Rule) : List Nat × Rule :=
  let st := mem.levelsD push dir data minSize maxDepth [0] ⟨[], List.range N, rule⟩
  (st.rows, st.rule)

/-- `for b in range(n_trees)`, cyext_acv.pyx:6896. -/
def forestRunD (push : List Int → Int → List Int) (dir : Int → ℚ → Option Bool) (data : Nat → Row) (minSize maxDepth N : Nat) :
    List Mem → Rule → List (List Nat) × Rule
  | [], r => ([], r)
  | mem :: mems, r =>
    let (c, r') := mem.runD push dir data minSize maxDepth N r
    let (cs, r'') := forestRunD push dir data minSize maxDepth N mems r'
    (c :: cs, r'')

/-- The rows that remain in every tree. -/
def cellsD (mems : List Mem) (dir : Int → ℚ → Option Bool) (data : Nat → Row) (minSize maxDepth N : Nat) : List (List Nat) :=
  (forestRunD setInsert dir data minSize maxDepth N mems Rule.init).1

/-- `w[i] += 1./(n_trees*in_data.size())` for the rows of every cell, cyext_acv.pyx:7003,7009. -/
def weightsOf (cells : List (List Nat)) (i : Nat) : ℚ :=
  (cells.map fun c => (c.count i : ℚ) * (1 / ((cells.length : ℚ) * c.length))).sum

/-- `y_x == y_data[i]` or `down <= y_data[i] <= up`, cyext_acv.pyx:7001,7007. -/
def cdpHit (classifier : Bool) (yx down up y : ℚ) : ℚ :=
  if classifier then ind (decide (yx = y)) else ind (decide (down ≤ y) && decide (y ≤ up))

/-- `y_x != y_data[i]` or `1 - (t[0]<=y)*(y<=t[1])`, cyext_acv.pyx:5759-5768. -/
def ddpHit (classifier : Bool) (yx : ℚ) (t : ℚ × ℚ) (y : ℚ) : ℚ :=
  if classifier then ind (decide (yx ≠ y)) else 1 - ind (decide (t.1 ≤ y)) * ind (decide (y ≤ t.2))

/-- `y_x != y_data[i]` or `(t[0]<=y)*(y<=t[1])`, cyext_acv.pyx:7509-7520: the classifier branch tests for a *different* output. -/
def cdpIntvHit (classifier : Bool) (yx : ℚ) (t : ℚ × ℚ) (y : ℚ) : ℚ :=
  if classifier then ind (decide (yx ≠ y)) else ind (decide (t.1 ≤ y)) * ind (decide (y ≤ t.2))

/-- `single_compute_cdp_rf`, cyext_acv.pyx:7040-7110, behind `ACXplainer.compute_cdp_rf` (/repo/acv_explainers/acv_agnosticX.py:636-680). -/
def cdpRf (mems : List Mem) (S : List Nat) (x : Row) (yx down up : ℚ) (data : Nat → Row) (y : Nat → ℚ) (minSize maxDepth N : Nat)
    (classifier : Bool) : ℚ :=
  cellSum (cellsD mems (dirS S x) data minSize maxDepth N) fun i => cdpHit classifier yx down up (y i)

/-- `single_compute_cdp_rule`, cyext_acv.pyx:6779-6853, behind `ACXplainer.compute_cdp_rule` (acv_agnosticX.py:682-727). -/
def cdpRule (mems : List Mem) (S : List Nat) (x : Row) (yx down up : ℚ) (data : Nat → Row) (y : Nat → ℚ) (minSize maxDepth N : Nat)
    (classifier : Bool) : ℚ × Rule :=
  let (cells, rule) := forestRunD setInsert (dirS S x) data minSize maxDepth N mems Rule.init
  (cellSum cells fun i => cdpHit classifier yx down up (y i), rule)

/-- `single_compute_cdp_rule_weights`, cyext_acv.pyx:7290-7368, behind `ACXplainer.compute_cdp_weights` (acv_agnosticX.py:729-780). -/
def cdpWeights (mems : List Mem) (S : List Nat) (x : Row) (yx down up : ℚ) (data : Nat → Row) (y : Nat → ℚ)
    (minSize maxDepth N : Nat) (classifier : Bool) : ℚ × (Nat → ℚ) :=
  let cells := cellsD mems (dirS S x) data minSize maxDepth N
  (cellSum cells fun i => cdpHit classifier yx down up (y i), weightsOf cells)

/-- `single_compute_cdp_cond_rule_weights`, cyext_acv.pyx:6885-7007, behind `ACXplainer.compute_cdp_cond_weights`
(acv_agnosticX.py:582-634). -/
def cdpCond (mems : List Mem) (S : List Nat) (x : Row) (cond : Rule) (yx down up : ℚ) (data : Nat → Row) (y : Nat → ℚ)
    (minSize maxDepth N : Nat) (classifier : Bool) : ℚ × (Nat → ℚ) :=
  let cells := cellsD mems (dirCond S x cond) data minSize maxDepth N
  (cellSum cells fun i => cdpHit classifier yx down up (y i), weightsOf cells)

/-- `single_compute_ddp_cond_rule_weights`, cyext_acv.pyx:5647-5770, behind `ACXplainer.compute_ddp_cond_weights`
(acv_agnosticX.py:795-850). -/
def ddpCond (mems : List Mem) (S : List Nat) (x : Row) (cond : Rule) (yx : ℚ) (t : ℚ × ℚ) (data : Nat → Row) (y : Nat → ℚ)
    (minSize maxDepth N : Nat) (classifier : Bool) : ℚ × (Nat → ℚ) :=
  let cells := cellsD mems (dirCond S x cond) data minSize maxDepth N
  (cellSum cells fun i => ddpHit classifier yx t (y i), weightsOf cells)

/-- `single_compute_cdp_intv_rule_weights`, cyext_acv.pyx:7425-7522, behind `ACXplainer.compute_cdp_intv_weights`
(acv_agnosticX.py:1595-1650) and `importance_cdp_intv` (1704). -/
def cdpIntv (mems : List Mem) (S : List Nat) (cond : Rule) (yx : ℚ) (t : ℚ × ℚ) (data : Nat → Row) (y : Nat → ℚ)
    (minSize maxDepth N : Nat) (classifier : Bool) : ℚ × (Nat → ℚ) :=
  let cells := cellsD mems (dirIntv S cond) data minSize maxDepth N
  (cellSum cells fun i => cdpIntvHit classifier yx t (y i), weightsOf cells)

/-- `single_compute_ddp_intv_rule_weights`, cyext_acv.pyx:6482-6582, behind `ACXplainer.compute_ddp_intv_weights`
(acv_agnosticX.py:1414-1470) and `importance_ddp_intv` (1523). -/
def ddpIntv (mems : List Mem) (S : List Nat) (cond : Rule) (yx : ℚ) (t : ℚ × ℚ) (data : Nat → Row) (y : Nat → ℚ)
    (minSize maxDepth N : Nat) (classifier : Bool) : ℚ × (Nat → ℚ) :=
  let cells := cellsD mems (dirIntv S cond) data minSize maxDepth N
  (cellSum cells fun i => ddpHit classifier yx t (y i), weightsOf cells)

end Acv
