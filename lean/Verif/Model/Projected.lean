import Verif.Model.LeafShap

/-!
# The projected forest

Models the loop shared by `single_compute_sdp_rf` (/repo/acv_explainers/cyext_acv/cyext_acv.pyx:5803-5873),
`single_compute_ddp_rf` (5900-5972), `single_compute_exp_rf` (4242-4313), `single_compute_cdf_rf` (4515-4570),
`single_compute_sdp_rule` (5134-5210), `single_compute_sdp_rule_weights` (5239-5318), and the Python functions
`compute_shaff_exp`, `compute_shaff_sdp_clf`, `compute_shaff_sdp` (/repo/acv_explainers/utils_exp.py:111-141,184-218,270-305).

Simplifications: exact rationals; one observation at a time; `in_data`/`in_data_b` are always equal after the copy
`in_data = in_data_b`, so one list of row numbers is kept; `min_node_size` is a natural number.
-/

namespace Acv

/-- What the loop can read of one tree: `features[b, n]`, `thresholds[b, n]`, `children_left[b, n]`, `children_right[b, n]`
for *any* integer `n`, because the functions are compiled with `boundscheck=False, wraparound=False`
(cyext_acv.pyx:5799-5802) and a leaf has children `-1`. Cells with `0 <= n < size` hold the tree, the others hold whatever is
in memory (for the Python versions, numpy's negative indexing). -/
structure Mem where
  feat : Int → Int
  thr : Int → ℚ
  lc : Int → Int
  rc : Int → Int

/-- A rule `partition[f] = [lo, hi]` (cyext_acv.pyx:5221-5223). -/
abbrev Rule := Nat → ℚ × ℚ

/-- `buffer = 1e+10 * np.ones(...)`, `buffer[:, :, 0] = -1e+10`, cyext_acv.pyx:5221-5223. -/
def Rule.init : Rule := fun _ => (-10000000000, 10000000000)

/-- `nodes_child`, `in_data`, `partition`. -/
structure PState where
  child : List Int
  rows : List Nat
  rule : Rule

/-- `set[int].insert`, cyext_acv.pyx:5834: a `std::set` is iterated in increasing order. -/
def setInsert : List Int → Int → List Int
  | [], a => [a]
  | b :: l, a => if a < b then a :: b :: l else if a = b then b :: l else b :: setInsert l a

/-- `vector.push_back` (cyext_acv.pyx:4542) and Python `list.append` (utils_exp.py:122). -/
def pushBack (l : List Int) (a : Int) : List Int := l ++ [a]

/-- `find(S.begin(), S.end(), f) != S.end()`, cyext_acv.pyx:5832. -/
def inS (S : List Nat) (f : Int) : Bool := decide (0 ≤ f) && decide (f.toNat ∈ S)

/-- `if partition[f, 1] >= thr: partition[f, 1] = thr`, cyext_acv.pyx:5168-5169. -/
def Rule.below (r : Rule) (f : Nat) (thr : ℚ) : Rule :=
  fun j => if j = f then (if thr ≤ (r f).2 then ((r f).1, thr) else r f) else r j

/-- `if partition[f, 0] <= thr: partition[f, 0] = thr`, cyext_acv.pyx:5181-5182. -/
def Rule.above (r : Rule) (f : Nat) (thr : ℚ) : Rule :=
  fun j => if j = f then (if (r f).1 ≤ thr then (thr, (r f).2) else r f) else r j

/-- The body of the loop over nodes up to the size test, cyext_acv.pyx:5163-5193 (5831-5853 without the rule). -/
def Mem.visit (mem : Mem) (push : List Int → Int → List Int) (S : List Nat) (x : Row) (data : Nat → Row) (n : Int)
    (st : PState) : PState :=
  let f := mem.feat n
  if inS S f then
    if x f.toNat ≤ mem.thr n then
      { child := push st.child (mem.lc n)
        rows := st.rows.filter fun i => !decide (mem.thr n < data i f.toNat)
        rule := st.rule.below f.toNat (mem.thr n) }
    else
      { child := push st.child (mem.rc n)
        rows := st.rows.filter fun i => !decide (data i f.toNat ≤ mem.thr n)
        rule := st.rule.above f.toNat (mem.thr n) }
  else { st with child := push (push st.child (mem.lc n)) (mem.rc n) }

/-- The loop over the nodes of a level with `if in_data.size() < min_node_size: break`, cyext_acv.pyx:5829-5857. -/
def Mem.scan (mem : Mem) (push : List Int → Int → List Int) (S : List Nat) (x : Row) (data : Nat → Row) (minSize : Nat) :
    List Int → PState → PState
  | [], st => st
  | n :: ns, st =>
    let st' := mem.visit push S x data n st
    if st'.rows.length < minSize then st' else Mem.scan mem push S x data minSize ns st'

/-- `for level in range(max_depth)`, `nodes_level = nodes_child`, cyext_acv.pyx:5828-5859. `nodes_child` is never cleared
between levels. -/
def Mem.levels (mem : Mem) (push : List Int → Int → List Int) (S : List Nat) (x : Row) (data : Nat → Row) (minSize : Nat) :
    Nat → List Int → PState → PState
  | 0, _, st => st
  | k + 1, nodes, st =>
    let st' := mem.scan push S x data minSize nodes st
    Mem.levels mem push S x data minSize k st'.child st'

/-- The walk of one tree, cyext_acv.pyx:5817-5859: the rows that remain and the rule. -/
def Mem.run (mem : Mem) (push : List Int → Int → List Int) (S : List Nat) (x : Row) (data : Nat → Row) (minSize maxDepth N : Nat)
    (rule : Rule) : List Nat × Rule :=
  let st := mem.levels push S x data minSize maxDepth [0] ⟨[], List.range N, rule⟩
  (st.rows, st.rule)

/-- `for b in range(n_trees)`, cyext_acv.pyx:5817: one cell per tree; the rule is carried from tree to tree. -/
def forestRun (push : List Int → Int → List Int) (S : List Nat) (x : Row) (data : Nat → Row) (minSize maxDepth N : Nat) :
    List Mem → Rule → List (List Nat) × Rule
  | [], r => ([], r)
  | mem :: mems, r =>
    let (c, r') := mem.run push S x data minSize maxDepth N r
    let (cs, r'') := forestRun push S x data minSize maxDepth N mems r'
    (c :: cs, r'')

/-- The cells of the set-based functions (`nodes_level` is a `std::set`). -/
def cellsSet (mems : List Mem) (S : List Nat) (x : Row) (data : Nat → Row) (minSize maxDepth N : Nat) : List (List Nat) :=
  (forestRun setInsert S x data minSize maxDepth N mems Rule.init).1

/-- The cells of `single_compute_cdf_rf` (`nodes_level` is a vector), cyext_acv.pyx:4525-4566. -/
def cellsVec (mems : List Mem) (S : List Nat) (x : Row) (data : Nat → Row) (minSize maxDepth N : Nat) : List (List Nat) :=
  (forestRun pushBack S x data minSize maxDepth N mems Rule.init).1

/-- `sdp += (1./(n_trees*in_data.size())) * f(i)` for the rows of every cell, cyext_acv.pyx:5861-5871. -/
def cellSum (cells : List (List Nat)) (f : Nat → ℚ) : ℚ :=
  (cells.map fun c => (c.map fun i => 1 / ((cells.length : ℚ) * c.length) * f i).sum).sum

/-- 1 for true, 0 for false. -/
def ind (b : Bool) : ℚ := if b then 1 else 0

/-- The "same decision" test: `y_x == y_data[i]` for classifiers, `t[0] <= y_data[i] <= t[1]` for regressors,
cyext_acv.pyx:5861-5871. -/
def sameDec (classifier : Bool) (yx : ℚ) (t : ℚ × ℚ) (y : ℚ) : Bool :=
  if classifier then decide (yx = y) else decide (t.1 ≤ y) && decide (y ≤ t.2)

/-- `single_compute_sdp_rf`, cyext_acv.pyx:5803-5873, behind `ACXplainer.compute_sdp_rf`. -/
def sdpRf (mems : List Mem) (S : List Nat) (x : Row) (yx : ℚ) (data : Nat → Row) (y : Nat → ℚ) (minSize maxDepth N : Nat)
    (classifier : Bool) (t : ℚ × ℚ) : ℚ :=
  cellSum (cellsSet mems S x data minSize maxDepth N) fun i => ind (sameDec classifier yx t (y i))

/-- `single_compute_ddp_rf`, cyext_acv.pyx:5900-5972: `y_x != y_data[i]`, or `1 - (t[0]<=y)*(y<=t[1])`. -/
def ddpRf (mems : List Mem) (S : List Nat) (x : Row) (yx : ℚ) (data : Nat → Row) (y : Nat → ℚ) (minSize maxDepth N : Nat)
    (classifier : Bool) (t : ℚ × ℚ) : ℚ :=
  cellSum (cellsSet mems S x data minSize maxDepth N) fun i =>
    if classifier then ind (decide (yx ≠ y i)) else 1 - ind (decide (t.1 ≤ y i)) * ind (decide (y i ≤ t.2))

/-- `single_compute_sdp_rule`, cyext_acv.pyx:5134-5210, behind `ACXplainer.compute_sdp_rule`: SDP and rule. -/
def sdpRule (mems : List Mem) (S : List Nat) (x : Row) (yx : ℚ) (data : Nat → Row) (y : Nat → ℚ) (minSize maxDepth N : Nat)
    (classifier : Bool) (t : ℚ × ℚ) : ℚ × Rule :=
  let (cells, rule) := forestRun setInsert S x data minSize maxDepth N mems Rule.init
  (cellSum cells fun i => ind (sameDec classifier yx t (y i)), rule)

/-- The weights `w` filled by `single_compute_sdp_rule_weights`, cyext_acv.pyx:5303-5316:
`w[i] += 1./(n_trees*in_data.size())` for the rows of every cell. -/
def ruleWeights (mems : List Mem) (S : List Nat) (x : Row) (data : Nat → Row) (minSize maxDepth N : Nat) (i : Nat) : ℚ :=
  let cells := cellsSet mems S x data minSize maxDepth N
  (cells.map fun c => (c.count i : ℚ) * (1 / ((cells.length : ℚ) * c.length))).sum

/-- `single_compute_exp_rf`, cyext_acv.pyx:4242-4313, behind `ACXplainer.compute_exp_rf`. -/
def expRf (mems : List Mem) (S : List Nat) (x : Row) (data : Nat → Row) (y : Nat → ℚ) (minSize maxDepth N : Nat) : ℚ :=
  cellSum (cellsSet mems S x data minSize maxDepth N) y

/-- `single_compute_cdf_rf`, cyext_acv.pyx:4515-4570, behind `ACXplainer.compute_cdf_rf`. -/
def cdfRf (mems : List Mem) (S : List Nat) (x : Row) (data : Nat → Row) (y : Nat → ℚ) (minSize maxDepth N : Nat) (t : ℚ) : ℚ :=
  cellSum (cellsVec mems S x data minSize maxDepth N) fun i => ind (decide (y i ≤ t))

/-! ## Python versions -/

/-- The body of the Python loop: children are appended, `samples_child` is kept apart, utils_exp.py:119-130. -/
def Mem.visitPy (mem : Mem) (S : List Nat) (x : Row) (data : Nat → Row) (n : Int) (child : List Int) (samples : List Nat) :
    List Int × List Nat :=
  let f := mem.feat n
  if inS S f then
    if x f.toNat ≤ mem.thr n then
      (child ++ [mem.lc n], samples.filter fun i => decide (data i f.toNat ≤ mem.thr n))
    else
      (child ++ [mem.rc n], samples.filter fun i => decide (mem.thr n < data i f.toNat))
  else (child ++ [mem.lc n] ++ [mem.rc n], samples)

/-- `if np.sum(samples_child) < min_node_size: break` `else: samples = samples_child.copy()`, utils_exp.py:118-137. -/
def Mem.scanPy (mem : Mem) (S : List Nat) (x : Row) (data : Nat → Row) (minSize : Nat) :
    List Int → List Int → List Nat → List Int × List Nat
  | [], child, samples => (child, samples)
  | n :: ns, child, samples =>
    let (child', samples') := mem.visitPy S x data n child samples
    if samples'.length < minSize then (child', samples) else Mem.scanPy mem S x data minSize ns child' samples'

/-- `for level in range(model.max_depth)`, utils_exp.py:117-138. -/
def Mem.levelsPy (mem : Mem) (S : List Nat) (x : Row) (data : Nat → Row) (minSize : Nat) :
    Nat → List Int → List Int → List Nat → List Nat
  | 0, _, _, samples => samples
  | k + 1, nodes, child, samples =>
    let (child', samples') := mem.scanPy S x data minSize nodes child samples
    Mem.levelsPy mem S x data minSize k child' child' samples'

/-- The rows of one tree in the Python versions, utils_exp.py:113-138. -/
def Mem.cellPy (mem : Mem) (S : List Nat) (x : Row) (data : Nat → Row) (minSize maxDepth N : Nat) : List Nat :=
  mem.levelsPy S x data minSize maxDepth [0] [] (List.range N)

/-- `compute_shaff_sdp_clf`, utils_exp.py:184-218: `weights = np.mean(weights, axis=0)`, `np.sum(weights * (Y == y_X))`. -/
def shaffSdpClf (mems : List Mem) (S : List Nat) (x : Row) (yx : ℚ) (data : Nat → Row) (y : Nat → ℚ)
    (minSize maxDepth N : Nat) : ℚ :=
  let cells := mems.map fun mem => mem.cellPy S x data minSize maxDepth N
  ((List.range N).map fun i =>
    (cells.map fun c => if i ∈ c then 1 / (c.length : ℚ) else 0).sum / cells.length * ind (decide (y i = yx))).sum

end Acv
