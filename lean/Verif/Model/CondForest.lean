import Verif.Model.TreeSdp
import Verif.Model.LeafShapPy

/-!
# The first same decision probabilities of a forest

Models `explore_partition`, `get_tree_partition` (/repo/acv_explainers/utils.py:588-732), `cond_sdp_forest_clf` and `cond_sdp_forest`
(/repo/acv_explainers/py_acv.py:297-396).

Simplifications: exact rationals, `none` is NaN; the Python recursion is bounded by `fuel`; the binary arrays of `get_tree_partition` are
replaced by the counts taken from them; the rows with `up_tx` are given by an arbitrary test per tree (`down_tx` is its negation), since they
come from the predictions of the tree; an observation has at least one entry.
-/

namespace Acv

/-- `explore_partition`, utils.py:588-665: the leaves met from node `i` on, in order, with the rectangle narrowed on the way down. -/
def explorePart (t : TreeArr) (x : Row) (S : List Nat) : Nat → Nat → Rect → List (Nat × Rect)
  | 0, _, _ => []
  | fuel + 1, i, part =>
    if t.left i < 0 then [(i, part)] else
      let f := (t.feature i).toNat
      let partL := part.set f ((part f).below (t.threshold i))
      let partR := part.set f ((part f).above (t.threshold i))
      if f ∈ S then
        if x f ≤ t.threshold i then explorePart t x S fuel (t.left i).toNat partL
        else explorePart t x S fuel (t.right i).toNat partR
      else explorePart t x S fuel (t.left i).toNat partL ++ explorePart t x S fuel (t.right i).toNat partR

/-- The call of `get_tree_partition`, utils.py:723-725. -/
def compatLeaves (t : TreeArr) (x : Row) (S : List Nat) : List (Nat × Rect) := explorePart t x S t.size 0 fun _ => Ival.all

/-- `S_bar`, utils.py:710. -/
def colsBar (m : Nat) (S : List Nat) : List Nat := (List.range m).filter fun i => decide (i ∉ S)

/-- `prob_all`/`prob_up`/`prob_down` summed over the rows selected by `keep`, utils.py:612-614, py_acv.py:327. -/
def partCount (m : Nat) (S : List Nat) (data : List Row) (keep : Row → Bool) (r : Rect) : Nat :=
  (data.filter fun z => satCC r S z && keep z && satCC r (colsBar m S) z).length

/-- `s_all`, utils.py:597-599, 616, 624: `np.prod([], axis=0)` is `1.0`, so without columns the array has one entry, 1. -/
def sAllCount (S : List Nat) (data : List Row) (r : Rect) : Nat := if S = [] then 1 else cntCC data r S

/-- `s_up`, `s_down`, utils.py:605-611, 625-626: multiplied by an array over the rows. -/
def sCount (S : List Nat) (data : List Row) (keep : Row → Bool) (r : Rect) : Nat := (data.filter fun z => satCC r S z && keep z).length

/-- The three names of py_acv.py:317. -/
inductive PartName where
  | all | up | down

/-- The rows of a name. -/
def PartName.keep (up : Row → Bool) : PartName → Row → Bool
  | .all => fun _ => true
  | .up => up
  | .down => fun z => !up z

/-- `part_forest[i][0]['s_{}'.format(name)].sum(axis=1)`, py_acv.py:328. -/
def sOf (S : List Nat) (data : List Row) (up : Row → Bool) (nm : PartName) (r : Rect) : Nat :=
  match nm with
  | .all => sAllCount S data r
  | _ => sCount S data (nm.keep up) r

/-- `np.true_divide(p, p_s, out=zeros, where=p_s != 0)`, py_acv.py:327-329. -/
def probOf (m : Nat) (S : List Nat) (data : List Row) (up : Row → Bool) (nm : PartName) (r : Rect) : ℚ :=
  guardDiv (partCount m S data (nm.keep up) r) (sOf S data up nm r)

/-- `np.sum(prob[:, None] * value, axis=0)`, one output, py_acv.py:333. `val` is `tree.values / tree.scaling`, utils.py:694. -/
def treeMean (t : TreeArr) (val : Nat → ℚ) (m : Nat) (S : List Nat) (data : List Row) (up : Row → Bool) (x : Row) (nm : PartName) : ℚ :=
  ((compatLeaves t x S).map fun p => probOf m S data up nm p.2 * val p.1).sum

/-- `0 * (s < 0) + 1 * (s > 1) + s * (0 <= s <= 1)`, py_acv.py:336, 395. A NaN stays one, and so does an infinite quotient, since
`inf * 0` is NaN. -/
def clampNan (num den : ℚ) : Option ℚ := (npDiv num den).map clamp01

/-- One tree of `cond_sdp_forest_clf`, py_acv.py:322-336. -/
def treeSdp (t : TreeArr) (val : Nat → ℚ) (m : Nat) (S : List Nat) (data : List Row) (up : Row → Bool) (x : Row) : Option ℚ :=
  clampNan (treeMean t val m S data up x .all - treeMean t val m S data up x .down)
    (treeMean t val m S data up x .up - treeMean t val m S data up x .down)

/-- `cond_sdp_forest_clf`, py_acv.py:297-338. A tree comes with the values of its leaves for the class `int(fx)` and the rows to which it gives
this class. An empty forest divides by zero. -/
def condSdpClf (ts : List (TreeArr × (Nat → ℚ) × (Row → Bool))) (m : Nat) (S : List Nat) (data : List Row) (x : Row) : Option ℚ :=
  if S.length = m then some 1 else if S = [] then some 0 else
    match ts.mapM (fun t => treeSdp t.1 t.2.1 m S data t.2.2 x) with
    | none => none
    | some l => npDiv l.sum ts.length

/-- The diagonal terms of `cond_sdp_forest`, py_acv.py:363-373. -/
def diagTerm (t : TreeArr) (val : Nat → ℚ) (n fx : ℚ) (m : Nat) (S : List Nat) (data : List Row) (up : Row → Bool) (x : Row) (nm : PartName) : ℚ :=
  ((compatLeaves t x S).map fun p => probOf m S data up nm p.2 * val p.1 ^ 2).sum / n ^ 2 -
    2 * fx * ((compatLeaves t x S).map fun p => probOf m S data up nm p.2 * val p.1).sum / n

/-- The terms of two trees, py_acv.py:377-391: the rows that are in both leaves over those in both boxes of the columns `S`. -/
def crossTerm (t t' : TreeArr × (Nat → ℚ) × (Row → Bool)) (n : ℚ) (m : Nat) (S : List Nat) (data : List Row) (x : Row) (nm : PartName) : ℚ :=
  ((compatLeaves t.1 x S).map fun p => ((compatLeaves t'.1 x S).map fun q =>
    let pij := (data.filter fun z => (satCC p.2 S z && nm.keep t.2.2 z && satCC p.2 (colsBar m S) z) &&
      (satCC q.2 S z && nm.keep t'.2.2 z && satCC q.2 (colsBar m S) z)).length
    let sij := match nm with
      | .all => if S = [] then 1 else (data.filter fun z => satCC p.2 S z && satCC q.2 S z).length
      | nm => (data.filter fun z => (satCC p.2 S z && nm.keep t.2.2 z) && (satCC q.2 S z && nm.keep t'.2.2 z)).length
    guardDiv pij sij * (t.2.1 p.1 * t'.2.1 q.1)).sum).sum / n ^ 2

/-- `mean_forest[name]`, py_acv.py:358-391. -/
def forestMean (ts : List (TreeArr × (Nat → ℚ) × (Row → Bool))) (fx : ℚ) (m : Nat) (S : List Nat) (data : List Row) (x : Row) (nm : PartName) : ℚ :=
  (ts.zipIdx.map fun t => (ts.zipIdx.map fun t' =>
    if t.2 = t'.2 then diagTerm t.1.1 t.1.2.1 ts.length fx m S data t.1.2.2 x nm
    else crossTerm t.1 t'.1 ts.length m S data x nm).sum).sum

/-- `cond_sdp_forest`, py_acv.py:341-396; `up` marks the rows with `dist > tx`. -/
def condSdp (ts : List (TreeArr × (Nat → ℚ) × (Row → Bool))) (fx : ℚ) (m : Nat) (S : List Nat) (data : List Row) (x : Row) : Option ℚ :=
  clampNan (forestMean ts fx m S data x .up - forestMean ts fx m S data x .all)
    (forestMean ts fx m S data x .up - forestMean ts fx m S data x .down)

end Acv
