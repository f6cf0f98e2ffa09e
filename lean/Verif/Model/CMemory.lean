import Verif.Model.Tree

/-!
# The C++ prediction on memory

Models `/repo/acv_explainers/cext_acv/acv_tree.h` and the wrappers of `/repo/acv_explainers/cext_acv/_cext.cc` with flat arrays, pointer
offsets and 32-bit unsigned numbers: `Verif/Model/Tree.lean` has the same functions on trees and rows, without memory.

An array is its length and its cells; a read or a write outside is `none` (undefined behaviour). Pointers are offsets; pointer arithmetic is
64-bit and taken as exact, arithmetic on `unsigned` is modulo 2^32. Numbers are rationals; a missing entry has any number in `X`
and `true` in `X_missing`. Not modelled: reference counts, and the conversion of the arguments to contiguous arrays of the C types
(`PyArray_FROM_OTF`).
-/

namespace Acv

/-- An array of `len` cells. -/
structure CArr (α : Type) where
  len : Nat
  get : Nat → α

/-- `a[i]`. -/
def CArr.read {α : Type} (a : CArr α) (i : Nat) : Option α := if i < a.len then some (a.get i) else none

/-- `a[i] += v`. -/
def CArr.addAt (a : CArr ℚ) (i : Nat) (v : ℚ) : Option (CArr ℚ) :=
  if i < a.len then some ⟨a.len, fun j => if j = i then a.get j + v else a.get j⟩ else none

/-- A value of type `unsigned`. -/
def u32 (n : Nat) : Nat := n % 4294967296

/-- `int` converted to `unsigned`. -/
def u32i (z : Int) : Nat := (z % 4294967296).toNat

/-- `TreeEnsemble`, acv_tree.h:15-38: the arrays and the numbers used by the predictions. -/
structure CTrees where
  left : CArr Int
  right : CArr Int
  dflt : CArr Int
  feature : CArr Int
  threshold : CArr ℚ
  value : CArr ℚ
  base : CArr ℚ
  treeLimit : Nat
  maxNodes : Nat
  numOutputs : Nat

/-- `ExplanationDataset`, acv_tree.h:85-98. -/
structure CData where
  X : CArr ℚ
  missing : CArr Bool
  numX : Nat
  M : Nat

/-- The loop of `tree_predict`, acv_tree.h:200-217, from `node`: the offset in `values` of the leaf reached. `x` and `x_missing` point to
the cell `xo`. `none` also when the loop has not ended after `fuel` steps. -/
def cWalk (t : CTrees) (d : CData) (xo offset : Nat) : Nat → Nat → Option Nat
  | 0, _ => none
  | fuel + 1, node => do
    let pos := u32 (offset + node)
    let feature ← t.feature.read pos
    let l ← t.left.read pos
    if l < 0 then return u32 (pos * t.numOutputs)
    else
      let miss ← d.missing.read (xo + u32i feature)
      if miss then
        let c ← t.dflt.read pos
        cWalk t d xo offset fuel (u32i c)
      else
        let v ← d.X.read (xo + u32i feature)
        let thr ← t.threshold.read pos
        if v ≤ thr then cWalk t d xo offset fuel (u32i l)
        else
          let r ← t.right.read pos
          cWalk t d xo offset fuel (u32i r)

/-- `tree_predict(i, trees, x, x_missing)`, acv_tree.h:197-218. -/
def cTreePredict (t : CTrees) (d : CData) (xo : Nat) (fuel i : Nat) : Option Nat := cWalk t d xo (u32 (i * t.maxNodes)) fuel 0

/-- `for k < num_outputs: row_out[k] += src[k]`, acv_tree.h:258-260 and 266-268: `row_out` points to the cell `ro`, `src` to the cell
`so`. -/
def cAddRow (K : Nat) (src : CArr ℚ) (so ro : Nat) (out : CArr ℚ) : Option (CArr ℚ) :=
  (List.range K).foldlM (fun out k => do
    let v ← src.read (so + k)
    out.addAt (ro + k) v) out

/-- The body of the loop over the rows of `dense_tree_predict`, acv_tree.h:255-282. -/
def cDenseRow (t : CTrees) (d : CData) (fuel i : Nat) (out : CArr ℚ) : Option (CArr ℚ) := do
  let out ← cAddRow t.numOutputs t.base 0 (i * t.numOutputs) out
  (List.range t.treeLimit).foldlM (fun out j => do
    let leaf ← cTreePredict t d (i * d.M) fuel j
    cAddRow t.numOutputs t.value leaf (i * t.numOutputs) out) out

/-- `dense_tree_predict`, acv_tree.h:247-283. -/
def cDense (t : CTrees) (d : CData) (fuel : Nat) (out : CArr ℚ) : Option (CArr ℚ) :=
  (List.range d.numX).foldlM (fun out i => cDenseRow t d fuel i out) out

/-- `single_tree_predict`, acv_tree.h:285-322. -/
def cSingle (t : CTrees) (d : CData) (fuel j : Nat) (out : CArr ℚ) : Option (CArr ℚ) :=
  (List.range d.numX).foldlM (fun out i => do
    let out ← cAddRow t.numOutputs t.base 0 (i * t.numOutputs) out
    let leaf ← cTreePredict t d (i * d.M) fuel j
    cAddRow t.numOutputs t.value leaf (i * t.numOutputs) out) out

/-- `compute_expectations`, acv_tree.h:142-168, called on a single tree (the assignments are commented out in the source): reads the
children and their weights. -/
def cDepth (left right : CArr Int) (weight : CArr ℚ) : Nat → Nat → Option Nat
  | 0, _ => none
  | fuel + 1, i => do
    let r ← right.read i
    if r ≥ 0 then
      let l ← left.read i
      let dl ← cDepth left right weight fuel (u32i l)
      let dr ← cDepth left right weight fuel (u32i r)
      let _ ← weight.read (u32i l)
      let _ ← weight.read (u32i r)
      return u32 (max dl dr + 1)
    else return 0

/-- `_cext_dense_tree_predict`, _cext.cc:130-241, given contiguous arrays: `values` has the shape `(·, maxNodes, numOutputs)`, `X` the shape
`(numX, M)`. Without as many offsets as outputs it returns `NULL` with no exception set (`SystemError`). At the end it reads `values[0]`.
The arguments `children_left`, ... are only pointers: no shape is compared with another. -/
def cextPredict (left right dflt feature : CArr Int) (threshold value : CArr ℚ) (maxNodes numOutputs treeLimit : Nat) (base : CArr ℚ)
    (X : CArr ℚ) (missing : CArr Bool) (numX M : Nat) (fuel : Nat) (out : CArr ℚ) : Except String (CArr ℚ) :=
  if u32 base.len ≠ u32 numOutputs then .error "SystemError"
  else
    let t : CTrees := ⟨left, right, dflt, feature, threshold, value, base, u32 treeLimit, u32 maxNodes, u32 numOutputs⟩
    match cDense t ⟨X, missing, u32 numX, u32 M⟩ fuel out with
    | none => .error "undefined"
    | some out => if 0 < value.len then .ok out else .error "undefined"

/-- `_cext_single_tree_predict`, _cext.cc:356-470: the same checks, `j` from a C `int`. -/
def cextSingle (left right dflt feature : CArr Int) (threshold value : CArr ℚ) (maxNodes numOutputs treeLimit : Nat) (base : CArr ℚ)
    (X : CArr ℚ) (missing : CArr Bool) (numX M : Nat) (j : Int) (fuel : Nat) (out : CArr ℚ) : Except String (CArr ℚ) :=
  if u32 base.len ≠ u32 numOutputs then .error "SystemError"
  else
    let t : CTrees := ⟨left, right, dflt, feature, threshold, value, base, u32 treeLimit, u32 maxNodes, u32 numOutputs⟩
    match cSingle t ⟨X, missing, u32 numX, u32 M⟩ fuel (u32i j) out with
    | none => .error "undefined"
    | some out => if 0 < value.len then .ok out else .error "undefined"

/-- A matrix stored row after row. -/
def rowMajor {α : Type} (rows cols : Nat) (f : Nat → Nat → α) : CArr α := ⟨rows * cols, fun p => f (p / cols) (p % cols)⟩

/-- `BaseTree.predict`, /repo/acv_explainers/base_tree.py:742-762, for the trees `ts` with `K` outputs, `N` observations of `M` columns, of
which `x i j` is `none` where missing and `junk` is stored there: the arrays of `pack ts`, the zeros of `output`. `fuel` bounds every
descent. -/
def basePredict (ts : List TreeArr) (K : Nat) (limit : Nat) (base : Nat → ℚ) (N M : Nat) (x : Nat → Obs) (junk : ℚ) (fuel : Nat) :
    Except String (CArr ℚ) :=
  let p := pack ts
  let cells := p.numTrees * p.maxNodes
  cextPredict ⟨cells, p.left⟩ ⟨cells, p.right⟩ ⟨cells, p.dflt⟩ ⟨cells, p.feature⟩ ⟨cells, p.threshold⟩
    (rowMajor cells K p.value) p.maxNodes K limit ⟨K, base⟩
    (rowMajor N M fun i j => (x i j).getD junk) (rowMajor N M fun i j => (x i j).isNone) N M fuel ⟨N * K, fun _ => 0⟩

/-- The call of `single_tree_predict` with the same arrays and the tree `j` (no caller in Python). -/
def baseSingle (ts : List TreeArr) (K : Nat) (base : Nat → ℚ) (N M : Nat) (x : Nat → Obs) (junk : ℚ) (j : Int) (fuel : Nat) :
    Except String (CArr ℚ) :=
  let p := pack ts
  let cells := p.numTrees * p.maxNodes
  cextSingle ⟨cells, p.left⟩ ⟨cells, p.right⟩ ⟨cells, p.dflt⟩ ⟨cells, p.feature⟩ ⟨cells, p.threshold⟩
    (rowMajor cells K p.value) p.maxNodes K p.numTrees ⟨K, base⟩
    (rowMajor N M fun i j => (x i j).getD junk) (rowMajor N M fun i j => (x i j).isNone) N M j fuel ⟨N * K, fun _ => 0⟩

/-- `SingleTree.predict`, base_tree.py:1110-1142: the arrays of one tree with a first axis of length one, the values divided by `scaling`,
no offset. -/
def singleTreePredict (t : TreeArr) (K : Nat) (scaling : ℚ) (N M : Nat) (x : Nat → Obs) (junk : ℚ) (fuel : Nat) : Except String (CArr ℚ) :=
  cextPredict ⟨t.size, t.left⟩ ⟨t.size, t.right⟩ ⟨t.size, t.dflt⟩ ⟨t.size, t.feature⟩ ⟨t.size, t.threshold⟩
    (rowMajor t.size K fun n k => t.value n k / scaling) t.size K 1 ⟨K, fun _ => 0⟩
    (rowMajor N M fun i j => (x i j).getD junk) (rowMajor N M fun i j => (x i j).isNone) N M fuel ⟨N * K, fun _ => 0⟩

/-- `SingleTree.max_depth`, base_tree.py:1105-1108 through `_cext_compute_expectations`, _cext.cc:76-127. -/
def cextDepth (t : TreeArr) (weight : Nat → ℚ) (fuel : Nat) : Option Nat :=
  cDepth ⟨t.size, t.left⟩ ⟨t.size, t.right⟩ ⟨t.size, weight⟩ fuel 0

end Acv
