import Verif.Model.Tree

/-!
# Loading XGBoost models

Models `XGBTreeModelLoader` (/repo/acv_explainers/base_tree.py:1201-1344). A model is the list of bytes of `save_raw()`.

Simplifications: the machine is little endian; a 32-bit float is its bit pattern, `f32` is its value as an exact rational, infinities have
the values `2 ** 128` and `- 2 ** 128`, which are beyond every finite value, and NaN has no meaning; the logit of `base_score`
(base_tree.py:1226-1228) is not modelled; `read_str` accepts ASCII only. `none` stands for a raised exception.
-/

namespace Acv

/-- The number of a little endian sequence of bytes. -/
def leNat : List UInt8 → Nat
  | [] => 0
  | b :: bs => b.toNat + 256 * leNat bs

/-- The bytes of `b'binf'`. -/
def binf : List UInt8 := [98, 105, 110, 102]

/-- `.lstrip(b'binf')`, base_tree.py:1210: bytes are removed from the left as long as they are among the four bytes. -/
def lstripBinf (buf : List UInt8) : List UInt8 := buf.dropWhile fun b => decide (b ∈ binf)

/-- A reading step: the position `self.pos` is the state, `none` an exception. -/
abbrev Reader := StateT Nat Option

/-- `self.read(dtype)` with `struct.calcsize(dtype) = size`, as an unsigned number, base_tree.py:1328-1332. -/
def readNat (size : Nat) (buf : List UInt8) : Reader Nat := fun pos =>
  if pos + size ≤ buf.length then some (leNat ((buf.drop pos).take size), pos + size) else none

/-- The number that 32 bits are in two's complement. -/
def toInt32 (n : Nat) : Int := if n < 2 ^ 31 then n else (n : Int) - 2 ^ 32

/-- `self.read('I')` and, as a bit pattern, `self.read('f')`. -/
def readU (buf : List UInt8) : Reader Nat := readNat 4 buf

/-- `self.read('i')`. -/
def readI (buf : List UInt8) : Reader Int := do
  let n ← readNat 4 buf
  pure (toInt32 n)

/-- `self.read('Q')`. -/
def readQ (buf : List UInt8) : Reader Nat := readNat 8 buf

/-- `self.read_arr('i', n)`; the result is not used, base_tree.py:1334-1339. -/
def skipI (n : Nat) (buf : List UInt8) : Reader Unit := do
  let _ ← readNat (4 * n) buf
  pure ()

/-- `self.read_str(size)`, base_tree.py:1341-1344. A slice may be shorter than asked for; `decode` raises outside of ASCII. -/
def readStr (size : Nat) (buf : List UInt8) : Reader (List UInt8) := fun pos =>
  let s := (buf.drop pos).take size
  if s.all (fun b => decide (b < 128)) then some (s, pos + size) else none

/-- `for j in range(n): ...`, one item per pass. -/
def readMany {α : Type} (p : List UInt8 → Reader α) : Nat → List UInt8 → Reader (List α)
  | 0, _ => pure []
  | n + 1, buf => do
    let a ← p buf
    let as ← readMany p n buf
    pure (a :: as)

/-- A node record, base_tree.py:1277-1282. -/
structure XgbNode where
  parent : Int
  cleft : Int
  cright : Int
  sindex : Nat
  info : Nat
deriving DecidableEq, Repr

/-- The statistics of a node, base_tree.py:1289-1293. -/
structure XgbStat where
  lossChg : Nat
  sumHess : Nat
  baseWeight : Nat
  leafChildCnt : Int
deriving DecidableEq, Repr

/-- What is read of a tree, base_tree.py:1258-1293. -/
structure XgbRaw where
  numRoots : Int
  numDeleted : Int
  maxDepth : Int
  numFeature : Int
  sizeLeafVector : Int
  nodes : List XgbNode
  stats : List XgbStat
deriving DecidableEq, Repr

/-- What is read of a model, base_tree.py:1213-1293. -/
structure XgbModel where
  baseScore : Nat
  numFeature : Nat
  numClass : Int
  extraAttrs : Int
  evalMetrics : Int
  nameObj : List UInt8
  nameGbm : List UInt8
  numRoots : Int
  gbmFeature : Int
  pad : Int
  pbuffer : Nat
  numOutputGroup : Int
  sizeLeafVector : Int
  trees : List XgbRaw
deriving DecidableEq, Repr

/-- base_tree.py:1277-1282. -/
def readNode (buf : List UInt8) : Reader XgbNode := do
  let parent ← readI buf
  let cleft ← readI buf
  let cright ← readI buf
  let sindex ← readU buf
  let info ← readU buf
  pure ⟨parent, cleft, cright, sindex, info⟩

/-- base_tree.py:1289-1293. -/
def readStat (buf : List UInt8) : Reader XgbStat := do
  let lossChg ← readU buf
  let sumHess ← readU buf
  let baseWeight ← readU buf
  let leafChildCnt ← readI buf
  pure ⟨lossChg, sumHess, baseWeight, leafChildCnt⟩

/-- `np.zeros(n)` raises for a negative length. -/
def natOf (n : Int) : Reader Nat := fun pos => if 0 ≤ n then some (n.toNat, pos) else none

/-- The body of the loop over trees, base_tree.py:1258-1293. -/
def readTree (buf : List UInt8) : Reader XgbRaw := do
  let numRoots ← readI buf
  let numNodes ← readI buf
  let numDeleted ← readI buf
  let maxDepth ← readI buf
  let numFeature ← readI buf
  let sizeLeafVector ← readI buf
  let _ ← skipI 31 buf
  let n ← natOf numNodes
  let nodes ← readMany readNode n buf
  let stats ← readMany readStat n buf
  pure ⟨numRoots, numDeleted, maxDepth, numFeature, sizeLeafVector, nodes, stats⟩

/-- `"gbtree"`. -/
def gbtree : List UInt8 := [103, 98, 116, 114, 101, 101]

/-- `assert self.name_gbm == "gbtree"`, base_tree.py:1230. -/
def assertGbtree (s : List UInt8) : Reader Unit := fun pos => if s = gbtree then some ((), pos) else none

/-- `XGBTreeModelLoader.__init__` after the buffer is set, base_tree.py:1213-1293. -/
def readModel (buf : List UInt8) : Reader XgbModel := do
  let baseScore ← readU buf
  let numFeature ← readU buf
  let numClass ← readI buf
  let extraAttrs ← readI buf
  let evalMetrics ← readI buf
  let _ ← skipI 29 buf
  let nameObjLen ← readQ buf
  let nameObj ← readStr nameObjLen buf
  let nameGbmLen ← readQ buf
  let nameGbm ← readStr nameGbmLen buf
  let _ ← assertGbtree nameGbm
  let numTrees ← readI buf
  let numRoots ← readI buf
  let gbmFeature ← readI buf
  let pad ← readI buf
  let pbuffer ← readQ buf
  let numOutputGroup ← readI buf
  let sizeLeafVector ← readI buf
  let _ ← skipI 32 buf
  let n ← natOf numTrees
  let trees ← readMany readTree n buf
  pure ⟨baseScore, numFeature, numClass, extraAttrs, evalMetrics, nameObj, nameGbm, numRoots, gbmFeature, pad, pbuffer, numOutputGroup,
    sizeLeafVector, trees⟩

/-- `XGBTreeModelLoader(model)`, base_tree.py:1208-1293, with the position after the last read. -/
def xgbRead (raw : List UInt8) : Option (XgbModel × Nat) := readModel (lstripBinf raw) 0

/-! ## Floats -/

/-- The size of a float, in units of `2 ** -149`, from the bits without sign: subnormal numbers, then normal ones. -/
def f32Mag (c : Nat) : Nat := if c < 2 ^ 23 then c else (2 ^ 23 + c % 2 ^ 23) * 2 ^ (c / 2 ^ 23 - 1)

/-- The value of 32 bits as a float. -/
def f32 (b : Nat) : ℚ := (if b < 2 ^ 31 then (f32Mag b : ℚ) else - (f32Mag (b - 2 ^ 31) : ℚ)) / 2 ^ 149

/-- `np.nextafter(x, - np.float32(np.inf))`, base_tree.py:1312: the next float below, as bits. -/
def nextBelow (b : Nat) : Nat :=
  if b = 0 ∨ b = 2 ^ 31 then 2 ^ 31 + 1
  else if b < 2 ^ 31 then b - 1
  else if b = 2 ^ 31 + 255 * 2 ^ 23 then b
  else b + 1

/-! ## Trees -/

/-- `children_default`, base_tree.py:1303-1306. -/
def XgbNode.dflt (r : XgbNode) : Int := if r.sindex >>> 31 ≠ 0 then r.cleft else r.cright

/-- `features`, base_tree.py:1307. -/
def XgbNode.feature (r : XgbNode) : Nat := r.sindex &&& (1 <<< 31 - 1)

/-- A record that is read nowhere; it makes `List.getD` total. -/
def XgbNode.none : XgbNode := ⟨-1, -1, -1, 0, 0⟩

/-- The arrays of a tree, `get_trees`, base_tree.py:1293-1326. -/
def XgbRaw.load (t : XgbRaw) : TreeArr :=
  let r := fun j => t.nodes.getD j .none
  { size := t.nodes.length
    left := fun j => (r j).cleft
    right := fun j => (r j).cright
    dflt := fun j => (r j).dflt
    feature := fun j => (r j).feature
    threshold := fun j => if 0 ≤ (r j).cleft then f32 (nextBelow (r j).info) else 0
    value := fun j _ => if 0 ≤ (r j).cleft then 0 else f32 (r j).info
    weight := fun j => f32 (t.stats.getD j ⟨0, 0, 0, 0⟩).sumHess }

/-- `XGBTreeModelLoader(model).get_trees()`, base_tree.py:1208-1326. -/
def xgbLoad (raw : List UInt8) : Option (List TreeArr) := (xgbRead raw).map fun p => p.1.trees.map XgbRaw.load

end Acv
