import Verif.Model.LoadXgb
import Verif.Spec.Tree
import Mathlib.Algebra.Order.AbsoluteValue.Basic
import Mathlib.Algebra.Order.Group.Unbundled.Abs

/-!
# Specification: the binary format of XGBoost, and what an XGBoost tree predicts

From XGBoost's `LearnerModelParam`, `GBTreeModelParam`, `TreeParam`, `RegTree::Node` and `RTreeNodeStat`.
-/

namespace Acv

/-- Four bytes, little endian. -/
def encU (n : Nat) : List UInt8 := [UInt8.ofNat n, UInt8.ofNat (n / 256), UInt8.ofNat (n / 65536), UInt8.ofNat (n / 16777216)]

/-- A signed 32-bit number. -/
def encI (z : Int) : List UInt8 := encU (z % 2 ^ 32).toNat

/-- Eight bytes, little endian. -/
def encQ (n : Nat) : List UInt8 := encU (n % 2 ^ 32) ++ encU (n / 2 ^ 32)

/-- `n` reserved 32-bit numbers. -/
def encReserved (n : Nat) : List UInt8 := List.replicate (4 * n) 0

def XgbNode.enc (r : XgbNode) : List UInt8 := encI r.parent ++ (encI r.cleft ++ (encI r.cright ++ (encU r.sindex ++ encU r.info)))

def XgbStat.enc (r : XgbStat) : List UInt8 := encU r.lossChg ++ (encU r.sumHess ++ (encU r.baseWeight ++ encI r.leafChildCnt))

/-- A tree: six parameters, 31 reserved numbers, the nodes, the statistics. -/
def XgbRaw.enc (t : XgbRaw) : List UInt8 :=
  encI t.numRoots ++ (encI t.nodes.length ++ (encI t.numDeleted ++ (encI t.maxDepth ++ (encI t.numFeature ++ (encI t.sizeLeafVector ++
    (encReserved 31 ++ ((t.nodes.map XgbNode.enc).flatten ++ (t.stats.map XgbStat.enc).flatten)))))))

/-- A model, up to the end of the last tree. -/
def XgbModel.enc (m : XgbModel) : List UInt8 :=
  encU m.baseScore ++ (encU m.numFeature ++ (encI m.numClass ++ (encI m.extraAttrs ++ (encI m.evalMetrics ++ (encReserved 29 ++
    (encQ m.nameObj.length ++ (m.nameObj ++ (encQ m.nameGbm.length ++ (m.nameGbm ++ (encI m.trees.length ++ (encI m.numRoots ++
    (encI m.gbmFeature ++ (encI m.pad ++ (encQ m.pbuffer ++ (encI m.numOutputGroup ++ (encI m.sizeLeafVector ++ (encReserved 32 ++
    (m.trees.map XgbRaw.enc).flatten)))))))))))))))))

/-- Fits in 32 bits, signed. -/
def IsI32 (z : Int) : Prop := - 2 ^ 31 ≤ z ∧ z < 2 ^ 31

/-- Fits in 32 bits, unsigned. -/
def IsU32 (n : Nat) : Prop := n < 2 ^ 32

structure XgbNode.Fits (r : XgbNode) : Prop where
  parent : IsI32 r.parent
  cleft : IsI32 r.cleft
  cright : IsI32 r.cright
  sindex : IsU32 r.sindex
  info : IsU32 r.info

structure XgbStat.Fits (r : XgbStat) : Prop where
  lossChg : IsU32 r.lossChg
  sumHess : IsU32 r.sumHess
  baseWeight : IsU32 r.baseWeight
  leafChildCnt : IsI32 r.leafChildCnt

structure XgbRaw.Fits (t : XgbRaw) : Prop where
  numRoots : IsI32 t.numRoots
  numDeleted : IsI32 t.numDeleted
  maxDepth : IsI32 t.maxDepth
  numFeature : IsI32 t.numFeature
  sizeLeafVector : IsI32 t.sizeLeafVector
  count : IsI32 t.nodes.length
  stats : t.stats.length = t.nodes.length
  nodeFits : ∀ r ∈ t.nodes, r.Fits
  statFits : ∀ r ∈ t.stats, r.Fits

/-- Every field is in the range of its type, and the names are the ones XGBoost writes. -/
structure XgbModel.Fits (m : XgbModel) : Prop where
  baseScore : IsU32 m.baseScore
  numFeature : IsU32 m.numFeature
  numClass : IsI32 m.numClass
  extraAttrs : IsI32 m.extraAttrs
  evalMetrics : IsI32 m.evalMetrics
  objLength : m.nameObj.length < 2 ^ 64
  objAscii : ∀ b ∈ m.nameObj, b < 128
  gbm : m.nameGbm = gbtree
  numRoots : IsI32 m.numRoots
  gbmFeature : IsI32 m.gbmFeature
  pad : IsI32 m.pad
  pbuffer : m.pbuffer < 2 ^ 64
  numOutputGroup : IsI32 m.numOutputGroup
  sizeLeafVector : IsI32 m.sizeLeafVector
  count : IsI32 m.trees.length
  treeFits : ∀ t ∈ m.trees, t.Fits

/-! ## What XGBoost predicts -/

/-- Bits of a float that is a number. -/
def FiniteBits (b : Nat) : Prop := b < 2 ^ 32 ∧ b % 2 ^ 31 < 255 * 2 ^ 23

/-- Bits of a float that is a number or an infinity. -/
def NotNanBits (b : Nat) : Prop := b < 2 ^ 32 ∧ b % 2 ^ 31 ≤ 255 * 2 ^ 23

/-- An XGBoost tree: node numbers, tested feature, direction of missing values, the bits of the split condition or leaf value. -/
inductive XgbTree where
  | leaf (id : Nat) (value : Nat)
  | split (id : Nat) (feature : Nat) (defaultLeft : Bool) (cond : Nat) (l r : XgbTree)
deriving Repr

def XgbTree.root : XgbTree → Nat
  | .leaf i _ => i
  | .split i _ _ _ _ _ => i

def XgbTree.ids : XgbTree → List Nat
  | .leaf i _ => [i]
  | .split i _ _ _ l r => i :: (l.ids ++ r.ids)

/-- XGBoost's decision: `fvalue < split_cond` goes left, missing values go in the default direction. -/
def xgbLeft (defaultLeft : Bool) (cond : Nat) : Option ℚ → Bool
  | none => defaultLeft
  | some v => decide (v < f32 cond)

/-- The value XGBoost predicts with the tree, for a row of floats. -/
def XgbTree.predict (x : Obs) : XgbTree → ℚ
  | .leaf _ v => f32 v
  | .split _ f dl c l r =>
    if xgbLeft dl c (x f) then l.predict x else r.predict x

/-- The leaf of XGBoost's walk. -/
def XgbTree.reached (x : Obs) : XgbTree → Nat
  | .leaf i _ => i
  | .split _ f dl c l r =>
    if xgbLeft dl c (x f) then l.reached x else r.reached x

/-- The records hold the tree: the split index has the default direction in its highest bit, a leaf has no children. -/
def XgbTree.Held (nodes : List XgbNode) : XgbTree → Prop
  | .leaf i v => ∃ p s, nodes[i]? = some ⟨p, -1, -1, s, v⟩
  | .split i f dl c l r => (∃ p, nodes[i]? = some ⟨p, l.root, r.root, f + dl.toNat * 2 ^ 31, c⟩) ∧ l.Held nodes ∧ r.Held nodes

/-- Features are below `d`, split conditions are not NaN. -/
def XgbTree.Sane (d : Nat) : XgbTree → Prop
  | .leaf _ _ => True
  | .split _ f _ c l r => f < d ∧ NotNanBits c ∧ l.Sane d ∧ r.Sane d

/-- The records are exactly those of the tree, the root first. -/
structure XgbTree.Written (T : XgbTree) (d : Nat) (t : XgbRaw) : Prop where
  root : T.root = 0
  held : T.Held t.nodes
  ids : T.ids.Perm (List.range t.nodes.length)
  sane : T.Sane d
  bound : d ≤ 2 ^ 31

/-- The observation is a row of 32-bit floats. -/
def FloatRow (x : Obs) : Prop := ∀ j v, x j = some v → ∃ b, FiniteBits b ∧ v = f32 b

end Acv

namespace Acv

/-- `b` is the float closest to the number `v`. -/
def Nearest (v : ℚ) (b : Nat) : Prop := FiniteBits b ∧ ∀ b', FiniteBits b' → |v - f32 b| ≤ |v - f32 b'|

/-- `y` is the row of floats XGBoost makes of the row of doubles `x`. -/
def Rounds (x y : Obs) : Prop := ∀ j, (x j = none ∧ y j = none) ∨ ∃ v b, x j = some v ∧ y j = some (f32 b) ∧ Nearest v b

end Acv
