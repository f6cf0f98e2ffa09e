import Verif.Model.ParallelAcc

/-!
# The parallel leaf loops with machine arithmetic

The leaf loops of `shap_values_leaves_pa`, `compute_exp`, `compute_exp_cat`, `compute_sdp_clf_cat` and `compute_sdp_clf`
(/repo/acv_explainers/cyext_acv/cyext_acv.pyx:1350-1485, 52-80, 194-222, 266-314, 377-428) with the operations of an arbitrary arithmetic on an arbitrary
type of values: nothing is assumed about rounding, NaN or the order of additions. The comparisons of data with thresholds involve no
arithmetic, so rows and rectangles stay exact.
-/

namespace Acv

/-- The operations on `double` the loops use. No law is assumed. -/
structure Machine (V : Type) where
  ofNat : Nat → V
  add : V → V → V
  sub : V → V → V
  mul : V → V → V
  div : V → V → V
  /-- `v != 0` -/
  nonzero : V → Bool

/-- Exact arithmetic. -/
def exactMachine : Machine ℚ := ⟨fun n => n, (· + ·), (· - ·), (· * ·), (· / ·), fun v => decide (v ≠ 0)⟩

variable {V : Type}

/-- The statements for one player and one subset number, cyext_acv.pyx:1418-1477. `coef0` and `coef` are the private coefficients computed in
1461-1466 from `m`, the numbers of players of the leaf and of the subset. -/
def leafCounterProgM (A : Machine V) (coef0 : Nat → Nat → V) (coef : Nat → Nat → Nat → V) (m : Nat) (data : List Row) (r : Rect) (v : V) (x : Row)
    (leaf va : Nat) (g : List Nat) (rest : List (List Nat)) (counter : Nat) : List (Stmt LCell V) :=
  let sel := maskSel rest counter
  let S := sel.flatten
  let cS := LCell.lmS va leaf counter
  let cSi := LCell.lmSi va leaf counter
  let zero := A.ofNat 0
  let lm : V := A.ofNat (cnt data r (List.range m))
  [⟨cS, [], fun _ => zero⟩, ⟨cSi, [], fun _ => zero⟩] ++
  data.flatMap (fun z => if sat r S z then
    ⟨cS, [cS], fun l => A.add (l.headD zero) (A.ofNat 1)⟩ ::
      (if sat r g z then [⟨cSi, [cSi], fun l => A.add (l.headD zero) (A.ofNat 1)⟩] else []) else []) ++
  g.map (fun j => ⟨.phi leaf counter j, [.phi leaf counter j, cS, cSi], fun l =>
    let lmS := l.getD 1 zero
    let lmSi := l.getD 2 zero
    let cs : V := A.ofNat (if sat r S x then 1 else 0)
    let csi : V := A.ofNat (if sat r S x && sat r g x then 1 else 0)
    let pS : V := if S.length = 0 then A.div lm (A.ofNat data.length)
      else if A.nonzero lmS then A.div (A.mul cs lm) lmS else zero
    let pSi : V := if A.nonzero lmSi then A.div (A.mul csi lm) lmSi else zero
    A.add (l.getD 0 zero) (A.mul (A.mul (A.add (coef0 m sel.length) (coef m rest.length sel.length)) (A.sub pSi pS)) v)⟩)

/-- The body of the leaf loop, cyext_acv.pyx:1360-1477. `value ℓ` is `values[b, leaf_idx, i2]`. -/
def leafProgM (A : Machine V) (coef0 : Nat → Nat → V) (coef : Nat → Nat → Nat → V) (t : TreeArr) (value : Nat → V) (m : Nat) (data : List Row)
    (C : List (List Nat)) (x : Row) (leaf : Nat) : List (Stmt LCell V) :=
  match t.leafIdx[leaf]? with
  | none => []
  | some ℓ =>
    let node := leafPlayersCy m C (t.leafCols ℓ)
    (playersCy m C).zipIdx.flatMap fun gv =>
      if gv.1 ∈ node then
        (List.range (2 ^ (node.erase gv.1).length)).flatMap fun counter =>
          leafCounterProgM A coef0 coef m data (t.leafRect ℓ) (value ℓ) x leaf gv.2 gv.1 (node.erase gv.1) counter
      else []

/-- The reset loop before each tree, cyext_acv.pyx:1351-1358. -/
def resetPhiM (A : Machine V) (mem : LCell → V) : LCell → V
  | .phi _ _ _ => A.ofNat 0
  | c => mem c

/-- The gathering loop after each tree, cyext_acv.pyx:1479-1484: additions to `phi` one after the other. -/
def gatherPhiM (A : Machine V) (maxLeaves scaling j : Nat) (mem : LCell → V) (phi : V) : V :=
  (List.range maxLeaves).foldl (fun p leaf => (List.range (2 ^ scaling)).foldl (fun p counter => A.add p (mem (.phi leaf counter j))) p) phi

/-- `shap_values_leaves_pa`, cyext_acv.pyx:1350-1485, with one interleaving per tree: value and final configurations. A tree comes with its
leaf values. -/
def shapParallelM (A : Machine V) (coef0 : Nat → Nat → V) (coef : Nat → Nat → Nat → V) (m : Nat) (data : List Row) (C : List (List Nat)) (x : Row)
    (j maxLeaves scaling : Nat) : List (TreeArr × (Nat → V)) → List (List Nat) → (LCell → V) → V → V × List (Conf LCell V)
  | [], _, _, phi => (A.div phi (A.ofNat m), [])
  | t :: ts, scheds, mem, phi =>
    let c := (Conf.start (leafProgM A coef0 coef t.1 t.2 m data C x) (resetPhiM A mem)).run (scheds.headD [])
    let out := shapParallelM A coef0 coef m data C x j maxLeaves scaling ts scheds.tail c.mem (gatherPhiM A maxLeaves scaling j c.mem phi)
    (out.1, c :: out.2)

/-- The same routine with `range` instead of `prange`: one leaf after the other. -/
def shapSequentialM (A : Machine V) (coef0 : Nat → Nat → V) (coef : Nat → Nat → Nat → V) (m : Nat) (data : List Row) (C : List (List Nat)) (x : Row)
    (j maxLeaves scaling : Nat) : List (TreeArr × (Nat → V)) → (LCell → V) → V → V
  | [], _, phi => A.div phi (A.ofNat m)
  | t :: ts, mem, phi =>
    let mem' := seqLoop (leafProgM A coef0 coef t.1 t.2 m data C x) t.1.leafIdx.length (resetPhiM A mem)
    shapSequentialM A coef0 coef m data C x j maxLeaves scaling ts mem' (gatherPhiM A maxLeaves scaling j mem' phi)

/-- The body of the loops that add to a table, cyext_acv.pyx:71-80, 196-222, 269-314, 380-428, as `accProg`. -/
def accProgM (A : Machine V) (tab nbLeaf N Q : Nat) (add : Nat → Nat → Option (Nat → V)) (leaf : Nat) : List (Stmt ACell V) :=
  if leaf < nbLeaf then
    (List.range N).flatMap fun i =>
      match add leaf i with
      | none => []
      | some f => (List.range Q).map fun q => ⟨⟨tab, leaf, i, q⟩, [⟨tab, leaf, i, q⟩], fun l => A.add (l.headD (A.ofNat 0)) (f q)⟩
  else []

/-- The loop over the trees with one interleaving per tree, cyext_acv.pyx:52-80, 194-222, 266-314, 377-428. -/
def accTreesM (A : Machine V) (N Q : Nat) : List (Nat × Nat × (Nat → Nat → Option (Nat → V))) → List (List Nat) → (ACell → V) →
    (ACell → V) × List (Conf ACell V)
  | [], _, mem => (mem, [])
  | t :: ts, scheds, mem =>
    let c := (Conf.start (accProgM A t.1 t.2.1 N Q t.2.2) mem).run (scheds.headD [])
    let out := accTreesM A N Q ts scheds.tail c.mem
    (out.1, c :: out.2)

/-- The same with `range`. -/
def accSequentialM (A : Machine V) (N Q : Nat) : List (Nat × Nat × (Nat → Nat → Option (Nat → V))) → (ACell → V) → ACell → V
  | [], mem => mem
  | t :: ts, mem => accSequentialM A N Q ts (seqLoop (accProgM A t.1 t.2.1 N Q t.2.2) t.2.1 mem)

end Acv
