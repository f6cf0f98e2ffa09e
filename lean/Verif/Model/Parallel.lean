import Verif.Model.LeafShap

/-!
# `prange` loops

A parallel loop is a family of iterations. An iteration is a sequence of statements on shared array cells; a statement
loads some cells one after the other, and then stores one cell. Iterations interleave between any two loads or stores.
An assignment of iterations to threads only restricts the possible interleavings, so quantifying over all interleavings
covers every thread count and every OpenMP schedule. Scalars assigned in the body of a `prange` are private to the thread
in Cython; they are the loaded values here. The values of the cells are of any type `V`, so that the arithmetic may be that of the
machine.
-/

namespace Acv

/-- `dst = f(srcs...)` on shared cells. -/
structure Stmt (Cell : Type) (V : Type := ℚ) where
  dst : Cell
  srcs : List Cell
  f : List V → V

/-- A started iteration: the values already loaded for its next statement, and what remains to do. -/
structure Iter (Cell : Type) (V : Type := ℚ) where
  loaded : List V
  todo : List (Stmt Cell V)

/-- Shared memory and all iterations. -/
structure Conf (Cell : Type) (V : Type := ℚ) where
  mem : Cell → V
  iter : Nat → Iter Cell V

variable {Cell V : Type} [DecidableEq Cell]

def setCell (m : Cell → V) (c : Cell) (v : V) : Cell → V := fun c' => if c' = c then v else m c'

/-- One load or one store of iteration `i` (nothing if the iteration is finished). -/
def Conf.step (c : Conf Cell V) (i : Nat) : Conf Cell V :=
  match (c.iter i).todo with
  | [] => c
  | s :: rest =>
    if h : (c.iter i).loaded.length < s.srcs.length then
      { c with iter := fun k => if k = i then ⟨(c.iter i).loaded ++ [c.mem s.srcs[(c.iter i).loaded.length]], s :: rest⟩ else c.iter k }
    else
      { mem := setCell c.mem s.dst (s.f (c.iter i).loaded),
        iter := fun k => if k = i then ⟨[], rest⟩ else c.iter k }

/-- Start of the loop: iteration `i` has the program `P i`. -/
def Conf.start (P : Nat → List (Stmt Cell V)) (mem : Cell → V) : Conf Cell V := ⟨mem, fun i => ⟨[], P i⟩⟩

/-- The implicit barrier at the end of a `prange`: all iterations have finished. -/
def Conf.finished (c : Conf Cell V) : Prop := ∀ i, (c.iter i).todo = []

/-- Running an interleaving. -/
def Conf.run (c : Conf Cell V) (sched : List Nat) : Conf Cell V := sched.foldl Conf.step c

/-- A statement executed at once. -/
def Stmt.exec (m : Cell → V) (s : Stmt Cell V) : Cell → V := setCell m s.dst (s.f (s.srcs.map m))

/-- The ordinary sequential loop over iterations `0..n-1`. -/
def seqLoop (P : Nat → List (Stmt Cell V)) (n : Nat) (mem : Cell → V) : Cell → V :=
  (List.range n).foldl (fun m i => (P i).foldl Stmt.exec m) mem

/-! ## The leaf loop of `shap_values_leaves_pa` -/

/-- Shared cells written in the loop: `phi_b[leaf,counter,i,j,i2]` (for one sample and output), `lm_s[va,leaf,counter]`
and `lm_si[va,leaf,counter]`, cyext_acv.pyx:1290-1296,1347-1349. The vectors indexed by the leaf (`node_id_v2`, `C_b`,
`node_id`, `node_id_va`, `buff`, `S`) are private to the iteration by their index and are not represented. -/
inductive LCell
  | phi (leaf counter j : Nat)
  | lmS (va leaf counter : Nat)
  | lmSi (va leaf counter : Nat)
  deriving DecidableEq

/-- The statements for one player and one subset number, cyext_acv.pyx:1418-1477. -/
def leafCounterProg (m : Nat) (data : List Row) (r : Rect) (v : ℚ) (x : Row) (leaf va : Nat) (g : List Nat)
    (rest : List (List Nat)) (counter : Nat) : List (Stmt LCell) :=
  let sel := maskSel rest counter
  let S := sel.flatten
  let cS := LCell.lmS va leaf counter
  let cSi := LCell.lmSi va leaf counter
  let lm : ℚ := cnt data r (List.range m)
  [⟨cS, [], fun _ => 0⟩, ⟨cSi, [], fun _ => 0⟩] ++
  data.flatMap (fun z => if sat r S z then
    ⟨cS, [cS], fun l => l.headD 0 + 1⟩ :: (if sat r g z then [⟨cSi, [cSi], fun l => l.headD 0 + 1⟩] else []) else []) ++
  g.map (fun j => ⟨.phi leaf counter j, [.phi leaf counter j, cS, cSi], fun l =>
    let lmS := l.getD 1 0
    let lmSi := l.getD 2 0
    let cs : ℚ := if sat r S x then 1 else 0
    let csi : ℚ := if sat r S x && sat r g x then 1 else 0
    let pS : ℚ := if S.length = 0 then lm / data.length else if lmS ≠ 0 then cs * lm / lmS else 0
    let pSi : ℚ := if lmSi ≠ 0 then csi * lm / lmSi else 0
    l.getD 0 0 + (coefZero m sel.length + coefLoop m rest.length sel.length) * (pSi - pS) * v⟩)

/-- The body of the leaf loop, cyext_acv.pyx:1360-1477. -/
def leafProg (t : TreeArr) (m : Nat) (data : List Row) (C : List (List Nat)) (x : Row) (k leaf : Nat) : List (Stmt LCell) :=
  match t.leafIdx[leaf]? with
  | none => []
  | some ℓ =>
    let node := leafPlayersCy m C (t.leafCols ℓ)
    (playersCy m C).zipIdx.flatMap fun gv =>
      if gv.1 ∈ node then
        (List.range (2 ^ (node.erase gv.1).length)).flatMap fun counter =>
          leafCounterProg m data (t.leafRect ℓ) (t.value ℓ k) x leaf gv.2 gv.1 (node.erase gv.1) counter
      else []

/-- The reset loop before each tree, cyext_acv.pyx:1351-1358. -/
def resetPhi (mem : LCell → ℚ) : LCell → ℚ
  | .phi _ _ _ => 0
  | c => mem c

/-- The gathering loop after each tree, cyext_acv.pyx:1479-1484. -/
def gatherPhi (maxLeaves scaling j : Nat) (mem : LCell → ℚ) : ℚ :=
  ((List.range maxLeaves).map fun leaf => ((List.range (2 ^ scaling)).map fun counter => mem (.phi leaf counter j)).sum).sum

/-- `shap_values_leaves_pa` with one interleaving per tree (cyext_acv.pyx:1350-1485). Returns the accumulated `phi` of
column `j` and the final configuration of every loop. `lm_s` and `lm_si` keep their contents from tree to tree. -/
def shapParallel (m : Nat) (data : List Row) (C : List (List Nat)) (x : Row) (j k maxLeaves scaling : Nat) :
    List TreeArr → List (List Nat) → (LCell → ℚ) → ℚ → ℚ × List (Conf LCell)
  | [], _, _, phi => (phi / m, [])
  | t :: ts, scheds, mem, phi =>
    let c := (Conf.start (leafProg t m data C x k) (resetPhi mem)).run (scheds.headD [])
    let out := shapParallel m data C x j k maxLeaves scaling ts scheds.tail c.mem (phi + gatherPhi maxLeaves scaling j c.mem)
    (out.1, c :: out.2)

/-! ## Row loops such as the one of `compute_sdp_rf` -/

/-- `for i in prange(N): sdp[i] = f(i)`, e.g. cyext_acv.pyx:5228-5231,5886-5889,5980-5983. -/
def rowProg (N : Nat) (f : Nat → ℚ) (i : Nat) : List (Stmt Nat) := if i < N then [⟨i, [], fun _ => f i⟩] else []

end Acv
