import Verif.Props.GroupOrder
import Verif.Props.Cdp
import Verif.Props.Marginal
import Verif.Props.TreeSdp
import Verif.Props.SdpReg

/-!
# C137: the columns that are fixed are a set
-/

namespace Acv

variable {S S' : List Nat}

theorem all_sameCols (h : SameCols S S') (f : Nat → Bool) : S.all f = S'.all f := by
  rw [Bool.eq_iff_iff, List.all_eq_true, List.all_eq_true]
  exact ⟨fun H s hs => H s ((h s).2 hs), fun H s hs => H s ((h s).1 hs)⟩

theorem nil_sameCols (h : SameCols S S') : S = [] ↔ S' = [] := by
  rw [List.eq_nil_iff_forall_not_mem, List.eq_nil_iff_forall_not_mem]
  exact ⟨fun H s hs => H s ((h s).2 hs), fun H s hs => H s ((h s).1 hs)⟩

theorem length_sameCols (h : SameCols S S') (h1 : S.Nodup) (h2 : S'.Nodup) : S.length = S'.length :=
  ((List.perm_ext_iff_of_nodup h1 h2).2 h).length_eq

theorem inS_sameCols (h : SameCols S S') (f : Int) : inS S f = inS S' f := by
  unfold inS
  congr 1
  exact decide_eq_decide.2 (h _)

theorem visit_sameCols (h : SameCols S S') (mem : Mem) (push : List Int → Int → List Int) (x : Row) (data : Nat → Row) :
    mem.visit push S x data = mem.visit push S' x data := by
  funext n st
  unfold Mem.visit
  simp only [inS_sameCols h]

theorem scan_sameCols (h : SameCols S S') (mem : Mem) (push : List Int → Int → List Int) (x : Row) (data : Nat → Row) (minSize : Nat) :
    ∀ (nodes : List Int) (st : PState), mem.scan push S x data minSize nodes st = mem.scan push S' x data minSize nodes st
  | [], _ => rfl
  | n :: ns, st => by
    unfold Mem.scan
    simp only [visit_sameCols h, scan_sameCols h mem push x data minSize ns]

theorem levels_sameCols (h : SameCols S S') (mem : Mem) (push : List Int → Int → List Int) (x : Row) (data : Nat → Row) (minSize : Nat) :
    ∀ (k : Nat) (nodes : List Int) (st : PState), mem.levels push S x data minSize k nodes st = mem.levels push S' x data minSize k nodes st
  | 0, _, _ => rfl
  | k + 1, nodes, st => by
    unfold Mem.levels
    simp only [scan_sameCols h, levels_sameCols h mem push x data minSize k]

theorem forestRun_sameCols (h : SameCols S S') (push : List Int → Int → List Int) (x : Row) (data : Nat → Row) (minSize maxDepth N : Nat) :
    ∀ (mems : List Mem) (r : Rule), forestRun push S x data minSize maxDepth N mems r = forestRun push S' x data minSize maxDepth N mems r
  | [], _ => rfl
  | m :: ms, r => by
    unfold forestRun Mem.run
    simp only [levels_sameCols h, forestRun_sameCols h push x data minSize maxDepth N ms]

theorem visitPy_sameCols (h : SameCols S S') (mem : Mem) (x : Row) (data : Nat → Row) : mem.visitPy S x data = mem.visitPy S' x data := by
  funext n child samples
  unfold Mem.visitPy
  simp only [inS_sameCols h]

theorem scanPy_sameCols (h : SameCols S S') (mem : Mem) (x : Row) (data : Nat → Row) (minSize : Nat) :
    ∀ (nodes child : List Int) (samples : List Nat), mem.scanPy S x data minSize nodes child samples = mem.scanPy S' x data minSize nodes child samples
  | [], _, _ => rfl
  | n :: ns, _, _ => by
    unfold Mem.scanPy
    simp only [visitPy_sameCols h, scanPy_sameCols h mem x data minSize ns]

theorem levelsPy_sameCols (h : SameCols S S') (mem : Mem) (x : Row) (data : Nat → Row) (minSize : Nat) :
    ∀ (k : Nat) (nodes child : List Int) (samples : List Nat),
      mem.levelsPy S x data minSize k nodes child samples = mem.levelsPy S' x data minSize k nodes child samples
  | 0, _, _, _ => rfl
  | k + 1, _, _, _ => by
    unfold Mem.levelsPy
    simp only [scanPy_sameCols h, levelsPy_sameCols h mem x data minSize k]

/-- **C137, projected forest**: two lists with the same columns, in any order and with any repetitions, give the same probabilities,
expectation, distribution function, weights and rule, and in the Python versions the same rows. -/
theorem C137_forest (h : SameCols S S') (mems : List Mem) (x : Row) (yx : ℚ) (data : Nat → Row) (y : Nat → ℚ) (minSize maxDepth N : Nat)
    (classifier : Bool) (t : ℚ × ℚ) :
    sdpRf mems S x yx data y minSize maxDepth N classifier t = sdpRf mems S' x yx data y minSize maxDepth N classifier t ∧
    ddpRf mems S x yx data y minSize maxDepth N classifier t = ddpRf mems S' x yx data y minSize maxDepth N classifier t ∧
    sdpRule mems S x yx data y minSize maxDepth N classifier t = sdpRule mems S' x yx data y minSize maxDepth N classifier t ∧
    ruleWeights mems S x data minSize maxDepth N = ruleWeights mems S' x data minSize maxDepth N ∧
    expRf mems S x data y minSize maxDepth N = expRf mems S' x data y minSize maxDepth N ∧
    cdfRf mems S x data y minSize maxDepth N = cdfRf mems S' x data y minSize maxDepth N ∧
    shaffSdpClf mems S x yx data y minSize maxDepth N = shaffSdpClf mems S' x yx data y minSize maxDepth N := by
  refine ⟨?_, ?_, ?_, ?_, ?_, ?_, ?_⟩
  · unfold sdpRf cellsSet; rw [forestRun_sameCols h]
  · unfold ddpRf cellsSet; rw [forestRun_sameCols h]
  · unfold sdpRule; rw [forestRun_sameCols h]
  · funext i; unfold ruleWeights cellsSet; rw [forestRun_sameCols h]
  · unfold expRf cellsSet; rw [forestRun_sameCols h]
  · funext q; unfold cdfRf cellsVec; rw [forestRun_sameCols h]
  · unfold shaffSdpClf Mem.cellPy; simp only [levelsPy_sameCols h]

example : SameCols [2, 0, 2] [0, 2] ∧
    sdpRf [Mem.ofTree ladderTree leafJunk] [2, 0, 2] (diag 4) 4 diag (fun i => i) 1 3 10 true (0, 0) = 1 / 4 := by
  refine ⟨fun s => by simp; tauto, by decide +kernel⟩

theorem satCC_sameCols (h : SameCols S S') (r : Rect) (z : Row) : satCC r S z = satCC r S' z := all_sameCols h _

theorem sat_sameCols (h : SameCols S S') (r : Rect) (z : Row) : sat r S z = sat r S' z := all_sameCols h _

theorem eqOn_sameCols (h : SameCols S S') (x z : Row) : eqOn S x z = eqOn S' x z := all_sameCols h _

theorem cntCC_sameCols (h : SameCols S S') (data : List Row) (r : Rect) : cntCC data r S = cntCC data r S' := by
  unfold cntCC
  rw [show satCC r S = satCC r S' from funext (satCC_sameCols h r)]

theorem cnt_sameCols (h : SameCols S S') (data : List Row) (r : Rect) : cnt data r S = cnt data r S' := by
  unfold cnt
  rw [show sat r S = sat r S' from funext (sat_sameCols h r)]

/-- **C137, expectations of a tree ensemble**: the same. -/
theorem C137_exp (h : SameCols S S') (ts : List TreeArr) (m : Nat) (data : List Row) (x : Row) (k : Nat) :
    expCy ts m data S x k = expCy ts m data S' x k ∧ expPy ts m data S x k = expPy ts m data S' x k ∧
    expCatCy ts m data S x k = expCatCy ts m data S' x k := by
  refine ⟨?_, ?_, ?_⟩
  · unfold expCy; simp only [satCC_sameCols h, cnt_sameCols h]
  · unfold expPy; simp only [satCC_sameCols h, cntCC_sameCols h, nil_sameCols h]
  · unfold expCatCy; simp only [sat_sameCols h, eqOn_sameCols h]

/-- **C137, same decision probabilities of a tree ensemble and of a black box, partial**: the order of the columns does not matter.
Missing (false): repetitions, `C137_repeated_false`. -/
theorem C137_sdp_partial (h : SameCols S S') (h1 : S.Nodup) (h2 : S'.Nodup) (ts : List TreeArr) (m : Nat) (lab : Row → Nat) (data : List Row) (x : Row)
    (predict : Row → ℚ) (thr : ℚ) :
    sdpClfPy ts m lab data S x = sdpClfPy ts m lab data S' x ∧ sdpClfCy ts m lab data S x = sdpClfCy ts m lab data S' x ∧
    sdpClfCat ts m lab data S x = sdpClfCat ts m lab data S' x ∧ msdpClf lab m data S x = msdpClf lab m data S' x ∧
    msdpReg predict thr m data S x = msdpReg predict thr m data S' x := by
  have hl := length_sameCols h h1 h2
  have hfix : ∀ z, fixCols S x z = fixCols S' x z := by
    intro z
    funext c
    unfold fixCols
    simp only [h c]
  refine ⟨?_, ?_, ?_, ?_, ?_⟩
  · unfold sdpClfPy; simp only [satCC_sameCols h, cntCC_sameCols h, nil_sameCols h, hl]
  · unfold sdpClfCy; simp only [satCC_sameCols h, cntCC_sameCols h, nil_sameCols h, hl]
  · unfold sdpClfCat
    rw [show eqOn S x = eqOn S' x from funext (eqOn_sameCols h x)]
    simp only [satCC_sameCols h, nil_sameCols h, hl]
  · unfold msdpClf marginalMean; simp only [hfix, hl]
  · unfold msdpReg marginalMean; simp only [hfix, hl]

/-- The claim with repetitions. -/
def C137_repeated_claim : Prop :=
  ∀ (S S' : List Nat), SameCols S S' → (∀ s ∈ S, s < 3) → ∀ (ts : List TreeArr), (∀ t ∈ ts, WellFormed t 3) →
  ∀ (lab : Row → Nat) (data : List Row) (x : Row),
    sdpClfPy ts 3 lab data S x = sdpClfPy ts 3 lab data S' x ∨ sdpClfCy ts 3 lab data S x = sdpClfCy ts 3 lab data S' x ∨
    sdpClfCat ts 3 lab data S x = sdpClfCat ts 3 lab data S' x ∨ msdpClf lab 3 data S x = msdpClf lab 3 data S' x

/-- **Repetitions**: a list with as many entries as the data has columns is taken for the set of all columns. One column listed three
times is reported as sufficient with certainty by all four functions, while its probability is 1/2. -/
theorem C137_repeated_false : ¬ C137_repeated_claim := by
  intro h
  have := h [1] [1, 1, 1] (fun s => by simp) (by simp) [rootSplit] (by simpa using ⟨_, rootSplit_isTree⟩)
    (fun z => if z 0 ≤ 1 then 0 else 1) [fun _ => 0, fun j => if j = 0 then 2 else 0] (fun _ => 0)
  revert this
  decide +kernel

/-- The four values in that case. -/
example : sdpClfCy [rootSplit] 3 (fun z => if z 0 ≤ 1 then 0 else 1) [fun _ => 0, fun j => if j = 0 then 2 else 0] [1] (fun _ => 0) = 1 / 2 ∧
    sdpClfCy [rootSplit] 3 (fun z => if z 0 ≤ 1 then 0 else 1) [fun _ => 0, fun j => if j = 0 then 2 else 0] [1, 1, 1] (fun _ => 0) = 1 := by
  refine ⟨by decide +kernel, by decide +kernel⟩

theorem cntCC2_sameCols (h : SameCols S S') (rows : List Row) (r r' : Rect) : cntCC2 rows r r' S = cntCC2 rows r r' S' := by
  unfold cntCC2
  simp only [satCC_sameCols h]

theorem regCells_sameCols (h : SameCols S S') (ts : List TreeArr) (m : Nat) (x : Row) (fx : ℚ) (rows : List Row) (t : TreeArr) (b : Nat) :
    regCells ts m S x fx rows t b = regCells ts m S' x fx rows t b := by
  unfold regCells
  simp only [satCC_sameCols h, cntCC_sameCols h, cntCC2_sameCols h]

theorem regLoop_sameCols (h : SameCols S S') (ts : List TreeArr) (m : Nat) (y : Row → ℚ) (tX : ℚ) (data : List Row) :
    ∀ (X : List Row) (N : Norms), regLoop ts m y tX data S N X = regLoop ts m y tX data S' N X
  | [], _ => rfl
  | _ :: X, _ => by
    unfold regLoop regObs regGroup
    simp only [regCells_sameCols h, regLoop_sameCols h ts m y tX data X]

/-- **C137, compiled regression probabilities**: neither order nor repetitions matter; there is no early return. -/
theorem C137_reg (h : SameCols S S') (ts : List TreeArr) (m : Nat) (y : Row → ℚ) (tX : ℚ) (data X : List Row) (x : Row) :
    sdpRegCatCy ts m y tX data S x = sdpRegCatCy ts m y tX data S' x ∧ sdpRegCy ts m y tX data S X = sdpRegCy ts m y tX data S' X := by
  refine ⟨?_, regLoop_sameCols h ts m y tX data X _⟩
  unfold sdpRegCatCy regCatMean
  rw [show eqOn S x = eqOn S' x from funext (eqOn_sameCols h x)]
  simp only [satCC_sameCols h]

/-- **C137, Python regression probabilities, partial**: the order does not matter. Missing (false): repetitions,
`C137_reg_repeated_false`. -/
theorem C137_reg_python_partial (h : SameCols S S') (h1 : S.Nodup) (h2 : S'.Nodup) (ts : List TreeArr) (m : Nat) (y : Row → ℚ) (tX : ℚ)
    (data : List Row) (x : Row) :
    sdpRegCatPy ts m y tX data S x = sdpRegCatPy ts m y tX data S' x ∧ sdpRegPy ts m y tX data S x = sdpRegPy ts m y tX data S' x := by
  have hl := length_sameCols h h1 h2
  refine ⟨?_, ?_⟩
  · unfold sdpRegCatPy
    simp only [(C137_reg h ts m y tX data [] x).1, nil_sameCols h, hl]
  · unfold sdpRegPy regLeafMean
    simp only [satCC_sameCols h, cntCC_sameCols h, cntCC2_sameCols h, nil_sameCols h, hl]

/-- The Python claim with repetitions. -/
def C137_reg_repeated_claim : Prop :=
  ∀ (S S' : List Nat), SameCols S S' → (∀ s ∈ S, s < 3) → ∀ (ts : List TreeArr), (∀ t ∈ ts, WellFormed t 3) →
  ∀ (y : Row → ℚ) (tX : ℚ), 0 ≤ tX → ∀ (data : List Row) (x : Row),
    sdpRegCatPy ts 3 y tX data S x = sdpRegCatPy ts 3 y tX data S' x ∨ sdpRegPy ts 3 y tX data S x = sdpRegPy ts 3 y tX data S' x

theorem C137_reg_repeated_false : ¬ C137_reg_repeated_claim := by
  intro h
  have := h [1] [1, 1, 1] (fun s => by simp) (by simp) [rootSplit] (by simpa using ⟨_, rootSplit_isTree⟩)
    (fun z => if z 0 ≤ 1 then 10 else 20) 1 (by norm_num) [fun _ => 0, fun j => if j = 0 then 2 else 0] (fun _ => 0)
  revert this
  decide +kernel

/-- In that case the compiled version gives the probability 1/2 for both lists and the Python version 1/2 and 1. -/
example : sdpRegCatCy [rootSplit] 3 (fun z => if z 0 ≤ 1 then 10 else 20) 1 [fun _ => 0, fun j => if j = 0 then 2 else 0] [1, 1, 1] (fun _ => 0) = 1 / 2 ∧
    sdpRegCatPy [rootSplit] 3 (fun z => if z 0 ≤ 1 then 10 else 20) 1 [fun _ => 0, fun j => if j = 0 then 2 else 0] [1] (fun _ => 0) = 1 / 2 ∧
    sdpRegCatPy [rootSplit] 3 (fun z => if z 0 ≤ 1 then 10 else 20) 1 [fun _ => 0, fun j => if j = 0 then 2 else 0] [1, 1, 1] (fun _ => 0) = 1 := by
  refine ⟨by decide +kernel, by decide +kernel, by decide +kernel⟩

end Acv
