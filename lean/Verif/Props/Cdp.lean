import Verif.Lemmas.Cdp
import Mathlib.Tactic.NormNum

/-!
# C48, C54: counterfactual and conditional decision probabilities
-/

namespace Acv

/-- The weighted frequency of the rows with the property `P`. -/
def weightedFreq (N : Nat) (w : Nat → ℚ) (P : Nat → Prop) [DecidablePred P] : ℚ :=
  ((List.range N).map fun i => w i * if P i then 1 else 0).sum

theorem cellSum_weightedFreq {cells : List (List Nat)} {N : Nat} (h : ∀ c ∈ cells, c.Sublist (List.range N)) {f : Nat → ℚ}
    (P : Nat → Prop) [DecidablePred P] (hf : ∀ i, f i = if P i then 1 else 0) :
    cellSum cells f = weightedFreq N (weightsOf cells) P := by
  rw [cellSum_weights h]
  unfold weightedFreq weightsOf
  simp only [hf]

theorem cdpHit_true (yx down up y : ℚ) : cdpHit true yx down up y = if y = yx then 1 else 0 := by
  by_cases h : y = yx
  · simp [cdpHit, ind, h]
  · simp [cdpHit, ind, h, Ne.symm h]

theorem cdpHit_false (yx down up y : ℚ) : cdpHit false yx down up y = if down ≤ y ∧ y ≤ up then 1 else 0 := by
  simp [cdpHit, ind]

/-- **C48, the functions that condition on `x` over `S`.** `compute_cdp_rf`, `compute_cdp_rule` and `compute_cdp_weights` return the
same number; for a classifier it is the weighted frequency of the background rows whose output equals the target, for a regressor
of those whose output is between `down` and `up`; the weights are those of `compute_sdp_rule`'s cells. -/
theorem C48_rf_rule_weights_partial (mems : List Mem) (S : List Nat) (x : Row) (target down up : ℚ) (data : Nat → Row) (y : Nat → ℚ)
    (minSize maxDepth N : Nat) :
    let w := (cdpWeights mems S x target down up data y minSize maxDepth N true).2
    (cdpRf mems S x target down up data y minSize maxDepth N true = weightedFreq N w (fun i => y i = target) ∧
     (cdpRule mems S x target down up data y minSize maxDepth N true).1 = weightedFreq N w (fun i => y i = target) ∧
     (cdpWeights mems S x target down up data y minSize maxDepth N true).1 = weightedFreq N w (fun i => y i = target)) ∧
    (cdpRf mems S x target down up data y minSize maxDepth N false = weightedFreq N w (fun i => down ≤ y i ∧ y i ≤ up) ∧
     (cdpRule mems S x target down up data y minSize maxDepth N false).1 = weightedFreq N w (fun i => down ≤ y i ∧ y i ≤ up) ∧
     (cdpWeights mems S x target down up data y minSize maxDepth N false).1 = weightedFreq N w (fun i => down ≤ y i ∧ y i ≤ up)) ∧
    w = ruleWeights mems S x data minSize maxDepth N ∧
    (cdpWeights mems S x target down up data y minSize maxDepth N false).2 = w := by
  intro w
  have hsub : ∀ c ∈ cellsD mems (dirS S x) data minSize maxDepth N, c.Sublist (List.range N) := fun c hc => cellsD_sublist hc
  have h1 : cdpRf mems S x target down up data y minSize maxDepth N true = weightedFreq N w (fun i => y i = target) :=
    cellSum_weightedFreq hsub _ fun i => cdpHit_true _ _ _ _
  have h2 : cdpRf mems S x target down up data y minSize maxDepth N false = weightedFreq N w (fun i => down ≤ y i ∧ y i ≤ up) :=
    cellSum_weightedFreq hsub _ fun i => cdpHit_false _ _ _ _
  refine ⟨⟨h1, h1, h1⟩, ⟨h2, h2, h2⟩, ?_, rfl⟩
  funext i
  change weightsOf (cellsD mems (dirS S x) data minSize maxDepth N) i = _
  unfold weightsOf ruleWeights cellsSet cellsD
  rw [forestRunD_dirS]

example : cdpRf [Mem.ofTree ladderTree leafJunk, Mem.ofTree rootSplit leafJunk] [0, 2] (diag 4) 1 0 0 diag (fun i => if i < 3 then 1 else 0) 1 3 10
    true = 3 / 16 := by decide +kernel

/-- The CDP with the instance's own output as target is the SDP, and the rule is the same. -/
theorem C48_own_target_is_sdp (mems : List Mem) (S : List Nat) (x : Row) (yx : ℚ) (t : ℚ × ℚ) (data : Nat → Row) (y : Nat → ℚ)
    (minSize maxDepth N : Nat) (classifier : Bool) :
    cdpRf mems S x yx t.1 t.2 data y minSize maxDepth N classifier = sdpRf mems S x yx data y minSize maxDepth N classifier t ∧
    (cdpRule mems S x yx t.1 t.2 data y minSize maxDepth N classifier).2 =
      (sdpRule mems S x yx data y minSize maxDepth N classifier t).2 := by
  constructor
  · unfold cdpRf sdpRf cellsSet cellsD
    rw [forestRunD_dirS]
    refine cellSum_congr fun c _ i _ => ?_
    cases classifier <;> simp [cdpHit, sameDec]
  · unfold cdpRule sdpRule
    rw [forestRunD_dirS]

/-- **C48, the conditional function.** `compute_cdp_cond_weights` returns the weighted frequency, under the weights it returns, of
the background rows with the target output. -/
theorem C48_cond (mems : List Mem) (S : List Nat) (x : Row) (cond : Rule) (target down up : ℚ) (data : Nat → Row) (y : Nat → ℚ)
    (minSize maxDepth N : Nat) :
    (cdpCond mems S x cond target down up data y minSize maxDepth N true).1 =
      weightedFreq N (cdpCond mems S x cond target down up data y minSize maxDepth N true).2 (fun i => y i = target) ∧
    (cdpCond mems S x cond target down up data y minSize maxDepth N false).1 =
      weightedFreq N (cdpCond mems S x cond target down up data y minSize maxDepth N false).2 (fun i => down ≤ y i ∧ y i ≤ up) := by
  have hsub : ∀ c ∈ cellsD mems (dirCond S x cond) data minSize maxDepth N, c.Sublist (List.range N) := fun c hc => cellsD_sublist hc
  exact ⟨cellSum_weightedFreq hsub _ fun i => cdpHit_true _ _ _ _, cellSum_weightedFreq hsub _ fun i => cdpHit_false _ _ _ _⟩

/-- **C48, the interventional function, what it returns**: for a regressor the weighted frequency of the outputs in `[t0, t1]`, but
for a classifier that of the outputs *different* from the target, the number `compute_ddp_intv_weights` returns. -/
theorem C48_intv (mems : List Mem) (S : List Nat) (cond : Rule) (target : ℚ) (t : ℚ × ℚ) (data : Nat → Row) (y : Nat → ℚ)
    (minSize maxDepth N : Nat) :
    (cdpIntv mems S cond target t data y minSize maxDepth N false).1 =
      weightedFreq N (cdpIntv mems S cond target t data y minSize maxDepth N false).2 (fun i => t.1 ≤ y i ∧ y i ≤ t.2) ∧
    (cdpIntv mems S cond target t data y minSize maxDepth N true).1 =
      weightedFreq N (cdpIntv mems S cond target t data y minSize maxDepth N true).2 (fun i => y i ≠ target) ∧
    (cdpIntv mems S cond target t data y minSize maxDepth N true).1 = (ddpIntv mems S cond target t data y minSize maxDepth N true).1 := by
  have hsub : ∀ c ∈ cellsD mems (dirIntv S cond) data minSize maxDepth N, c.Sublist (List.range N) := fun c hc => cellsD_sublist hc
  refine ⟨cellSum_weightedFreq hsub _ fun i => ?_, cellSum_weightedFreq hsub _ fun i => ?_, rfl⟩
  · by_cases h1 : t.1 ≤ y i <;> by_cases h2 : y i ≤ t.2 <;> simp [cdpIntvHit, ind, h1, h2]
  · by_cases h : y i = target
    · simp [cdpIntvHit, ind, h]
    · simp [cdpIntvHit, ind, h, Ne.symm h]

/-- **C48, the interventional function of the DDP**: the weighted frequency of the outputs different from that of the instance, for a regressor
of those outside `[t0, t1]`, under the weights of the CDP. -/
theorem C48_ddp_intv (mems : List Mem) (S : List Nat) (cond : Rule) (yx : ℚ) (t : ℚ × ℚ) (data : Nat → Row) (y : Nat → ℚ)
    (minSize maxDepth N : Nat) (classifier : Bool) :
    (ddpIntv mems S cond yx t data y minSize maxDepth N classifier).2 = (cdpIntv mems S cond yx t data y minSize maxDepth N classifier).2 ∧
    (ddpIntv mems S cond yx t data y minSize maxDepth N true).1 =
      weightedFreq N (ddpIntv mems S cond yx t data y minSize maxDepth N true).2 (fun i => y i ≠ yx) ∧
    (ddpIntv mems S cond yx t data y minSize maxDepth N false).1 =
      weightedFreq N (ddpIntv mems S cond yx t data y minSize maxDepth N false).2 (fun i => y i < t.1 ∨ t.2 < y i) := by
  have hsub : ∀ c ∈ cellsD mems (dirIntv S cond) data minSize maxDepth N, c.Sublist (List.range N) := fun c hc => cellsD_sublist hc
  refine ⟨rfl, cellSum_weightedFreq hsub _ fun i => ?_, cellSum_weightedFreq hsub _ fun i => ?_⟩
  · by_cases h : y i = yx
    · simp [ddpHit, ind, h]
    · simp [ddpHit, ind, h, Ne.symm h]
  · by_cases h1 : t.1 ≤ y i <;> by_cases h2 : y i ≤ t.2 <;> simp [ddpHit, ind, h1, h2]

example : (ddpIntv [Mem.ofTree rootSplit leafJunk] [] (fun _ => (0, 4)) 1 (0, 1) diag (fun i => i) 1 3 10 false).1 = 4 / 5 := by decide +kernel

/-- The claim of C48 for the interventional function: for a classifier it returns the weighted frequency of the target output. -/
def C48_intv_claim : Prop :=
  ∀ (ts : List TreeArr) (mems : List Mem) (m : Nat), List.Forall₂ (TreeStored m) ts mems →
  ∀ (S : List Nat) (cond : Rule) (target : ℚ) (t : ℚ × ℚ) (data : Nat → Row) (y : Nat → ℚ) (minSize maxDepth N : Nat),
    (∀ f, (cond f).1 ≤ (cond f).2) → 0 < N →
    (cdpIntv mems S cond target t data y minSize maxDepth N true).1 =
      weightedFreq N (cdpIntv mems S cond target t data y minSize maxDepth N true).2 (fun i => y i = target)

theorem ladderTree_stored : TreeStored 3 ladderTree (Mem.ofTree ladderTree leafJunk) where
  wf := ⟨_, ladderTree_isTree⟩
  holds := ofTree_holds _ _
  leafChildren := by unfold LeafChildren ladderTree; decide
  negLeaf := by unfold NegLeafFeature ladderTree; decide
  before := by simp [Mem.BeforeIsPadding, Mem.ofTree, leafJunk]

theorem rootSplit_stored : TreeStored 3 rootSplit (Mem.ofTree rootSplit leafJunk) where
  wf := ⟨_, rootSplit_isTree⟩
  holds := ofTree_holds _ _
  leafChildren := by unfold LeafChildren rootSplit; decide
  negLeaf := by unfold NegLeafFeature rootSplit; decide
  before := by simp [Mem.BeforeIsPadding, Mem.ofTree, leafJunk]

/-- **C48 is false of the interventional function**: when every background row has the target output it returns 0 instead of 1. -/
theorem C48_intv_false : ¬ C48_intv_claim := by
  intro h
  have := h [rootSplit] [Mem.ofTree rootSplit leafJunk] 3 (.cons rootSplit_stored .nil) [] (fun _ => (0, 1)) 1 (0, 0) diag (fun _ => 1)
    1 1 2 (by intro _; norm_num) (by decide)
  revert this
  unfold weightedFreq
  decide +kernel

/-! ## C54 -/

/-- **C54, no satisfying row is lost.** Whatever the memory holds and whatever `min_node_size`: a background row that satisfies the
condition (equal to `x` on `S` and in the interval of every other column) is used by every tree of `compute_cdp_cond_weights` and
`compute_ddp_cond_weights`; a background row in the intervals outside `S` is used by every tree of the interventional functions. -/
theorem C54_rows_kept (mems : List Mem) (S : List Nat) (x : Row) {cond : Rule} (hle : ∀ f, f ∉ S → (cond f).1 ≤ (cond f).2)
    (data : Nat → Row) (minSize maxDepth N : Nat) {i : Nat} (hi : i < N) :
    (Satisfies (condValues S x cond) (data i) → ∀ c ∈ cellsD mems (dirCond S x cond) data minSize maxDepth N, i ∈ c) ∧
    (Satisfies (intvValues S cond) (data i) → ∀ c ∈ cellsD mems (dirIntv S cond) data minSize maxDepth N, i ∈ c) :=
  ⟨fun h _ hc => cellsD_keeps (decides_cond S x hle) hi h hc, fun h _ hc => cellsD_keeps (decides_intv S hle) hi h hc⟩

/-- **C54, the rows used.** For every well-formed forest: if at least `min_node_size` background rows are on the decided side of the
splits reached under the condition, each tree uses exactly those rows: the splits that the condition leaves open restrict nothing. -/
theorem C54_cells {m : Nat} {ts : List TreeArr} {mems : List Mem} (hf : List.Forall₂ (TreeStored m) ts mems) (S : List Nat) (x : Row)
    {cond : Rule} (hle : ∀ f, f ∉ S → (cond f).1 ≤ (cond f).2) {data : Nat → Row} {minSize maxDepth N : Nat}
    (hdepth : ∀ t ∈ ts, t.maxDepth ≤ maxDepth) :
    ((∀ t ∈ ts, ∃ L : List Nat, L.Nodup ∧ minSize ≤ L.length ∧ ∀ i ∈ L, i < N ∧ OnDecidedSide t (condValues S x cond) (data i)) →
      List.Forall₂ (fun t c => c.Nodup ∧ ∀ i, i ∈ c ↔ i < N ∧ OnDecidedSide t (condValues S x cond) (data i)) ts
        (cellsD mems (dirCond S x cond) data minSize maxDepth N)) ∧
    ((∀ t ∈ ts, ∃ L : List Nat, L.Nodup ∧ minSize ≤ L.length ∧ ∀ i ∈ L, i < N ∧ OnDecidedSide t (intvValues S cond) (data i)) →
      List.Forall₂ (fun t c => c.Nodup ∧ ∀ i, i ∈ c ↔ i < N ∧ OnDecidedSide t (intvValues S cond) (data i)) ts
        (cellsD mems (dirIntv S cond) data minSize maxDepth N)) :=
  ⟨fun h => cellsD_rows (decides_cond S x hle) hf hdepth h, fun h => cellsD_rows (decides_intv S hle) hf hdepth h⟩

/-- a row that satisfies the condition is on the decided side -/
theorem onDecidedSide_of_satisfies {t : TreeArr} {A : Values} {z : Row} (h : Satisfies A z) : OnDecidedSide t A z :=
  fun _ _ _ _ => ⟨fun hall => hall _ (h _), fun hall => hall _ (h _)⟩

/-- hypotheses are met by a forest of two trees, and the cells are non-trivial: the split of column 0 at 1 is decided
by the interval `[2, 5]`, that of column 2 at 5 by `x`, that of column 1 at 3 stays open; in the second tree rows outside the
interval remain -/
example : List.Forall₂ (TreeStored 3) [ladderTree, rootSplit] [Mem.ofTree ladderTree leafJunk, Mem.ofTree rootSplit leafJunk] ∧
    (∀ t ∈ [ladderTree, rootSplit], t.maxDepth ≤ 3) ∧
    (∀ t ∈ [ladderTree, rootSplit], ∃ L : List Nat, L.Nodup ∧ 1 ≤ L.length ∧
      ∀ i ∈ L, i < 10 ∧ OnDecidedSide t (condValues [2] (diag 4) (fun _ => (2, 5))) (diag i)) ∧
    cellsD [Mem.ofTree ladderTree leafJunk, Mem.ofTree rootSplit leafJunk] (dirCond [2] (diag 4) (fun _ => (2, 5))) diag 1 3 10 =
      [[2, 3, 4, 5], [2, 3, 4, 5, 6, 7, 8, 9]] := by
  refine ⟨.cons ladderTree_stored (.cons rootSplit_stored .nil), by decide +kernel, ?_, by decide +kernel⟩
  intro t _
  refine ⟨[4], by decide, by decide, fun i hi => ?_⟩
  rw [List.mem_singleton.mp hi]
  refine ⟨by decide, onDecidedSide_of_satisfies fun f => ?_⟩
  refine ⟨fun _ => rfl, fun _ => ?_⟩
  simp only [diag]
  norm_num

/-- **C54, normalisation.** The weights, the same for both probabilities, are non-negative and sum to the fraction of trees with a non-empty cell; the probability lies
in `[0, 1]`; and when some background row satisfies the condition the weights sum to 1 and `CDP + DDP = 1` for the same target. -/
theorem C54_weights {mems : List Mem} (S : List Nat) (x : Row) (cond : Rule) (yx : ℚ) (t : ℚ × ℚ)
    (data : Nat → Row) (y : Nat → ℚ) (minSize maxDepth N : Nat) (classifier : Bool) :
    let p := cdpCond mems S x cond yx t.1 t.2 data y minSize maxDepth N classifier
    let q := ddpCond mems S x cond yx t data y minSize maxDepth N classifier
    (∀ i, 0 ≤ p.2 i ∧ q.2 i = p.2 i) ∧ 0 ≤ p.1 ∧ p.1 ≤ 1 ∧ 0 ≤ q.1 ∧ q.1 ≤ 1 ∧ p.1 + q.1 = ((List.range N).map p.2).sum ∧
    ((List.range N).map p.2).sum =
      ((cellsD mems (dirCond S x cond) data minSize maxDepth N).filter (· ≠ [])).length / mems.length ∧
    (mems ≠ [] → (∀ f, f ∉ S → (cond f).1 ≤ (cond f).2) → (∃ i < N, Satisfies (condValues S x cond) (data i)) →
      ((List.range N).map p.2).sum = 1) := by
  intro p q
  set cells := cellsD mems (dirCond S x cond) data minSize maxDepth N with hcells
  have hsub : ∀ c ∈ cells, c.Sublist (List.range N) := fun c hc => cellsD_sublist hc
  have hlen : (cells.length : ℚ) = mems.length := by rw [hcells, cellsD_length]
  have hsum : ((List.range N).map p.2).sum = cellSum cells (fun _ => 1) := by
    rw [cellSum_weights hsub]
    simp only [mul_one]
    rfl
  have hlive : ((List.range N).map p.2).sum = (cells.filter (· ≠ [])).length / mems.length := by
    rw [hsum, cellSum_one, ← hlen]; rfl
  have hq : ∀ i, 0 ≤ ddpHit classifier yx t (y i) ∧ ddpHit classifier yx t (y i) ≤ 1 := by
    intro i
    unfold ddpHit
    split
    · exact ind_range _
    · have h1 := ind_range (decide (t.1 ≤ y i))
      have h2 := ind_range (decide (y i ≤ t.2))
      constructor <;> nlinarith
  have hp : ∀ i, 0 ≤ cdpHit classifier yx t.1 t.2 (y i) ∧ cdpHit classifier yx t.1 t.2 (y i) ≤ 1 := by
    intro i
    unfold cdpHit
    split <;> exact ind_range _
  have rp : 0 ≤ p.1 ∧ p.1 ≤ 1 := cellSum_range hp
  have rq : 0 ≤ q.1 ∧ q.1 ≤ 1 := cellSum_range hq
  refine ⟨?_, rp.1, rp.2, rq.1, rq.2, ?_, hlive, ?_⟩
  · intro i
    refine ⟨?_, rfl⟩
    apply List.sum_nonneg
    intro a ha
    obtain ⟨c, _, rfl⟩ := List.mem_map.mp ha
    exact mul_nonneg (Nat.cast_nonneg _) (div_nonneg zero_le_one (mul_nonneg (Nat.cast_nonneg _) (Nat.cast_nonneg _)))
  · rw [hsum]
    change cellSum cells _ + cellSum cells _ = _
    rw [← cellSum_add]
    refine cellSum_congr fun c _ i _ => ?_
    cases classifier
    · by_cases h1 : t.1 ≤ y i <;> by_cases h2 : y i ≤ t.2 <;> simp [cdpHit, ddpHit, h1, h2, ind]
    · by_cases h : yx = y i <;> simp [cdpHit, ddpHit, h, ind]
  · intro hne hle ⟨i, hi, hsat⟩
    have hall : ∀ c ∈ cells, c ≠ [] := fun c hc => List.ne_nil_of_mem (cellsD_keeps (decides_cond S x hle) hi hsat hc)
    rw [hlive, List.filter_eq_self.mpr (by simpa using hall), hlen, div_self]
    simpa using hne

/-- **C54, degenerate condition.** Conditioning on the rule that pins the columns of `T` to `x` and leaves the others in
`[-1e10, 1e10]` is conditioning on `x` over `S` and `T`, if every threshold lies in `[-1e10, 1e10)`. -/
theorem C54_point (mems : List Mem) (S T : List Nat) (x : Row) (yx down up : ℚ) (data : Nat → Row) (y : Nat → ℚ)
    (minSize maxDepth N : Nat) (classifier : Bool)
    (hthr : ∀ mem ∈ mems, ∀ n, 0 ≤ mem.feat n → -10000000000 ≤ mem.thr n ∧ mem.thr n < 10000000000) :
    (cdpCond mems S x (fun f => if f ∈ T then (x f, x f) else (-10000000000, 10000000000)) yx down up data y minSize maxDepth N
      classifier) = cdpWeights mems (S ++ T) x yx down up data y minSize maxDepth N classifier := by
  have hcells : cellsD mems (dirCond S x (fun f => if f ∈ T then (x f, x f) else (-10000000000, 10000000000))) data minSize maxDepth N =
      cellsD mems (dirS (S ++ T) x) data minSize maxDepth N := by
    unfold cellsD
    rw [forestRunD_congr]
    intro mem hm n
    have ht := hthr mem hm n
    unfold dirCond dirS
    by_cases hf : 0 ≤ mem.feat n
    · by_cases h1 : (mem.feat n).toNat ∈ S
      · rw [if_pos (inS_iff.mpr ⟨hf, h1⟩), if_pos (inS_iff.mpr ⟨hf, by simp [h1]⟩)]
      · rw [if_neg fun hc => h1 (inS_iff.mp hc).2]
        unfold dirBox
        by_cases h2 : (mem.feat n).toNat ∈ T
        · rw [if_pos (inS_iff.mpr ⟨hf, by simp [h2]⟩)]
          simp only [h2, if_true, hf, true_and, dirPoint]
          by_cases hx : x (mem.feat n).toNat ≤ mem.thr n
          · simp [hx]
          · simp [hx, not_le.mp hx]
        · have : ¬ inS (S ++ T) (mem.feat n) = true := by rw [inS_iff]; simp [h1, h2]
          rw [if_neg this]
          simp only [h2, if_false, hf, true_and]
          rw [if_neg (not_le.mpr (ht hf).2), if_neg (not_lt.mpr (ht hf).1)]
    · have e : ∀ S', ¬ inS S' (mem.feat n) = true := fun S' hc => hf (inS_iff.mp hc).1
      simp [e, dirBox, hf]
  unfold cdpCond cdpWeights
  rw [hcells]

example : (cdpCond [Mem.ofTree ladderTree leafJunk] [2] (diag 4) (fun f => if f ∈ [0] then (diag 4 f, diag 4 f) else (-10000000000, 10000000000))
    1 0 0 diag (fun i => if i < 3 then 1 else 0) 1 3 10 true).1 = 1 / 4 := by decide +kernel

end Acv
