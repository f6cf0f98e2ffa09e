import Verif.Props.Biased
import Verif.Props.Extend
import Verif.Props.Search

/-! # C80: the first versions of the SDP, the rules and the searches of the projected forest -/

namespace Acv

/-- `(y_x - y)^2 <= ρ^2` is membership of the interval of radius `ρ`. -/
theorem sameDecV0_interval (classifier : Bool) (yx y : ℚ) {ρ : ℚ} (hρ : 0 ≤ ρ) :
    sameDecV0 classifier yx (ρ ^ 2) y = sameDec classifier yx (yx - ρ, yx + ρ) y := by
  unfold sameDecV0 sameDec
  cases classifier
  · simp only [Bool.false_eq_true, if_false]
    rw [Bool.eq_iff_iff]
    simp only [Bool.and_eq_true, decide_eq_true_eq]
    constructor
    · intro h
      have := abs_le_of_sq_le_sq' (a := yx - y) (b := ρ) (by nlinarith) hρ
      exact ⟨by linarith [this.2], by linarith [this.1]⟩
    · rintro ⟨h1, h2⟩
      nlinarith
  · rfl

/-- Both walks use the same rows when no early stop happens. -/
theorem forest_rows_eq {push : List Int → Int → List Int} (hpush : ∀ l a c, c ∈ push l a ↔ c = a ∨ c ∈ l) {S : List Nat} {m : Nat} {x : Row}
    {data : Nat → Row} {minSize maxDepth N : Nat} {ts : List TreeArr} {mems : List Mem}
    (hf : List.Forall₂ (TreeIn S m) ts mems) (hdepth : ∀ t ∈ ts, t.maxDepth ≤ maxDepth)
    (hstop : ∀ t ∈ ts, ∃ L : List Nat, L.Nodup ∧ minSize ≤ L.length ∧
      ∀ i ∈ L, i < N ∧ ∀ n, ProjVisits t S x n ↔ ProjVisits t S (data i) n) (r : Rule) :
    (forestRun push S x data minSize maxDepth N mems r).1 = ts.map fun t => routeRows t S x data N := by
  induction hf generalizing r with
  | nil => rfl
  | @cons t mem ts mems h1 _ ih =>
    unfold forestRun
    simp only
    rw [ih (fun t ht => hdepth t (List.mem_cons_of_mem _ ht)) (fun t ht => hstop t (List.mem_cons_of_mem _ ht)), List.map_cons]
    congr 1
    obtain ⟨b, hb⟩ := h1.wf
    obtain ⟨mem', hm', hb', he⟩ := run_leafLike hpush hb h1.leafChildren h1.holds h1.before
    rw [he, run_rows hpush hm' hb h1.negLeaf hb' (length_routeRows hb (hstop t (by simp)))
      (fun k n ha => le_trans ((C04_depth_is_height ⟨b, hb⟩).1 k n ha) (hdepth t (by simp)))]

/-- **C80.** The first version of the SDP is the mean over the trees of the frequency, among the rows of the tree's cell, of the
outputs equal to that of the observation (classifier) or at squared distance at most `t` from it (regressor). -/
theorem C80_is_mean_frequency (mems : List Mem) (S : List Nat) (x : Row) (yx : ℚ) (data : Nat → Row) (y : Nat → ℚ)
    (minSize maxDepth N : Nat) (t : ℚ) :
    let mean := fun (P : Nat → Bool) =>
      ((cellsVec mems S x data minSize maxDepth N).map fun c => ((c.filter P).length : ℚ) / c.length).sum / mems.length
    sdpRfV0 mems S x yx data y minSize maxDepth N true t = mean (fun i => decide (yx = y i)) ∧
    sdpRfV0 mems S x yx data y minSize maxDepth N false t = mean (fun i => decide ((yx - y i) ^ 2 ≤ t)) ∧
    ∀ classifier, 0 ≤ sdpRfV0 mems S x yx data y minSize maxDepth N classifier t ∧
      sdpRfV0 mems S x yx data y minSize maxDepth N classifier t ≤ 1 := by
  intro mean
  have hl : ((cellsVec mems S x data minSize maxDepth N).length : ℚ) = mems.length := by
    unfold cellsVec; rw [forestRun_length]
  have key : ∀ P : Nat → Bool, cellSum (cellsVec mems S x data minSize maxDepth N) (fun i => ind (P i)) = mean P := by
    intro P
    have := cellSum_freq (cellsVec mems S x data minSize maxDepth N) (fun i => P i = true)
    unfold ind
    rw [this, hl]
    simp only [Bool.decide_eq_true]
    rfl
  refine ⟨?_, ?_, fun classifier => cellSum_range fun i => ind_range _⟩
  · exact key fun i => decide (yx = y i)
  · have : ∀ i, sameDecV0 false yx t (y i) = decide ((yx - y i) ^ 2 ≤ t) := by
      intro i
      unfold sameDecV0
      simp only [Bool.false_eq_true, if_false]
      rw [sq]
    unfold sdpRfV0
    simp only [this]
    exact key fun i => decide ((yx - y i) ^ 2 ≤ t)

example : sdpRfV0 [Mem.ofTree ladderTree leafJunk, Mem.ofTree rootSplit leafJunk] [0, 2] (fun _ => 4) 4 diag (fun i => i) 1 3 10 false 4 =
    13 / 16 := by decide +kernel

/-- **C80.** For a tolerance `t = ρ²`, and when enough background rows travel like the observation in each tree, the first version and
the current one (interval `[y(x) - ρ, y(x) + ρ]`) return the same SDP and the same weights of the rows. -/
theorem C80_versions_agree {S : List Nat} {m : Nat} {x : Row} (yx : ℚ) {data : Nat → Row} (y : Nat → ℚ) {minSize maxDepth N : Nat}
    {ts : List TreeArr} {mems : List Mem} (hf : List.Forall₂ (TreeIn S m) ts mems) (hdepth : ∀ t ∈ ts, t.maxDepth ≤ maxDepth)
    (hstop : ∀ t ∈ ts, ∃ L : List Nat, L.Nodup ∧ minSize ≤ L.length ∧
      ∀ i ∈ L, i < N ∧ ∀ n, ProjVisits t S x n ↔ ProjVisits t S (data i) n) (classifier : Bool) {ρ : ℚ} (hρ : 0 ≤ ρ) :
    sdpRfV0 mems S x yx data y minSize maxDepth N classifier (ρ ^ 2) =
      sdpRf mems S x yx data y minSize maxDepth N classifier (yx - ρ, yx + ρ) ∧
    ∀ i, weightsV0 mems S x data minSize maxDepth N i = ruleWeights mems S x data minSize maxDepth N i := by
  have he : cellsVec mems S x data minSize maxDepth N = cellsSet mems S x data minSize maxDepth N := by
    unfold cellsVec cellsSet
    rw [forest_rows_eq mem_pushBack hf hdepth hstop, forest_rows_eq mem_setInsert hf hdepth hstop]
  unfold sdpRfV0 sdpRf weightsV0 ruleWeights
  rw [he]
  refine ⟨?_, fun i => rfl⟩
  congr 1
  funext i
  rw [sameDecV0_interval classifier yx (y i) hρ]

/-- A tree grown best-first, so that the nodes of a level are not numbered from left to right:
```
0: x1 <= 4 ? 1 : 2      1: x1 <= 2 ? 5 : 6      2: x1 <= 6 ? 3 : 4
3: x0 <= 3 ? 7 : 8      5: x2 <= 6 ? 9 : 10     the others: leaves
``` -/
def bestFirstTree : TreeArr where
  size := 11
  left := fun n => ([1, 5, 3, 7, -1, 9, -1, -1, -1, -1, -1] : List Int).getD n (-1)
  right := fun n => ([2, 6, 4, 8, -1, 10, -1, -1, -1, -1, -1] : List Int).getD n (-1)
  dflt := fun n => ([1, 5, 3, 7, -1, 9, -1, -1, -1, -1, -1] : List Int).getD n (-1)
  feature := fun n => ([1, 1, 1, 0, -2, 2, -2, -2, -2, -2, -2] : List Int).getD n (-2)
  threshold := fun n => ([4, 2, 6, 3, -2, 6, -2, -2, -2, -2, -2] : List ℚ).getD n (-2)
  value := fun _ _ => 0
  weight := fun _ => 1

theorem bestFirstTree_isTree : IsTree bestFirstTree 3
    (.node 0 1 4 (.node 1 1 2 (.node 5 2 6 (.leaf 9) (.leaf 10)) (.leaf 6)) (.node 2 1 6 (.node 3 0 3 (.leaf 7) (.leaf 8)) (.leaf 4))) where
  root := rfl
  enc := by simp [Encodes, bestFirstTree, BTree.id]
  nodup := by decide
  all := by intro n; simp [BTree.ids, bestFirstTree]; omega
  vars := by simp [BTree.vars]

theorem bestFirstTree_in (S : List Nat) : TreeIn S 3 bestFirstTree (Mem.ofTree bestFirstTree leafJunk) where
  wf := ⟨_, bestFirstTree_isTree⟩
  holds := ofTree_holds _ _
  leafChildren := by unfold LeafChildren bestFirstTree; decide
  negLeaf := by unfold NegLeafFeature bestFirstTree; decide
  before := by simp [Mem.BeforeIsLeaf, Mem.ofTree, leafJunk]

/-- **C80.** After an early stop the two versions may differ, also for classifiers: the current one visits the nodes of a level in the
order of their numbers, the first one from left to right. -/
theorem C80_early_stop_false :
    ∃ (ts : List TreeArr) (mems : List Mem) (S : List Nat) (x : Row) (yx : ℚ) (data : Nat → Row) (y : Nat → ℚ),
      List.Forall₂ (TreeIn S 3) ts mems ∧ sdpRfV0 mems S x yx data y 8 3 10 true 0 = 4/7 ∧ sdpRf mems S x yx data y 8 3 10 true (0, 0) = 0 :=
  ⟨[bestFirstTree], [Mem.ofTree bestFirstTree leafJunk], [0, 2], diag 5, 1, diag, fun i => if i < 4 then 1 else 0,
    .cons (bestFirstTree_in _) .nil, by decide +kernel, by decide +kernel⟩

/-- **C80 (part).** The rule of the first version contains the observation (values in `(-1e10, 1e10]`; see C25), and every observation
in the rule has the same SDP, rule and weights; the SDP returned with the rule is the SDP of the coalition. -/
theorem C80_rule_partial (mems : List Mem) {S : List Nat} {m : Nat} (hS : ∀ s ∈ S, s < m) {x z : Row} (yx : ℚ) (data : Nat → Row)
    (y : Nat → ℚ) (minSize maxDepth N : Nat) (classifier : Bool) (t : ℚ) :
    ((∀ j < m, -10000000000 < x j ∧ x j ≤ 10000000000) →
      InRule m (sdpRuleV0 mems S x yx data y minSize maxDepth N classifier t).2 x) ∧
    (InRule m (sdpRuleV0 mems S x yx data y minSize maxDepth N classifier t).2 z →
      sdpRuleV0 mems S z yx data y minSize maxDepth N classifier t = sdpRuleV0 mems S x yx data y minSize maxDepth N classifier t ∧
      ∀ i, weightsV0 mems S z data minSize maxDepth N i = weightsV0 mems S x data minSize maxDepth N i) ∧
    (sdpRuleV0 mems S x yx data y minSize maxDepth N classifier t).1 = sdpRfV0 mems S x yx data y minSize maxDepth N classifier t := by
  refine ⟨fun hx => ?_, fun hz => ?_, rfl⟩
  · unfold sdpRuleV0
    exact forestRun_contains mems _ hx
  · have h := forestRun_same (z := z) (data := data) (minSize := minSize) (maxDepth := maxDepth) (N := N) mems Rule.init
      (fun j hj => hz j (hS j hj))
    unfold sdpRuleV0 weightsV0 cellsVec
    rw [h]
    exact ⟨rfl, fun _ => rfl⟩

/-- The weight of a row is positive exactly when the row is in the cell of some tree. -/
theorem weightsV0_ne {mems : List Mem} {S : List Nat} {x : Row} {data : Nat → Row} {minSize maxDepth N i : Nat} :
    weightsV0 mems S x data minSize maxDepth N i ≠ 0 ↔ ∃ c ∈ cellsVec mems S x data minSize maxDepth N, i ∈ c := by
  unfold weightsV0
  simp only
  generalize cellsVec mems S x data minSize maxDepth N = cells
  have hnn : ∀ v ∈ cells.map (fun c => (c.count i : ℚ) * (1 / ((cells.length : ℚ) * c.length))), 0 ≤ v := by
    intro v hv
    obtain ⟨c, -, rfl⟩ := List.mem_map.1 hv
    exact mul_nonneg (Nat.cast_nonneg _) (one_div_nonneg.2 (mul_nonneg (Nat.cast_nonneg _) (Nat.cast_nonneg _)))
  constructor
  · intro h
    by_contra hc
    apply h
    apply List.sum_eq_zero
    intro v hv
    obtain ⟨c, hc', rfl⟩ := List.mem_map.1 hv
    have : c.count i = 0 := List.count_eq_zero.2 fun hi => hc ⟨c, hc', hi⟩
    rw [this]
    simp
  · rintro ⟨c, hc, hi⟩
    have hpos : 0 < (c.count i : ℚ) * (1 / ((cells.length : ℚ) * c.length)) := by
      have h1 : 0 < c.count i := List.count_pos_iff.2 hi
      have h2 : 0 < c.length := List.length_pos_of_mem hi
      have h3 : 0 < cells.length := List.length_pos_of_mem hc
      exact mul_pos (Nat.cast_pos.2 h1) (one_div_pos.2 (mul_pos (Nat.cast_pos.2 h3) (Nat.cast_pos.2 h2)))
    have := List.single_le_sum hnn _ (List.mem_map.2 ⟨c, hc, rfl⟩)
    exact ne_of_gt (lt_of_lt_of_le hpos this)

/-- **C80.** The maximal rules (first version, and the one restricted to the rows with a weight) return the SDP of the observation,
contain its rule, leave the columns outside the coalition unchanged, and each bound is a bound of the rule of the observation or of
the rule of a background row whose SDP is at least `pi`; in the restricted version (and `pi > 0`) this row shares a cell with the
observation. -/
theorem C80_maxrule {mems : List Mem} {S : List Nat} {m : Nat} {x : Row} {yx : ℚ} {data : Nat → Row} {y : Nat → ℚ}
    {minSize maxDepth N : Nat} {classifier : Bool} {t pi : ℚ} (hS : ∀ c ∈ S, c < m)
    (hd : ∀ i < N, ∀ j < m, -10000000000 < data i j ∧ data i j ≤ 10000000000) (hpi : 0 < pi) :
    let R := fun z => (sdpRuleV0 mems S z yx data y minSize maxDepth N classifier t).2
    let sdp := fun z => sdpRfV0 mems S z yx data y minSize maxDepth N classifier t
    let full := sdpMaxRuleV0 mems S x yx data y minSize maxDepth N classifier t pi
    let opti := sdpMaxRuleOpti mems S x yx data y minSize maxDepth N classifier t pi
    (full.1 = sdp x ∧ RuleLe m (R x) full.2 ∧ (∀ j, j ∉ S → full.2 j = R x j) ∧
      ∀ j, ((full.2 j).1 = (R x j).1 ∨ ∃ i < N, pi ≤ sdp (data i) ∧ (full.2 j).1 = (R (data i) j).1) ∧
        ((full.2 j).2 = (R x j).2 ∨ ∃ i < N, pi ≤ sdp (data i) ∧ (full.2 j).2 = (R (data i) j).2)) ∧
    (opti.1 = sdp x ∧ RuleLe m (R x) opti.2 ∧ (∀ j, j ∉ S → opti.2 j = R x j) ∧
      ∀ j, ((opti.2 j).1 = (R x j).1 ∨ ∃ c ∈ cellsVec mems S x data minSize maxDepth N, ∃ i ∈ c, i < N ∧ pi ≤ sdp (data i) ∧
          (opti.2 j).1 = (R (data i) j).1) ∧
        ((opti.2 j).2 = (R x j).2 ∨ ∃ c ∈ cellsVec mems S x data minSize maxDepth N, ∃ i ∈ c, i < N ∧ pi ≤ sdp (data i) ∧
          (opti.2 j).2 = (R (data i) j).2)) := by
  intro R sdp full opti
  have hR : ∀ i < N, ∀ k ∈ S, (R (data i) k).1 ≤ (R (data i) k).2 := by
    intro i hi k hk
    have h := (C80_rule_partial mems hS (x := data i) (z := data i) yx data y minSize maxDepth N classifier t).1 (hd i hi) k (hS k hk)
    exact le_trans (le_of_lt h.1) h.2
  constructor
  · have hl : ∀ b ∈ ((List.range N).filter fun j => decide (pi ≤ sdp (data j))).map (fun j => R (data j)), ∃ i < N, pi ≤ sdp (data i) ∧ b = R (data i) := by
      intro b hb
      obtain ⟨j, hj, rfl⟩ := List.mem_map.1 hb
      obtain ⟨h1, h2⟩ := List.mem_filter.1 hj
      exact ⟨j, List.mem_range.1 h1, of_decide_eq_true h2, rfl⟩
    have h1 := C37_contains_original (S := S) m (R x) (l := ((List.range N).filter fun j => decide (pi ≤ sdp (data j))).map (fun j => R (data j)))
      (by
        intro b hb k hk
        obtain ⟨i, hi, -, rfl⟩ := hl b hb
        exact hR i hi k hk)
    refine ⟨rfl, h1.1, h1.2, fun j => ?_⟩
    have h2 := C37_bounds S (R x) (((List.range N).filter fun j => decide (pi ≤ sdp (data j))).map (fun j => R (data j))) j
    constructor
    · obtain ⟨b, hb, he⟩ := h2.1
      rcases List.mem_cons.1 hb with rfl | hb
      · exact Or.inl he
      · obtain ⟨i, hi, hp, rfl⟩ := hl b hb
        exact Or.inr ⟨i, hi, hp, he⟩
    · obtain ⟨b, hb, he⟩ := h2.2
      rcases List.mem_cons.1 hb with rfl | hb
      · exact Or.inl he
      · obtain ⟨i, hi, hp, rfl⟩ := hl b hb
        exact Or.inr ⟨i, hi, hp, he⟩
  · set all := fun j => if weightsV0 mems S x data minSize maxDepth N j ≠ 0 then
      sdpRuleV0 mems S (data j) yx data y minSize maxDepth N classifier t else (0, Rule.init) with hall
    have hl : ∀ b ∈ ((List.range N).filter fun j => decide (pi ≤ (all j).1)).map (fun j => (all j).2),
        ∃ c ∈ cellsVec mems S x data minSize maxDepth N, ∃ i ∈ c, i < N ∧ pi ≤ sdp (data i) ∧ b = R (data i) := by
      intro b hb
      obtain ⟨j, hj, rfl⟩ := List.mem_map.1 hb
      obtain ⟨h1, h2⟩ := List.mem_filter.1 hj
      have h3 : pi ≤ (all j).1 := of_decide_eq_true h2
      by_cases hw : weightsV0 mems S x data minSize maxDepth N j ≠ 0
      · have he : all j = sdpRuleV0 mems S (data j) yx data y minSize maxDepth N classifier t := by rw [hall]; simp only; rw [if_pos hw]
        rw [he] at h3 ⊢
        obtain ⟨c, hc, hjc⟩ := weightsV0_ne.1 hw
        exact ⟨c, hc, j, hjc, List.mem_range.1 h1, h3, rfl⟩
      · have he : all j = (0, Rule.init) := by rw [hall]; simp only; rw [if_neg hw]
        rw [he] at h3
        exact absurd h3 (not_le.2 hpi)
    have h1 := C37_contains_original (S := S) m (R x) (l := ((List.range N).filter fun j => decide (pi ≤ (all j).1)).map (fun j => (all j).2))
      (by
        intro b hb k hk
        obtain ⟨c, -, i, -, hi, -, rfl⟩ := hl b hb
        exact hR i hi k hk)
    refine ⟨rfl, h1.1, h1.2, fun j => ?_⟩
    have h2 := C37_bounds S (R x) (((List.range N).filter fun j => decide (pi ≤ (all j).1)).map (fun j => (all j).2)) j
    constructor
    · obtain ⟨b, hb, he⟩ := h2.1
      rcases List.mem_cons.1 hb with rfl | hb
      · exact Or.inl he
      · obtain ⟨c, hc, i, hi, hN, hp, rfl⟩ := hl b hb
        exact Or.inr ⟨c, hc, i, hi, hN, hp, he⟩
    · obtain ⟨b, hb, he⟩ := h2.2
      rcases List.mem_cons.1 hb with rfl | hb
      · exact Or.inl he
      · obtain ⟨c, hc, i, hi, hN, hp, rfl⟩ := hl b hb
        exact Or.inr ⟨c, hc, i, hi, hN, hp, he⟩

/-- non-trivial case: the rule of row 4 grows to the left over rows with the same output, in both versions -/
example : let M := [Mem.ofTree ladderTree leafJunk]
    let y : Nat → ℚ := fun i => if i ≤ 5 then 1 else 0
    ((sdpRuleV0 M [0, 2] (diag 4) 1 diag y 1 3 10 true 0).2 0, (sdpMaxRuleV0 M [0, 2] (diag 4) 1 diag y 1 3 10 true 0 (9/10)).2 0,
      (sdpMaxRuleOpti M [0, 2] (diag 4) 1 diag y 1 3 10 true 0 (9/10)).2 0) =
    ((1, 10000000000), (-10000000000, 10000000000), (1, 10000000000)) := by decide +kernel

/-- **C80 (part).** The search with the first version of the SDP: whenever it reports a probability of at least `pi`, the reported set
of columns is a candidate of the smallest size that has one, has the reported probability (the full set of columns counts as 1, as in
C29) and no candidate of the same size has a larger one; observations below `pi` have no sufficient candidate among the sizes
searched; the importance is the frequency of the column. -/
theorem C80_search_partial (mems : List Mem) (X : Nat → Row) (yX : Nat → ℚ) (data : Nat → Row) (y : Nat → ℚ) (minSize maxDepth N : Nat)
    (classifier : Bool) (t : ℚ) {cols : Nat} {order : List Nat} {C : List (List Nat)} (h : SearchArgs cols C (rfSpace cols order))
    (nObs : Nat) {pi : ℚ} (h0 : 0 < pi) (h1 : pi ≤ 1) (minimal : Nat) (stop : Bool) (half : Nat) (hhalf : 0 < half) :
    let v := fun i S => sdpRfV0 mems S (X i) (yX i) data y minSize maxDepth N classifier t
    ∃ st, importanceSdpRfV0 mems X yX data y minSize maxDepth N classifier t nObs cols order C pi minimal stop half = some st ∧
      (∀ i < nObs, pi ≤ (st.best i).sdp → Reports (searchPlayers C (rfSpace cols order)) cols minimal (v i) pi (st.best i)) ∧
      (∀ i < nObs, (st.best i).sdp < pi → ∀ k S, minimal ≤ k → Candidate (searchPlayers C (rfSpace cols order)) k S →
        (stop = false ∨ ∀ k' S', minimal ≤ k' → k' < k → Candidate (searchPlayers C (rfSpace cols order)) k' S' → S'.length < half) →
        v i S < pi) ∧
      ∀ j, st.importance nObs j = reportedFraction st.best nObs pi j := by
  intro v
  obtain ⟨st, e, a⟩ := C29_reported_partial h v nObs h0 h1 minimal stop half
  obtain ⟨st2, e2, b⟩ := C29_not_found h v nObs h0 h1 minimal stop half hhalf
  obtain ⟨st3, e3, c⟩ := C31_frequency_rf h v nObs pi minimal stop half
  rw [e] at e2 e3
  cases e2
  cases e3
  exact ⟨st, e, a, b, fun j => (c j).1⟩

example : SearchArgs 3 [[]] (rfSpace 3 []) ∧
    ((importanceSdpRfV0 [Mem.ofTree ladderTree leafJunk] diag (fun _ => 1) diag (fun i => if i ≤ 1 then 1 else 0) 1 3 10 true 0 1 3 [] [[]]
      (9/10) 1 true 2).map fun st => ((st.best 0).sdp, (st.best 0).cols)) = some (1, [0]) := by
  refine ⟨⟨by decide, by decide, by decide, by decide⟩, by decide +kernel⟩

end Acv
