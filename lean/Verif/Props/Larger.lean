import Verif.Props.OutputUnits
import Verif.Props.Classes
import Verif.Props.SameModel

/-!
# C130: larger outputs

If no output of a model (or of the data) is smaller than before, its expectations should not be smaller either.
-/

namespace Acv

/-- The tree with other values in its nodes. -/
def TreeArr.revalue (v : Nat → Nat → ℚ) (t : TreeArr) : TreeArr := { t with value := v }

theorem getPartition_revalue (v : Nat → Nat → ℚ) (t : TreeArr) : ∀ fuel id part ids,
    (t.revalue v).getPartition fuel id part ids = t.getPartition fuel id part ids := by
  intro fuel
  induction fuel with
  | zero => intros; rfl
  | succ n ih =>
    intro id part ids
    unfold TreeArr.getPartition
    simp only [ih]
    rfl

theorem leafRect_revalue (v : Nat → Nat → ℚ) (t : TreeArr) (ℓ : Nat) : (t.revalue v).leafRect ℓ = t.leafRect ℓ := by
  unfold TreeArr.leafRect; rw [getPartition_revalue]; rfl

theorem sumLeaves_revalue_le {ps : List (TreeArr × (Nat → Nat → ℚ))} {k : Nat} (hv : ∀ p ∈ ps, ∀ ℓ ∈ p.1.leafIdx, p.1.value ℓ k ≤ p.2 ℓ k)
    {f : Rect → ℚ → ℚ} (hf : ∀ r, Monotone (f r)) :
    sumLeaves (ps.map Prod.fst) k f ≤ sumLeaves (ps.map fun p => p.1.revalue p.2) k f := by
  unfold sumLeaves
  rw [List.map_map, List.map_map]
  refine List.sum_le_sum fun p hp => ?_
  simp only [Function.comp]
  refine List.sum_le_sum fun ℓ hℓ => ?_
  rw [leafRect_revalue]
  exact hf _ (hv p hp ℓ hℓ)

/-- **C130, expectations that read the leaves.** If no leaf value is smaller, `compute_exp` (both implementations) and `compute_exp_cat` are not smaller. -/
theorem C130_leaves {ps : List (TreeArr × (Nat → Nat → ℚ))} {k : Nat} (hv : ∀ p ∈ ps, ∀ ℓ ∈ p.1.leafIdx, p.1.value ℓ k ≤ p.2 ℓ k) (m : Nat)
    (data : List Row) (S : List Nat) (x : Row) :
    expCy (ps.map Prod.fst) m data S x k ≤ expCy (ps.map fun p => p.1.revalue p.2) m data S x k ∧
    expCatCy (ps.map Prod.fst) m data S x k ≤ expCatCy (ps.map fun p => p.1.revalue p.2) m data S x k ∧
    ∀ e e', expPy (ps.map Prod.fst) m data S x k = .ok e → expPy (ps.map fun p => p.1.revalue p.2) m data S x k = .ok e' → e ≤ e' := by
  have hg : ∀ (c n : Nat), Monotone fun v : ℚ => guardDiv ((c : ℚ) * v) n := by
    intro c n u v huv
    unfold guardDiv
    dsimp only
    split
    · exact div_le_div_of_nonneg_right (mul_le_mul_of_nonneg_left huv (Nat.cast_nonneg _)) (Nat.cast_nonneg _)
    · exact le_refl _
  refine ⟨sumLeaves_revalue_le hv fun r u v huv => ?_, sumLeaves_revalue_le hv fun r u v huv => ?_, fun e e' h h' => ?_⟩
  · split
    · exact hg _ _ huv
    · exact le_refl _
  · split
    · exact hg _ _ huv
    · exact le_refl _
  · unfold expPy at h h'
    split at h
    · cases h
    · rename_i hS
      rw [if_neg hS] at h'
      cases h
      cases h'
      refine sumLeaves_revalue_le hv fun r u v huv => ?_
      split
      · exact hg _ _ huv
      · exact le_refl _

/-- **C130, `compute_exp_cat` of two different models.** If one model predicts at least as much as the other for every data row that matches, its expectation is at
least as large, whatever the trees. -/
theorem C130_cat {ts ts' : List TreeArr} {m m' : Nat} (hw : ∀ t ∈ ts, WellFormed t m) (hw' : ∀ t ∈ ts', WellFormed t m') {base base' : Nat → ℚ} {k : Nat}
    {P P' : Row → ℚ} (hP : ∀ z, ensemblePredict ts none none base (full z) k = some (P z))
    (hP' : ∀ z, ensemblePredict ts' none none base' (full z) k = some (P' z)) (data : List Row) {S : List Nat} (hS : ∀ s ∈ S, s < m)
    (hS' : ∀ s ∈ S, s < m') (x : Row) (h : ∀ z ∈ data, (∀ s ∈ S, z s = x s) → P z ≤ P' z) (hne : ∃ z ∈ data, ∀ s ∈ S, z s = x s) :
    expCatCy ts m data S x k + base k ≤ expCatCy ts' m' data S x k + base' k := by
  have hm : ∀ z, z ∈ matching S x data ↔ z ∈ data ∧ ∀ s ∈ S, z s = x s := by
    intro z
    rw [matching_eq, List.mem_filter, eqOn_iff]
  obtain ⟨z, hz, hzs⟩ := hne
  have hne' : matching S x data ≠ [] := List.ne_nil_of_mem ((hm z).2 ⟨hz, hzs⟩)
  rw [(C20_cat_is_conditional_mean hw data hS x k base P hP).1 hne', (C20_cat_is_conditional_mean hw' data hS' x k base' P' hP').1 hne', sub_add_cancel,
    sub_add_cancel]
  unfold meanOver
  refine div_le_div_of_nonneg_right (List.sum_le_sum fun z hz => ?_) (Nat.cast_nonneg _)
  exact h z ((hm z).1 hz).1 ((hm z).1 hz).2

/-- What C130 asks of expectations of two different models, one of which predicts at least as much as the other for every row. -/
def C130_model_claim (f : List TreeArr → List Row → Row → ℚ) : Prop := ∀ (ts ts' : List TreeArr), (∀ t ∈ ts, WellFormed t 2) → (∀ t ∈ ts', WellFormed t 2) →
  ∀ P P' : Row → ℚ, (∀ z, ensemblePredict ts none none (fun _ => 0) (full z) 0 = some (P z)) →
  (∀ z, ensemblePredict ts' none none (fun _ => 0) (full z) 0 = some (P' z)) → (∀ z, P z ≤ P' z) → ∀ (data : List Row) (x : Row), f ts data x ≤ f ts' data x

/-- **C130 is false of `compute_exp`, in both implementations, for two different models**: the expectation depends on the order of the tests in the tree. -/
theorem C130_model_false : ¬ C130_model_claim (fun ts data x => expCy ts 2 data [0] x 0) ∧
    ¬ C130_model_claim (fun ts data x => (expPy ts 2 data [0] x 0).toOption.getD 0) := by
  have key : ∀ f : List TreeArr → List Row → Row → ℚ, C130_model_claim f → C120_claim f := by
    intro f h ts ts' hw hw' hs data x
    obtain ⟨P, hP⟩ := predicts hw (fun _ => 0) 0
    have hP' : ∀ z, ensemblePredict ts' none none (fun _ => 0) (full z) 0 = some (P z) := fun z => (hs z).trans (hP z)
    exact le_antisymm (h ts' ts hw' hw P P hP' hP (fun _ => le_refl _) data x) (h ts ts' hw hw' P P hP hP' (fun _ => le_refl _) data x)
  exact ⟨fun h => C120_false.1 (key _ h), fun h => C120_false.2.1 (key _ h)⟩

/-- **C130, the projected forest.** If no output of the data is smaller, the expectation is not smaller, and the distribution function is nowhere larger. -/
theorem C130_forest (mems : List Mem) (S : List Nat) (x : Row) (data : Nat → Row) {y y' : Nat → ℚ} {N : Nat} (h : ∀ i < N, y i ≤ y' i)
    (minSize maxDepth : Nat) :
    expRf mems S x data y minSize maxDepth N ≤ expRf mems S x data y' minSize maxDepth N ∧
    ∀ a, cdfRf mems S x data y' minSize maxDepth N a ≤ cdfRf mems S x data y minSize maxDepth N a := by
  constructor
  · unfold expRf
    exact cellSum_mono fun c hc i hi => h i (List.mem_range.mp ((forestRun_sublist hc).subset hi))
  · intro a
    unfold cdfRf
    refine cellSum_mono fun c hc i hi => ?_
    have hi' := h i (List.mem_range.mp ((forestRun_sublist hc).subset hi))
    unfold ind
    by_cases h1 : y' i ≤ a
    · rw [decide_eq_true h1, decide_eq_true (hi'.trans h1)]
    · rw [decide_eq_false h1]
      simp only [Bool.false_eq_true, if_false]
      split <;> norm_num

/-! ## Quantiles -/

theorem piecewise_le : ∀ {l : List (ℚ × ℚ × ℚ)}, (l.Pairwise fun a b => a.1 < b.1) → (∀ p ∈ l, p.2.1 ≤ p.2.2) → ∀ q,
    piecewise (l.map fun p => (p.1, p.2.1)) q ≤ piecewise (l.map fun p => (p.1, p.2.2)) q
  | [], _, _, _ => le_refl _
  | [p], _, h, _ => h p (by simp)
  | p :: p' :: l, hi, h, q => by
    have ih := piecewise_le (l := p' :: l) (List.pairwise_cons.1 hi).2 (fun r hr => h r (List.mem_cons_of_mem _ hr)) q
    have hp := h p (by simp)
    have hp' := h p' (by simp)
    have hlt : p.1 < p'.1 := (List.pairwise_cons.1 hi).1 p' (by simp)
    simp only [List.map_cons, piecewise] at ih ⊢
    split
    · exact hp
    · next h1 =>
      split
      · next h2 =>
        have hd : 0 < p'.1 - p.1 := by linarith
        have f0 : 0 ≤ (q - p.1) / (p'.1 - p.1) := div_nonneg (by linarith) hd.le
        have f1 : (q - p.1) / (p'.1 - p.1) ≤ 1 := (div_le_one hd).2 (by linarith)
        nlinarith [mul_nonneg f0 (sub_nonneg.2 hp'), mul_nonneg (sub_nonneg.2 f1) (sub_nonneg.2 hp)]
      · exact ih

/-- Two lists of samples with the same weights, the second with values that are not smaller. -/
def SamplesLe (U V : List (ℚ × ℚ)) : Prop := List.Forall₂ (fun u v => u.1 ≤ v.1 ∧ u.2 = v.2) U V

theorem midpoints_le {U V : List (ℚ × ℚ)} (h : SamplesLe U V) : ∀ acc : ℚ, ∃ T : List (ℚ × ℚ × ℚ), midpoints acc U = T.map (fun p => (p.1, p.2.1)) ∧
    midpoints acc V = T.map (fun p => (p.1, p.2.2)) ∧ ∀ p ∈ T, p.2.1 ≤ p.2.2 := by
  induction h with
  | nil => exact fun _ => ⟨[], rfl, rfl, by simp⟩
  | @cons u v U V huv _ ih =>
    intro acc
    obtain ⟨T, h1, h2, h3⟩ := ih (acc + u.2)
    obtain ⟨a, c⟩ := u
    obtain ⟨b, d⟩ := v
    obtain ⟨hab, rfl⟩ : a ≤ b ∧ c = d := huv
    refine ⟨(acc + c - c / 2, a, b) :: T, by simp only [List.map_cons, midpoints, h1], by simp only [List.map_cons, midpoints, h2], ?_⟩
    intro p hp
    rcases List.mem_cons.1 hp with rfl | hp
    · exact hab
    · exact h3 p hp

theorem partialSums_le {U V : List (ℚ × ℚ)} (h : SamplesLe U V) (hi : Incr (partialSums U)) (q : ℚ) :
    piecewise (partialSums U) q ≤ piecewise (partialSums V) q := by
  obtain ⟨T, h1, h2, h3⟩ := midpoints_le h 0
  have hsum : (V.map Prod.snd).sum = (U.map Prod.snd).sum := by
    congr 1
    clear h1 h2 h3 hi
    induction h with
    | nil => rfl
    | cons huv _ ih => rw [List.map_cons, List.map_cons, ih, huv.2]
  unfold partialSums at hi ⊢
  rw [h1] at hi ⊢
  rw [h2, hsum]
  generalize (U.map Prod.snd).sum = tot at hi ⊢
  have hT := piecewise_le (l := T.map fun p => (100 / tot * p.1, p.2)) (by
    unfold Incr at hi
    rw [List.pairwise_map, List.pairwise_map] at hi
    rw [List.pairwise_map]
    exact hi) (by
    intro p hp
    obtain ⟨r, hr, rfl⟩ := List.mem_map.1 hp
    exact h3 r hr) q
  rw [List.map_map, List.map_map] at hT ⊢
  exact hT

theorem percentile_le {U V : List (ℚ × ℚ)} (hU : ∀ s ∈ U, 0 ≤ s.2) (hV : ∀ s ∈ V, 0 ≤ s.2)
    (h : SamplesLe (sortSamples (U.filter fun s => decide (s.2 ≠ 0))) (sortSamples (V.filter fun s => decide (s.2 ≠ 0)))) {q u v : ℚ}
    (hu : weightedPercentile U q = .ok u) (hv : weightedPercentile V q = .ok v) : u ≤ v := by
  obtain ⟨hne, rfl⟩ := weightedPercentile_ok hu
  obtain ⟨hne2, rfl⟩ := weightedPercentile_ok hv
  have hi1 := partialSums_incr (kept_pos hU)
  rw [interpolate_eq q (partialSums_ne_nil hne) hi1, interpolate_eq q (partialSums_ne_nil hne2) (partialSums_incr (kept_pos hV))]
  exact partialSums_le h hi1 q

theorem kept_map (l : List Nat) (c w : Nat → ℚ) :
    (l.map fun i => (c i, w i)).filter (fun s => decide (s.2 ≠ 0)) = (l.filter fun i => decide (w i ≠ 0)).map fun i => (c i, w i) := by
  rw [List.filter_map]
  rfl

/-- **C130, weighted percentile, partial**: if no value is smaller and the order of the values with non-zero weight is the same, the percentile is not smaller.
Missing (false): values that change their order. -/
theorem C130_percentile_partial {l : List Nat} {a b w : Nat → ℚ} (hw : ∀ i ∈ l, 0 ≤ w i) (hab : ∀ i ∈ l, a i ≤ b i)
    (ho : ∀ i ∈ l, ∀ j ∈ l, w i ≠ 0 → w j ≠ 0 → (a i ≤ a j ↔ b i ≤ b j)) {q u v : ℚ}
    (hu : weightedPercentile (l.map fun i => (a i, w i)) q = .ok u) (hv : weightedPercentile (l.map fun i => (b i, w i)) q = .ok v) : u ≤ v := by
  have hmem : ∀ i ∈ l.filter (fun i => decide (w i ≠ 0)), i ∈ l ∧ w i ≠ 0 := by
    intro i hi
    simpa using List.mem_filter.1 hi
  have hs : ∀ c : Nat → ℚ, (∀ i ∈ l.filter (fun i => decide (w i ≠ 0)), ∀ j ∈ l.filter (fun i => decide (w i ≠ 0)), a i ≤ a j ↔ c i ≤ c j) →
      sortSamples ((l.map fun i => (c i, w i)).filter (fun s => decide (s.2 ≠ 0))) =
        ((l.filter fun i => decide (w i ≠ 0)).insertionSort fun i j => a i ≤ a j).map fun i => (c i, w i) := by
    intro c hc
    rw [kept_map, sortSamples, List.map_insertionSort (r := fun i j => a i ≤ a j) (s := fun s s' : ℚ × ℚ => s.1 ≤ s'.1)]
    exact hc
  refine percentile_le (by simpa using hw) (by simpa using hw) ?_ hu hv
  rw [hs a (fun _ _ _ _ => Iff.rfl), hs b fun i hi j hj => ho i (hmem i hi).1 j (hmem j hj).1 (hmem i hi).2 (hmem j hj).2]
  unfold SamplesLe
  rw [List.forall₂_map_left_iff, List.forall₂_map_right_iff, List.forall₂_same]
  intro i hi
  rw [List.mem_insertionSort] at hi
  exact ⟨hab i (hmem i hi).1, rfl⟩

theorem orderedInsert_le {l l' : List ℚ} (h : List.Forall₂ (· ≤ ·) l l') : ∀ {x y : ℚ}, x ≤ y → l.Pairwise (· ≤ ·) → l'.Pairwise (· ≤ ·) →
    List.Forall₂ (· ≤ ·) (l.orderedInsert (· ≤ ·) x) (l'.orderedInsert (· ≤ ·) y) := by
  induction h with
  | nil => intro x y hxy _ _; exact .cons hxy .nil
  | @cons a b l l' hab hl ih =>
    intro x y hxy hs hs'
    have hs1 := List.pairwise_cons.1 hs
    have hs2 := List.pairwise_cons.1 hs'
    have front : ∀ {c : ℚ} {k : List ℚ}, (∀ d ∈ k, c ≤ d) → k.orderedInsert (· ≤ ·) c = c :: k := by
      intro c k hk
      cases k with
      | nil => rfl
      | cons d k => simp [List.orderedInsert, hk d (by simp)]
    simp only [List.orderedInsert]
    split
    · next h1 =>
      split
      · exact .cons hxy (.cons hab hl)
      · next h2 =>
        refine .cons (h1.trans hab) ?_
        rw [← front hs1.1]
        exact ih (by linarith) hs1.2 hs2.2
    · next h1 =>
      split
      · next h2 =>
        refine .cons (by linarith) ?_
        rw [← front hs2.1]
        exact ih (hxy.trans h2) hs1.2 hs2.2
      · exact .cons hab (ih hxy hs1.2 hs2.2)

theorem insertionSort_le {l l' : List ℚ} (h : List.Forall₂ (· ≤ ·) l l') :
    List.Forall₂ (· ≤ ·) (l.insertionSort (· ≤ ·)) (l'.insertionSort (· ≤ ·)) := by
  induction h with
  | nil => exact .nil
  | @cons a b l l' hab hl ih => exact orderedInsert_le ih hab (List.pairwise_insertionSort _ l) (List.pairwise_insertionSort _ l')

/-- **C130, weighted percentile, equal weights**: if all non-zero weights are the same, the percentile is not smaller, whatever the order of the values. -/
theorem C130_percentile_equal {l : List Nat} {a b w : Nat → ℚ} {c : ℚ} (hc : 0 < c) (hw : ∀ i ∈ l, w i = 0 ∨ w i = c) (hab : ∀ i ∈ l, a i ≤ b i) {q u v : ℚ}
    (hu : weightedPercentile (l.map fun i => (a i, w i)) q = .ok u) (hv : weightedPercentile (l.map fun i => (b i, w i)) q = .ok v) : u ≤ v := by
  have hw0 : ∀ i ∈ l, 0 ≤ w i := fun i hi => by rcases hw i hi with e | e <;> rw [e]; exact hc.le
  have hmem : ∀ i ∈ l.filter (fun i => decide (w i ≠ 0)), i ∈ l ∧ w i ≠ 0 := by
    intro i hi
    simpa using List.mem_filter.1 hi
  have hs : ∀ d : Nat → ℚ, sortSamples ((l.map fun i => (d i, w i)).filter (fun s => decide (s.2 ≠ 0))) =
        (((l.filter fun i => decide (w i ≠ 0)).map d).insertionSort (· ≤ ·)).map fun v => (v, c) := by
    intro d
    rw [kept_map, sortSamples, List.map_insertionSort (r := (· ≤ ·)) (s := fun s s' : ℚ × ℚ => s.1 ≤ s'.1) _ _ (fun _ _ _ _ => Iff.rfl), List.map_map]
    congr 1
    exact List.map_congr_left fun i hi => by
      rw [Function.comp, (hw i (hmem i hi).1).resolve_left (hmem i hi).2]
  refine percentile_le (by simpa using hw0) (by simpa using hw0) ?_ hu hv
  rw [hs a, hs b]
  unfold SamplesLe
  rw [List.forall₂_map_left_iff, List.forall₂_map_right_iff]
  refine (insertionSort_le ?_).imp fun u v huv => ⟨huv, rfl⟩
  rw [List.forall₂_map_left_iff, List.forall₂_map_right_iff, List.forall₂_same]
  exact fun i hi => hab i (hmem i hi).1

/-- **C130, quantiles of the projected forest, partial** (`compute_quantile_rf` and `compute_shaff_quantile`): if no output is smaller, the quantile is not smaller
when the outputs keep their order, or when the forest has one tree. Missing (false): outputs that change their order in a forest of several trees. -/
theorem C130_quantile_partial {mems : List Mem} {S : List Nat} {x : Row} {data : Nat → Row} {y y' : Nat → ℚ} {minSize maxDepth N : Nat} (h : ∀ i < N, y i ≤ y' i)
    (ho : (∀ i < N, ∀ j < N, y i ≤ y j ↔ y' i ≤ y' j) ∨ mems.length = 1) {q u v : ℚ} :
    (quantileRf mems S x data y minSize maxDepth N q = .ok u → quantileRf mems S x data y' minSize maxDepth N q = .ok v → u ≤ v) ∧
    (shaffQuantile mems S x data y minSize maxDepth N q = .ok u → shaffQuantile mems S x data y' minSize maxDepth N q = .ok v → u ≤ v) := by
  rw [C78_cython_is_python, C78_cython_is_python, and_self]
  unfold shaffQuantile
  rw [C45_sorter, C45_sorter]
  intro hu hv
  rcases ho with ho | h1
  · exact C130_percentile_partial (fun i _ => shaffWeight_nonneg _ i) (fun i hi => h i (List.mem_range.1 hi))
      (fun i hi j hj _ _ => ho i (List.mem_range.1 hi) j (List.mem_range.1 hj)) hu hv
  · obtain ⟨mem, rfl⟩ := List.length_eq_one_iff.1 h1
    rcases Nat.eq_zero_or_pos (mem.cellPy S x data minSize maxDepth N).length with h0 | h0
    · exact C130_percentile_equal (c := 1) one_pos (fun i _ => Or.inl (by
        simp [shaffWeight, List.eq_nil_of_length_eq_zero h0])) (fun i hi => h i (List.mem_range.1 hi)) hu hv
    · refine C130_percentile_equal (c := 1 / ((mem.cellPy S x data minSize maxDepth N).length : ℚ)) (by positivity) (fun i _ => ?_)
        (fun i hi => h i (List.mem_range.1 hi)) hu hv
      by_cases hi : i ∈ mem.cellPy S x data minSize maxDepth N
      · exact Or.inr (by simp [shaffWeight, hi])
      · exact Or.inl (by simp [shaffWeight, hi])

/-- What C130 asks of the weighted percentile. -/
def C130_percentile_claim : Prop := ∀ (l : List Nat) (a b w : Nat → ℚ), (∀ i ∈ l, 0 < w i) → (∀ i ∈ l, a i ≤ b i) → ∀ q u v,
  weightedPercentile (l.map fun i => (a i, w i)) q = .ok u → weightedPercentile (l.map fun i => (b i, w i)) q = .ok v → u ≤ v

/-- **C130 is false of the weighted percentile**: of the values 0, 10, 20 with the weights 1, 4, 1 the first is raised to 15, and the percentile at 75 falls. -/
theorem C130_percentile_false : ¬ C130_percentile_claim := by
  intro h
  have h1 : weightedPercentile ((List.range 3).map fun i => (([0, 10, 20] : List ℚ).getD i 0, ([1, 4, 1] : List ℚ).getD i 0)) 75 = .ok 16 := by
    decide +kernel
  have h2 : weightedPercentile ((List.range 3).map fun i => (([15, 10, 20] : List ℚ).getD i 0, ([1, 4, 1] : List ℚ).getD i 0)) 75 = .ok 15 := by
    decide +kernel
  have := h (List.range 3) _ _ _ (by decide +kernel) (by decide +kernel) 75 _ _ h1 h2
  norm_num at this

/-- What C130 asks of the quantiles of the projected forest. -/
def C130_quantile_claim : Prop := ∀ (mems : List Mem) (S : List Nat) (x : Row) (data : Nat → Row) (y y' : Nat → ℚ) (minSize maxDepth N : Nat),
  (∀ i < N, y i ≤ y' i) → ∀ q u v, quantileRf mems S x data y minSize maxDepth N q = .ok u → quantileRf mems S x data y' minSize maxDepth N q = .ok v → u ≤ v

/-- A forest of two trees: the first asks for column 0, the second for column 1. -/
def twoStumps : List Mem := [Mem.ofTree rootSplit leafJunk, Mem.ofTree { rootSplit with feature := fun n => ([1, -2, -2] : List Int).getD n (-2) } leafJunk]

/-- Three rows, the middle one alone on its side of the first tree. -/
def middleAlone (i : Nat) : Row := fun _ => if i = 1 then 0 else 2

/-- **C130 is false of `compute_quantile_rf`**: with outputs 0, 10, 20 the quantile at 75 is 16; if the first output rises to 15 it is 15. -/
theorem C130_quantile_false : ¬ C130_quantile_claim := by
  intro h
  have h1 : quantileRf twoStumps [0] (fun _ => 0) middleAlone (fun i => ([0, 10, 20] : List ℚ).getD i 0) 1 1 3 75 = .ok 16 := by decide +kernel
  have h2 : quantileRf twoStumps [0] (fun _ => 0) middleAlone (fun i => ([15, 10, 20] : List ℚ).getD i 0) 1 1 3 75 = .ok 15 := by decide +kernel
  have := h _ _ _ _ _ _ _ _ _ (by decide +kernel) 75 _ _ h1 h2
  norm_num at this

/-- The hypotheses on small cases: raised leaf values, raised outputs that keep their order, and one tree. -/
example : (∀ p ∈ [(exTree, fun ℓ k => exTree.value ℓ k + ℓ)], ∀ ℓ ∈ p.1.leafIdx, p.1.value ℓ 0 ≤ p.2 ℓ 0) ∧
    expCy [exTree] 3 exData [0] (fun _ => 2) 0 < expCy [exTree.revalue fun ℓ k => exTree.value ℓ k + ℓ] 3 exData [0] (fun _ => 2) 0 ∧
    (∀ i < 3, ([0, 10, 20] : List ℚ).getD i 0 ≤ ([5, 12, 20] : List ℚ).getD i 0) ∧
    (∀ i < 3, ∀ j < 3, ([0, 10, 20] : List ℚ).getD i 0 ≤ ([0, 10, 20] : List ℚ).getD j 0 ↔ ([5, 12, 20] : List ℚ).getD i 0 ≤ ([5, 12, 20] : List ℚ).getD j 0) ∧
    quantileRf twoStumps [0] (fun _ => 0) middleAlone (fun i => ([5, 12, 20] : List ℚ).getD i 0) 1 1 3 50 = .ok 12 ∧
    quantileRf twoStumps [0] (fun _ => 0) middleAlone (fun i => ([0, 10, 20] : List ℚ).getD i 0) 1 1 3 50 = .ok 10 ∧
    expRf twoStumps [0] (fun _ => 0) middleAlone (fun i => ([0, 10, 20] : List ℚ).getD i 0) 1 1 3 = 10 ∧
    expRf twoStumps [0] (fun _ => 0) middleAlone (fun i => ([15, 10, 20] : List ℚ).getD i 0) 1 1 3 = 25 / 2 ∧
    (twoStumps.take 1).length = 1 ∧ WellFormed twoClasses 2 ∧
    (∃ z ∈ diagRows, ∀ s ∈ [0], z s = (fun _ => 2 : Row) s) := by
  refine ⟨by decide +kernel, by decide +kernel, by decide +kernel, by decide +kernel, by decide +kernel, by decide +kernel, by decide +kernel, by decide +kernel, rfl,
    twoClasses_wf _ (by simp), ⟨fun _ => 2, by simp [diagRows], fun _ _ => rfl⟩⟩

end Acv
