import Verif.Lemmas.Quantile
import Verif.Spec.Quantile
import Verif.Props.Projected

/-!
# C45, C59: weighted percentiles
-/

namespace Acv

/-- The samples of positive weight in increasing order. -/
theorem kept_pos {samples : List (ℚ × ℚ)} (hw : ∀ s ∈ samples, 0 ≤ s.2) :
    ∀ s ∈ sortSamples (samples.filter fun s => decide (s.2 ≠ 0)), 0 < s.2 := by
  intro s hs
  obtain ⟨h1, h2⟩ := List.mem_filter.1 (mem_sortSamples.1 hs)
  rw [decide_eq_true_eq] at h2
  exact lt_of_le_of_ne (hw s h1) (Ne.symm h2)

theorem weightedPercentile_ok {samples : List (ℚ × ℚ)} {q v : ℚ} (h : weightedPercentile samples q = .ok v) :
    sortSamples (samples.filter fun s => decide (s.2 ≠ 0)) ≠ [] ∧
    v = interpolate (partialSums (sortSamples (samples.filter fun s => decide (s.2 ≠ 0)))) q := by
  unfold weightedPercentile at h
  split at h
  · cases h
  · simp only at h
    split at h
    · cases h
    · next hne =>
      cases h
      refine ⟨fun hc => hne ?_, rfl⟩
      have := (sortSamples_perm (samples.filter fun s => decide (s.2 ≠ 0)))
      rw [hc] at this
      exact List.nil_perm.1 this

theorem partialSums_ne_nil {l : List (ℚ × ℚ)} (h : l ≠ []) : partialSums l ≠ [] := by
  intro hc
  have := partialSums_snd l
  rw [hc] at this
  simp only [List.map_nil] at this
  exact h (List.map_eq_nil_iff.1 this.symm)

theorem mem_partialSums {l : List (ℚ × ℚ)} {p : ℚ × ℚ} (h : p ∈ partialSums l) : ∃ s ∈ l, s.1 = p.2 := by
  have := List.mem_map_of_mem (f := Prod.snd) h
  rw [partialSums_snd] at this
  exact List.mem_map.1 this

/-- **C45, definedness.** A percentile is returned exactly when `0 <= q <= 100` and some sample has a non-zero weight. -/
theorem C45_defined (samples : List (ℚ × ℚ)) (q : ℚ) :
    (∃ v, weightedPercentile samples q = .ok v) ↔ (0 ≤ q ∧ q ≤ 100) ∧ ∃ s ∈ samples, s.2 ≠ 0 := by
  have hf : (samples.filter fun s => decide (s.2 ≠ 0)) = [] ↔ ¬ ∃ s ∈ samples, s.2 ≠ 0 := by
    rw [List.filter_eq_nil_iff]
    push Not
    simp
  unfold weightedPercentile
  by_cases h : 100 < q ∨ q < 0
  · rw [if_pos h]
    constructor
    · rintro ⟨v, hv⟩; cases hv
    · rintro ⟨⟨h1, h2⟩, -⟩
      rcases h with h | h <;> linarith
  · rw [if_neg h]
    simp only
    push Not at h
    by_cases h2 : (samples.filter fun s => decide (s.2 ≠ 0)) = []
    · rw [if_pos h2]
      constructor
      · rintro ⟨v, hv⟩; cases hv
      · rintro ⟨-, h3⟩
        exact absurd h3 (hf.1 h2)
    · rw [if_neg h2]
      constructor
      · intro _
        refine ⟨⟨h.2, h.1⟩, ?_⟩
        by_contra hc
        exact h2 (hf.2 hc)
      · exact fun _ => ⟨_, rfl⟩

/-- **C45, range.** For non-negative weights the percentile lies between two outputs of positive weight. -/
theorem C45_range {samples : List (ℚ × ℚ)} (hw : ∀ s ∈ samples, 0 ≤ s.2) {q v : ℚ} (h : weightedPercentile samples q = .ok v) :
    (∃ s ∈ samples, 0 < s.2 ∧ s.1 ≤ v) ∧ ∃ s ∈ samples, 0 < s.2 ∧ v ≤ s.1 := by
  obtain ⟨hne, rfl⟩ := weightedPercentile_ok h
  have hpos := kept_pos hw
  have hmem : ∀ s ∈ sortSamples (samples.filter fun s => decide (s.2 ≠ 0)), s ∈ samples :=
    fun s hs => (List.mem_filter.1 (mem_sortSamples.1 hs)).1
  have hsrt := partialSums_sorted (sortSamples_sorted (samples.filter fun s => decide (s.2 ≠ 0)))
  generalize sortSamples (samples.filter fun s => decide (s.2 ≠ 0)) = l at hne hpos hmem hsrt
  have hne' := partialSums_ne_nil hne
  have hi := partialSums_incr hpos
  rw [interpolate_eq q hne' hi]
  obtain ⟨h1, ⟨p, hp, h2⟩, -⟩ := piecewise_bounds q hne' hi hsrt
  constructor
  · obtain ⟨p0, l0, hl⟩ := List.exists_cons_of_ne_nil hne'
    obtain ⟨s, hs, he⟩ := mem_partialSums (l := l) (p := p0) (by rw [hl]; simp)
    exact ⟨s, hmem s hs, hpos s hs, he ▸ h1 p0 (by rw [hl]; rfl)⟩
  · obtain ⟨s, hs, he⟩ := mem_partialSums hp
    exact ⟨s, hmem s hs, hpos s hs, he ▸ h2⟩

/-- **C45, monotone.** For non-negative weights the percentile is non-decreasing in `q`. -/
theorem C45_monotone {samples : List (ℚ × ℚ)} (hw : ∀ s ∈ samples, 0 ≤ s.2) {q q' v v' : ℚ} (hq : q ≤ q')
    (h : weightedPercentile samples q = .ok v) (h' : weightedPercentile samples q' = .ok v') : v ≤ v' := by
  obtain ⟨hne, rfl⟩ := weightedPercentile_ok h
  obtain ⟨-, rfl⟩ := weightedPercentile_ok h'
  have hi := partialSums_incr (kept_pos hw)
  have hne' := partialSums_ne_nil hne
  rw [interpolate_eq q hne' hi, interpolate_eq q' hne' hi]
  exact piecewise_mono hq hi (partialSums_sorted (sortSamples_sorted _))

example : weightedPercentile [(3, 1), (1, 2), (7, 0), (2, 1)] 50 = .ok (5/3) ∧ weightedPercentile [(3, 1), (1, 2), (7, 0), (2, 1)] 95 = .ok 3 := by
  decide +kernel

theorem filter_orderedInsert {p : ℚ × ℚ → Bool} (a : ℚ × ℚ) : ∀ (l : List (ℚ × ℚ)), l.Pairwise (fun a b => a.1 ≤ b.1) →
    (l.orderedInsert (fun a b => a.1 ≤ b.1) a).filter p = if p a then (l.filter p).orderedInsert (fun a b => a.1 ≤ b.1) a else l.filter p := by
  intro l
  induction l with
  | nil => intro _; cases h : p a <;> simp [h]
  | cons b l ih =>
    intro hs
    have hs' := (List.pairwise_cons.1 hs).2
    by_cases hab : a.1 ≤ b.1
    · rw [List.orderedInsert_cons, if_pos hab, List.filter_cons]
      cases ha : p a
      · simp
      · simp only [if_true]
        cases hfl : (b :: l).filter p with
        | nil => rfl
        | cons c cs =>
          rw [List.orderedInsert_cons, if_pos]
          have hc : c ∈ (b :: l).filter p := by rw [hfl]; simp
          rcases List.mem_cons.1 (List.mem_filter.1 hc).1 with rfl | hc
          · exact hab
          · exact le_trans hab ((List.pairwise_cons.1 hs).1 c hc)
    · rw [List.orderedInsert_cons, if_neg hab, List.filter_cons, ih hs', List.filter_cons]
      cases ha : p a
      · simp
      · cases hb : p b
        · simp
        · simp only [if_true]
          rw [List.orderedInsert_cons, if_neg hab]

theorem filter_sortSamples (p : ℚ × ℚ → Bool) : ∀ (l : List (ℚ × ℚ)), (sortSamples l).filter p = sortSamples (l.filter p) := by
  intro l
  induction l with
  | nil => rfl
  | cons a l ih =>
    have hsrt := sortSamples_sorted l
    unfold sortSamples at ih hsrt ⊢
    rw [List.insertionSort_cons, filter_orderedInsert a _ hsrt, ih, List.filter_cons]
    cases p a <;> simp

/-- **C45.** Passing `sorter=np.argsort(a)`, as every caller does, does not change the result. -/
theorem C45_sorter (samples : List (ℚ × ℚ)) (q : ℚ) : weightedPercentileSorter samples q = weightedPercentile samples q := by
  unfold weightedPercentileSorter weightedPercentile
  simp only [filter_sortSamples]
  have : sortSamples (samples.filter fun s => decide (s.2 ≠ 0)) = [] ↔ (samples.filter fun s => decide (s.2 ≠ 0)) = [] := by
    constructor
    · intro h
      have := sortSamples_perm (samples.filter fun s => decide (s.2 ≠ 0))
      rw [h] at this
      exact List.nil_perm.1 this
    · intro h; rw [h]; rfl
  simp only [this]

/-- **C45, documented.** Samples of weight zero are ignored. -/
theorem C45_zero_weight (samples : List (ℚ × ℚ)) (a : ℚ) (q : ℚ) :
    weightedPercentile ((a, 0) :: samples) q = weightedPercentile samples q := by
  have h : ((a, 0) :: samples).filter (fun s => decide (s.2 ≠ 0)) = samples.filter fun s => decide (s.2 ≠ 0) := by
    rw [List.filter_cons_of_neg (by simp)]
  unfold weightedPercentile
  rw [h]

theorem midpoints_scale (c : ℚ) : ∀ (l : List (ℚ × ℚ)) (acc : ℚ),
    midpoints (c * acc) (l.map fun s => (s.1, c * s.2)) = (midpoints acc l).map fun p => (c * p.1, p.2) := by
  intro l
  induction l with
  | nil => intro; rfl
  | cons s l ih =>
    intro acc
    rw [List.map_cons]
    unfold midpoints
    rw [List.map_cons, ← ih]
    simp only
    congr 2
    · ring
    · ring

theorem sortSamples_map {f : ℚ × ℚ → ℚ × ℚ} (hf : ∀ s, (f s).1 = s.1) : ∀ (l : List (ℚ × ℚ)), sortSamples (l.map f) = (sortSamples l).map f := by
  have hins : ∀ (a : ℚ × ℚ) (l : List (ℚ × ℚ)), (l.map f).orderedInsert (fun a b => a.1 ≤ b.1) (f a) =
      (l.orderedInsert (fun a b => a.1 ≤ b.1) a).map f := by
    intro a l
    induction l with
    | nil => rfl
    | cons b l ih =>
      rw [List.map_cons, List.orderedInsert_cons, List.orderedInsert_cons]
      simp only [hf]
      split
      · rfl
      · rw [List.map_cons, ih]
  intro l
  induction l with
  | nil => rfl
  | cons a l ih =>
    unfold sortSamples at ih ⊢
    rw [List.map_cons, List.insertionSort_cons, List.insertionSort_cons, ih, hins]

/-- **C45.** Multiplying all weights by the same non-zero number does not change the result. -/
theorem C45_scale (samples : List (ℚ × ℚ)) {c : ℚ} (hc : c ≠ 0) (q : ℚ) :
    weightedPercentile (samples.map fun s => (s.1, c * s.2)) q = weightedPercentile samples q := by
  have hf : (samples.map fun s => (s.1, c * s.2)).filter (fun s => decide (s.2 ≠ 0)) =
      (samples.filter fun s => decide (s.2 ≠ 0)).map fun s => (s.1, c * s.2) := by
    rw [List.filter_map]
    congr 1
    apply List.filter_congr
    intro s _
    simp [hc]
  have hp : ∀ l : List (ℚ × ℚ), partialSums (l.map fun s => (s.1, c * s.2)) = partialSums l := by
    intro l
    unfold partialSums
    have h0 := midpoints_scale c l 0
    rw [mul_zero] at h0
    rw [h0, List.map_map, List.map_map]
    have hs : ((l.map ((Prod.snd : ℚ × ℚ → ℚ) ∘ fun s => (s.1, c * s.2))).sum) = c * (l.map Prod.snd).sum := by
      rw [← List.sum_map_mul_left]
      rfl
    rw [hs]
    apply List.map_congr_left
    intro p _
    simp only [Function.comp, Prod.mk.injEq, and_true]
    rw [← mul_assoc, div_mul_eq_mul_div, mul_comm c (l.map Prod.snd).sum, mul_div_mul_right _ _ hc]
  unfold weightedPercentile
  simp only [hf, List.map_eq_nil_iff]
  rw [sortSamples_map (f := fun s => (s.1, c * s.2)) (fun _ => rfl), hp]

/-! ## The value for distinct outputs -/

theorem sum_drop_zero : ∀ (l : List (ℚ × ℚ)), ((l.filter fun s => decide (s.2 ≠ 0)).map Prod.snd).sum = (l.map Prod.snd).sum := by
  intro l
  induction l with
  | nil => rfl
  | cons s l ih =>
    by_cases h : s.2 = 0
    · rw [List.filter_cons_of_neg (by simpa using h), ih, List.map_cons, List.sum_cons, h, zero_add]
    · rw [List.filter_cons_of_pos (by simpa using h), List.map_cons, List.map_cons, List.sum_cons, List.sum_cons, ih]

theorem totalWeight_perm {l l' : List (ℚ × ℚ)} (h : l.Perm l') : totalWeight l = totalWeight l' :=
  (h.map Prod.snd).sum_eq

theorem weightBelow_perm {l l' : List (ℚ × ℚ)} (h : l.Perm l') (v : ℚ) : weightBelow l v = weightBelow l' v :=
  ((h.filter _).map Prod.snd).sum_eq

theorem percentOf_kept (samples : List (ℚ × ℚ)) (s : ℚ × ℚ) :
    percentOf (sortSamples (samples.filter fun s => decide (s.2 ≠ 0))) s = percentOf samples s := by
  have h1 : totalWeight (sortSamples (samples.filter fun s => decide (s.2 ≠ 0))) = totalWeight samples := by
    rw [totalWeight_perm (sortSamples_perm _)]
    exact sum_drop_zero samples
  have h2 : weightBelow (sortSamples (samples.filter fun s => decide (s.2 ≠ 0))) s.1 = weightBelow samples s.1 := by
    rw [weightBelow_perm (sortSamples_perm _)]
    unfold weightBelow
    rw [List.filter_comm, sum_drop_zero]
  unfold percentOf
  rw [h1, h2]

theorem midpoints_eq : ∀ (l : List (ℚ × ℚ)) (acc : ℚ), l.Pairwise (fun a b => a.1 < b.1) →
    midpoints acc l = l.map fun s => (acc + weightBelow l s.1 + s.2 / 2, s.1) := by
  intro l
  induction l with
  | nil => intros; rfl
  | cons s l ih =>
    intro acc h
    obtain ⟨h1, h2⟩ := List.pairwise_cons.1 h
    have e0 : weightBelow (s :: l) s.1 = 0 := by
      unfold weightBelow
      rw [List.filter_eq_nil_iff.2]
      · rfl
      · intro a ha
        rw [decide_eq_true_eq, not_lt]
        rcases List.mem_cons.1 ha with rfl | ha
        · exact le_rfl
        · exact le_of_lt (h1 a ha)
    have e1 : ∀ t ∈ l, weightBelow (s :: l) t.1 = s.2 + weightBelow l t.1 := by
      intro t ht
      unfold weightBelow
      rw [List.filter_cons_of_pos (by simpa using h1 t ht), List.map_cons, List.sum_cons]
    unfold midpoints
    rw [ih _ h2, List.map_cons]
    congr 1
    · rw [e0]
      refine Prod.ext ?_ rfl
      simp only
      ring
    · apply List.map_congr_left
      intro t ht
      rw [e1 t ht]
      refine Prod.ext ?_ rfl
      simp only
      ring

theorem partialSums_eq {l : List (ℚ × ℚ)} (h : l.Pairwise fun a b => a.1 < b.1) :
    partialSums l = l.map fun s => (percentOf l s, s.1) := by
  unfold partialSums
  rw [midpoints_eq l 0 h, List.map_map]
  apply List.map_congr_left
  intro s _
  refine Prod.ext ?_ rfl
  simp only [Function.comp, percentOf, totalWeight]
  ring

theorem strict_of_nodup {l : List (ℚ × ℚ)} (h : (l.map Prod.fst).Nodup) : (sortSamples l).Pairwise fun a b => a.1 < b.1 := by
  have h1 : ((sortSamples l).map Prod.fst).Nodup := (((sortSamples_perm l).map Prod.fst).nodup_iff).2 h
  have h2 := List.pairwise_map.1 h1
  exact (sortSamples_sorted l).imp₂ (fun _ _ hle hne => lt_of_le_of_ne hle hne) h2

/-- The points between which the code interpolates. -/
theorem points_eq {samples : List (ℚ × ℚ)} (hd : (samples.map Prod.fst).Nodup) :
    partialSums (sortSamples (samples.filter fun s => decide (s.2 ≠ 0))) =
      (sortSamples (samples.filter fun s => decide (s.2 ≠ 0))).map fun s => (percentOf samples s, s.1) := by
  rw [partialSums_eq (strict_of_nodup ((List.filter_sublist.map Prod.fst).nodup hd))]
  exact List.map_congr_left fun s _ => by rw [percentOf_kept]

/-- **C45, value (partial).** For distinct outputs and non-negative weights: at the percentage of a sample of positive weight the result is
its output, between two consecutive such samples it is interpolated linearly, and beyond the first and the last it stays at their output.
Missing: tied outputs, where the order of the samples matters (`C59_ties_false`). -/
theorem C45_value_partial {samples : List (ℚ × ℚ)} (hw : ∀ s ∈ samples, 0 ≤ s.2) (hd : (samples.map Prod.fst).Nodup)
    {q v : ℚ} (h : weightedPercentile samples q = .ok v) :
    (∀ s ∈ samples, 0 < s.2 → q = percentOf samples s → v = s.1) ∧
    (∀ s ∈ samples, ∀ e ∈ samples, 0 < s.2 → 0 < e.2 → s.1 < e.1 → (∀ r ∈ samples, 0 < r.2 → ¬ (s.1 < r.1 ∧ r.1 < e.1)) →
      percentOf samples s ≤ q → q ≤ percentOf samples e →
      v = s.1 + (q - percentOf samples s) / (percentOf samples e - percentOf samples s) * (e.1 - s.1)) ∧
    (∀ s ∈ samples, 0 < s.2 → (∀ r ∈ samples, 0 < r.2 → s.1 ≤ r.1) → q ≤ percentOf samples s → v = s.1) ∧
    ∀ s ∈ samples, 0 < s.2 → (∀ r ∈ samples, 0 < r.2 → r.1 ≤ s.1) → percentOf samples s ≤ q → v = s.1 := by
  obtain ⟨hne, rfl⟩ := weightedPercentile_ok h
  have hpos := kept_pos hw
  have hne' := partialSums_ne_nil hne
  have hi := partialSums_incr hpos
  have hsrt := partialSums_sorted (sortSamples_sorted (samples.filter fun s => decide (s.2 ≠ 0)))
  have hstrict := strict_of_nodup ((List.filter_sublist (p := fun s : ℚ × ℚ => decide (s.2 ≠ 0)).map Prod.fst).nodup hd)
  rw [interpolate_eq q hne' hi]
  rw [points_eq hd] at hne' hi hsrt ⊢
  have hmem : ∀ s, s ∈ sortSamples (samples.filter fun s => decide (s.2 ≠ 0)) ↔ s ∈ samples ∧ 0 < s.2 := by
    intro s
    rw [mem_sortSamples, List.mem_filter, decide_eq_true_eq]
    exact ⟨fun h => ⟨h.1, lt_of_le_of_ne (hw s h.1) (Ne.symm h.2)⟩, fun h => ⟨h.1, ne_of_gt h.2⟩⟩
  generalize sortSamples (samples.filter fun s => decide (s.2 ≠ 0)) = l at *
  have hin : ∀ s ∈ samples, 0 < s.2 → (percentOf samples s, s.1) ∈ l.map fun s => (percentOf samples s, s.1) :=
    fun s h1 h2 => List.mem_map.2 ⟨s, (hmem s).2 ⟨h1, h2⟩, rfl⟩
  have hord : ∀ a ∈ l, ∀ b ∈ l, percentOf samples a < percentOf samples b → a.1 < b.1 := by
    have hp := List.pairwise_map.1 hi
    clear * - hp hstrict
    induction l with
    | nil => simp
    | cons c l ih =>
      obtain ⟨p1, p2⟩ := List.pairwise_cons.1 hp
      obtain ⟨s1, s2⟩ := List.pairwise_cons.1 hstrict
      intro a ha b hb hab
      rcases List.mem_cons.1 ha with rfl | ha'
      · rcases List.mem_cons.1 hb with rfl | hb
        · exact absurd hab (lt_irrefl _)
        · exact s1 b hb
      · rcases List.mem_cons.1 hb with rfl | hb
        · exact absurd (lt_trans hab (p1 a ha')) (lt_irrefl _)
        · exact ih s2 p2 a ha' b hb hab
  have hord' : ∀ a ∈ l, ∀ b ∈ l, a.1 < b.1 → percentOf samples a < percentOf samples b := by
    have hp := List.pairwise_map.1 hi
    clear * - hp hstrict
    induction l with
    | nil => simp
    | cons c l ih =>
      obtain ⟨p1, p2⟩ := List.pairwise_cons.1 hp
      obtain ⟨s1, s2⟩ := List.pairwise_cons.1 hstrict
      intro a ha b hb hab
      rcases List.mem_cons.1 ha with rfl | ha'
      · rcases List.mem_cons.1 hb with rfl | hb
        · exact absurd hab (lt_irrefl _)
        · exact p1 b hb
      · rcases List.mem_cons.1 hb with rfl | hb
        · exact absurd (lt_trans hab (s1 a ha')) (lt_irrefl _)
        · exact ih s2 p2 a ha' b hb hab
  have hat : ∀ s ∈ samples, 0 < s.2 → piecewise (l.map fun s => (percentOf samples s, s.1)) (percentOf samples s) = s.1 :=
    fun s h1 h2 => piecewise_at hi _ (hin s h1 h2)
  have hout : ∀ p ∈ l.map (fun s => (percentOf samples s, s.1)), ∃ r ∈ samples, 0 < r.2 ∧ r.1 = p.2 := by
    intro p hp
    obtain ⟨r, hr, rfl⟩ := List.mem_map.1 hp
    exact ⟨r, ((hmem r).1 hr).1, ((hmem r).1 hr).2, rfl⟩
  obtain ⟨b1, ⟨p, hp, b2⟩, -⟩ := piecewise_bounds q hne' hi hsrt
  refine ⟨?_, ?_, ?_, ?_⟩
  · rintro s h1 h2 rfl
    exact hat s h1 h2
  · intro s s1 e e1 s2 e2 hse hno hq1 hq2
    refine piecewise_between hi _ (hin s s1 s2) _ (hin e e1 e2)
      (hord' s ((hmem s).2 ⟨s1, s2⟩) e ((hmem e).2 ⟨e1, e2⟩) hse) ?_ q hq1 hq2
    intro r hr hc
    obtain ⟨r, hrl, rfl⟩ := List.mem_map.1 hr
    have hr' := (hmem r).1 hrl
    exact hno r hr'.1 hr'.2 ⟨hord _ ((hmem s).2 ⟨s1, s2⟩) _ hrl hc.1, hord _ hrl _ ((hmem e).2 ⟨e1, e2⟩) hc.2⟩
  · intro s h1 h2 hmin hq
    have hle := piecewise_mono hq hi hsrt
    rw [hat s h1 h2] at hle
    refine le_antisymm hle ?_
    obtain ⟨p0, l0, hl⟩ := List.exists_cons_of_ne_nil hne'
    obtain ⟨r, r1, r2, r3⟩ := hout p0 (by rw [hl]; simp)
    exact le_trans (r3 ▸ hmin r r1 r2) (b1 p0 (by rw [hl]; rfl))
  · intro s h1 h2 hmax hq
    have hge := piecewise_mono hq hi hsrt
    rw [hat s h1 h2] at hge
    obtain ⟨r, r1, r2, r3⟩ := hout p hp
    exact le_antisymm (le_trans b2 (r3 ▸ hmax r r1 r2)) hge

example : (∀ s ∈ ([(3, 1), (1, 2), (7, 0), (2, 1)] : List (ℚ × ℚ)), 0 ≤ s.2) ∧
    (([(3, 1), (1, 2), (7, 0), (2, 1)] : List (ℚ × ℚ)).map Prod.fst).Nodup ∧
    percentOf [(3, 1), (1, 2), (7, 0), (2, 1)] (1, 2) = 25 ∧ percentOf [(3, 1), (1, 2), (7, 0), (2, 1)] (2, 1) = 125/2 ∧
    (5/3 : ℚ) = 1 + (50 - 25) / (125/2 - 25) * (2 - 1) := by decide +kernel

/-! ## C59 -/

/-- The claim of C59: the percentile does not depend on the order of the samples. -/
def C59_claim : Prop :=
  ∀ (samples samples' : List (ℚ × ℚ)) (q : ℚ), (∀ s ∈ samples, 0 ≤ s.2) → samples.Perm samples' →
    weightedPercentile samples q = weightedPercentile samples' q

/-- **C59 (partial).** For distinct outputs the percentile does not depend on the order of the samples. Missing: tied outputs. -/
theorem C59_order_partial {samples samples' : List (ℚ × ℚ)} (q : ℚ) (hd : (samples.map Prod.fst).Nodup) (hp : samples.Perm samples') :
    weightedPercentile samples q = weightedPercentile samples' q := by
  have hf := hp.filter fun s => decide (s.2 ≠ 0)
  have hs : sortSamples (samples.filter fun s => decide (s.2 ≠ 0)) = sortSamples (samples'.filter fun s => decide (s.2 ≠ 0)) := by
    have h1 := strict_of_nodup ((List.filter_sublist (p := fun s : ℚ × ℚ => decide (s.2 ≠ 0)).map Prod.fst).nodup hd)
    have h2 := strict_of_nodup ((List.filter_sublist (p := fun s : ℚ × ℚ => decide (s.2 ≠ 0)).map Prod.fst).nodup
      (((hp.map Prod.fst).nodup_iff).1 hd))
    exact ((sortSamples_perm _).trans (hf.trans (sortSamples_perm _).symm)).eq_of_pairwise
      (fun a b _ _ hab hba => absurd (lt_trans hab hba) (lt_irrefl _)) h1 h2
  have he : (samples.filter fun s => decide (s.2 ≠ 0)) = [] ↔ (samples'.filter fun s => decide (s.2 ≠ 0)) = [] := by
    constructor
    · intro h; rw [h] at hf; exact List.nil_perm.1 hf
    · intro h; rw [h] at hf; exact List.perm_nil.1 hf
  unfold weightedPercentile
  simp only [hs, he]

example : (([(3, 1), (1, 2), (2, 1)] : List (ℚ × ℚ)).map Prod.fst).Nodup ∧
    weightedPercentile [(3, 1), (1, 2), (2, 1)] 50 = weightedPercentile [(2, 1), (3, 1), (1, 2)] 50 := by decide +kernel

/-- **C59 is false with ties.** Two equal outputs of weights 1 and 3: their order moves the 75th percentile. -/
theorem C59_ties_false : ¬ C59_claim := by
  intro h
  have := h [(1, 1), (1, 3), (2, 1)] [(1, 3), (1, 1), (2, 1)] 75 (by decide +kernel) (List.Perm.swap _ _ _)
  revert this
  decide +kernel

/-! ## The quantile of the forest -/

theorem shaffWeight_nonneg (cells : List (List Nat)) (i : Nat) : 0 ≤ shaffWeight cells i := by
  unfold shaffWeight
  apply div_nonneg _ (Nat.cast_nonneg _)
  apply List.sum_nonneg
  intro w hw
  obtain ⟨c, -, rfl⟩ := List.mem_map.1 hw
  split
  · exact div_nonneg zero_le_one (Nat.cast_nonneg _)
  · exact le_rfl

theorem shaffWeight_pos {cells : List (List Nat)} {i : Nat} : 0 < shaffWeight cells i ↔ ∃ c ∈ cells, i ∈ c := by
  have hnn : ∀ w ∈ (cells.map fun c => if i ∈ c then 1 / (c.length : ℚ) else 0), 0 ≤ w := by
    intro w hw
    obtain ⟨c, -, rfl⟩ := List.mem_map.1 hw
    split
    · exact div_nonneg zero_le_one (Nat.cast_nonneg _)
    · exact le_rfl
  constructor
  · intro h
    by_contra hc
    push Not at hc
    have : (cells.map fun c => if i ∈ c then 1 / (c.length : ℚ) else 0).sum = 0 := by
      apply List.sum_eq_zero
      intro w hw
      obtain ⟨c, h1, rfl⟩ := List.mem_map.1 hw
      rw [if_neg (hc c h1)]
    unfold shaffWeight at h
    rw [this, zero_div] at h
    exact lt_irrefl _ h
  · rintro ⟨c, hc, hi⟩
    unfold shaffWeight
    apply div_pos
    · have hlen : 0 < (c.length : ℚ) := Nat.cast_pos.2 (List.length_pos_of_mem hi)
      refine lt_of_lt_of_le (div_pos one_pos hlen) ?_
      apply List.single_le_sum hnn
      exact List.mem_map.2 ⟨c, hc, by rw [if_pos hi]⟩
    · exact Nat.cast_pos.2 (List.length_pos_of_mem hc)

/-- **C45, `compute_quantile_shaff`.** With `1 <= min_node_size <= N` a quantile is returned for every valid `q`, it lies between the outputs
of two background rows that share a cell with the instance in some tree, and it is non-decreasing in `q`. -/
theorem C45_forest (mems : List Mem) (hm : mems ≠ []) (S : List Nat) (x : Row) (data : Nat → Row) (y : Nat → ℚ) {minSize N : Nat}
    (maxDepth : Nat) (h1 : 1 ≤ minSize) (h2 : minSize ≤ N) {q : ℚ} (hq : 0 ≤ q ∧ q ≤ 100) :
    ∃ v, shaffQuantile mems S x data y minSize maxDepth N q = .ok v ∧
      (∃ mem ∈ mems, ∃ i ∈ mem.cellPy S x data minSize maxDepth N, i < N ∧ y i ≤ v) ∧
      (∃ mem ∈ mems, ∃ i ∈ mem.cellPy S x data minSize maxDepth N, i < N ∧ v ≤ y i) ∧
      ∀ q' v', q ≤ q' → shaffQuantile mems S x data y minSize maxDepth N q' = .ok v' → v ≤ v' := by
  unfold shaffQuantile
  simp only [C45_sorter]
  generalize hs : (List.range N).map (fun i =>
    (y i, shaffWeight (mems.map fun mem => mem.cellPy S x data minSize maxDepth N) i)) = samples
  have hw : ∀ s ∈ samples, 0 ≤ s.2 := by
    intro s h
    rw [← hs] at h
    obtain ⟨i, -, rfl⟩ := List.mem_map.1 h
    exact shaffWeight_nonneg _ _
  have hcell : ∀ s ∈ samples, 0 < s.2 → ∃ mem ∈ mems, ∃ i ∈ mem.cellPy S x data minSize maxDepth N, i < N ∧ s.1 = y i := by
    intro s h hp
    rw [← hs] at h
    obtain ⟨i, hi, rfl⟩ := List.mem_map.1 h
    obtain ⟨c, hc, hic⟩ := shaffWeight_pos.1 hp
    obtain ⟨mem, hmem, rfl⟩ := List.mem_map.1 hc
    exact ⟨mem, hmem, i, hic, List.mem_range.1 hi, rfl⟩
  obtain ⟨mem, l0, rfl⟩ := List.exists_cons_of_ne_nil hm
  have hc := C23_python_min_size mem S x data minSize maxDepth N h2
  obtain ⟨i, hi⟩ := List.exists_mem_of_length_pos (lt_of_lt_of_le h1 hc.1)
  obtain ⟨v, hv⟩ := (C45_defined samples q).2 ⟨hq, _, by
    rw [← hs]; exact List.mem_map.2 ⟨i, List.mem_range.2 (hc.2 i hi), rfl⟩, ne_of_gt (shaffWeight_pos.2 ⟨_, List.mem_map.2 ⟨mem, List.mem_cons_self, rfl⟩, hi⟩)⟩
  refine ⟨v, hv, ?_, ?_, ?_⟩
  · obtain ⟨s, a, b, c⟩ := (C45_range hw hv).1
    obtain ⟨mem, d, i, e, f, g⟩ := hcell s a b
    exact ⟨mem, d, i, e, f, g ▸ c⟩
  · obtain ⟨s, a, b, c⟩ := (C45_range hw hv).2
    obtain ⟨mem, d, i, e, f, g⟩ := hcell s a b
    exact ⟨mem, d, i, e, f, g ▸ c⟩
  · intro q' v' hqq hv'
    exact C45_monotone hw hqq hv hv'

example : shaffQuantile [Mem.ofTree rootSplit leafJunk] [0] (fun _ => 0) diag (fun i => diag i 0) 1 1 4 50 = .ok (1/2) ∧
    shaffQuantile [Mem.ofTree rootSplit leafJunk] [0] (fun _ => 0) diag (fun i => diag i 0) 3 1 4 50 = .ok (3/2) := by
  decide +kernel

end Acv
