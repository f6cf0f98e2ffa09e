import Verif.Lemmas.Swing
import Verif.Lemmas.Shapley
import Mathlib.Tactic.Linarith

/-!
# C46, C60: swing Shapley values
-/

namespace Acv

/-- **C46, parts.** Whatever the value function and the players, the positive and the negative part add up to the value. -/
theorem C46_parts (players : List (List Nat)) (diff : List Nat → List Nat → ℚ) (j : Nat) :
    (swing players diff j).pos + (swing players diff j).neg = (swing players diff j).phi :=
  swing_parts _ _ _ _

/-- **C46, signs.** The positive part is not negative, the negative part not positive, and a part is zero when no coalition counts in it. -/
theorem C46_signs {m : Nat} {C : List (List Nat)} (hC : ValidGroups m C) (hlen : (playerSet m C).card ≤ 32)
    (diff : List Nat → List Nat → ℚ) (j : Nat) :
    0 ≤ (swing (playersCy m C) diff j).pos ∧ (swing (playersCy m C) diff j).neg ≤ 0 ∧
    ((swing (playersCy m C) diff j).nPos = 0 → (swing (playersCy m C) diff j).pos = 0) ∧
    ((swing (playersCy m C) diff j).nNeg = 0 → (swing (playersCy m C) diff j).neg = 0) := by
  obtain ⟨hnd, -, -, hset⟩ := players_facts hC
  have hcard : (playerSet m C).card = (playersCy m C).length := by rw [← hset, List.toFinset_card_of_nodup hnd]
  have hb : ∀ s, 0 ≤ 1 / binomialC ((playersCy m C).length - 1) s := fun s => by
    rw [binomialC_eq (by unfold ulongMax; omega)]
    exact div_nonneg zero_le_one (Nat.cast_nonneg _)
  unfold swing
  simp only
  refine ⟨?_, ?_, ?_, ?_⟩
  · apply List.sum_nonneg
    intro a ha
    obtain ⟨v, -, rfl⟩ := List.mem_map.1 ha
    refine div_nonneg (mul_nonneg ?_ (hb _)) (Nat.cast_nonneg _)
    split
    · rename_i h; rw [one_mul]; exact le_of_lt h
    · simp
  · rw [← neg_nonneg, List.sum_neg]
    apply List.sum_nonneg
    intro a ha
    obtain ⟨b, hb', rfl⟩ := List.mem_map.1 ha
    obtain ⟨v, -, rfl⟩ := List.mem_map.1 hb'
    rw [← neg_div, ← neg_mul]
    refine div_nonneg (mul_nonneg ?_ (hb _)) (Nat.cast_nonneg _)
    split
    · rename_i h; rw [one_mul]; linarith
    · simp
  · intro h
    rw [List.length_eq_zero_iff, List.filter_eq_nil_iff] at h
    apply List.sum_eq_zero
    intro a ha
    obtain ⟨v, hv, rfl⟩ := List.mem_map.1 ha
    have := h v hv
    simp only [decide_eq_true_eq] at this
    rw [if_neg this]
    simp
  · intro h
    rw [List.length_eq_zero_iff, List.filter_eq_nil_iff] at h
    apply List.sum_eq_zero
    intro a ha
    obtain ⟨v, hv, rfl⟩ := List.mem_map.1 ha
    have := h v hv
    simp only [decide_eq_true_eq] at this
    rw [if_neg this]
    simp

/-- **C46, counts.** For every column, the three counts add up to the number of coalitions of the other players. -/
theorem C46_counts {m : Nat} {C : List (List Nat)} (hC : ValidGroups m C) (hlen : (playerSet m C).card ≤ 32)
    (diff : List Nat → List Nat → ℚ) {j : Nat} (hj : j < m) :
    (swing (playersCy m C) diff j).nPos + (swing (playersCy m C) diff j).nNeg + (swing (playersCy m C) diff j).nNull =
      2 ^ ((playerSet m C).card - 1) := by
  obtain ⟨hnd, hpd, hn, hset⟩ := players_facts hC
  have hcard : (playerSet m C).card = (playersCy m C).length := by rw [← hset, List.toFinset_card_of_nodup hnd]
  obtain ⟨g, hg, hjg⟩ := playerSet_cover (C := C) hj
  have hgm : g ∈ playersCy m C := (playersCy_spec hC).2 g |>.2 hg
  have := swing_counts (swingVisits (playersCy m C) j) fun v => diff v.2.flatten v.1
  unfold swing
  simp only
  rw [this, swingVisits_eq hnd hpd hn (by omega) hgm hjg, List.length_map, List.length_range, List.length_erase_of_mem hgm, hcard]

/-- **C46, each coalition once.** The coalitions behind the cells of column `j` are, each exactly once, the sets of players other than the
player of `j`. -/
theorem C46_coalitions {m : Nat} {C : List (List Nat)} (hC : ValidGroups m C) (hlen : (playerSet m C).card ≤ 32)
    {g : List Nat} (hg : g ∈ playerSet m C) {j : Nat} (hj : j ∈ g) (F : Finset (List Nat) → ℚ) :
    ((swingVisits (playersCy m C) j).map fun v => F v.2.toFinset).sum = ∑ T ∈ ((playerSet m C).erase g).powerset, F T := by
  obtain ⟨hnd, hpd, hn, hset⟩ := players_facts hC
  have hcard : (playerSet m C).card = (playersCy m C).length := by rw [← hset, List.toFinset_card_of_nodup hnd]
  have hgm : g ∈ playersCy m C := (playersCy_spec hC).2 g |>.2 hg
  rw [swingVisits_eq hnd hpd hn (by omega) hgm hj, List.map_map]
  have := mask_sum ((playersCy m C).erase g) (hnd.erase g) (fun sel => F sel.toFinset) F (fun _ _ => rfl)
  have herase : ((playersCy m C).erase g).toFinset = (playerSet m C).erase g := by
    rw [← hset]
    ext c; simp [hnd.mem_erase_iff]
  rw [herase] at this
  exact this

/-- **C60, value.** `swing_sv_clf_slow` returns the Shapley value of the game in which a coalition wins when its same decision probability
reaches the threshold, for every forest, background data and observation off the split values. -/
theorem C60_shapley_partial {ts : List TreeArr} {m : Nat} (hts : ∀ t ∈ ts, WellFormed t m) {lab : Row → Nat} {data : List Row} {thr : ℚ} {x : Row}
    {C : List (List Nat)} (hC : ValidGroups m C) (hlen : (playerSet m C).card ≤ 32) (hx : ∀ t ∈ ts, OffSplits t x)
    (hd : ∀ t ∈ ts, ∀ z ∈ data, OffSplits t z) {g : List Nat} (hg : g ∈ playerSet m C) {j : Nat} (hj : j ∈ g) :
    (swingSlow ts m lab data C thr x j).phi = shapley (playerSet m C) (swingGame ts m lab data (playerSet m C) thr x) g := by
  refine swing_shapley hC hlen ?_ hg hj
  intro g hg sel hs
  rw [swing_diff_wins hC hg hs]
  obtain ⟨-, -, -, hmem⟩ := sel_nodup hC hg hs
  have hsub : sel.toFinset ⊆ playerSet m C := fun c hc => (hmem c (List.mem_toFinset.1 hc)).1
  rw [winsOf_eq hts hC hx hd hsub, winsOf_eq hts hC hx hd (Finset.insert_subset hg hsub)]

/-- **C60, efficiency.** The values of `swing_sv_clf_slow` add up to 1 over the players, for every forest, data, observation and threshold. -/
theorem C60_efficiency (ts : List TreeArr) {m : Nat} (hm : 0 < m) (lab : Row → Nat) (data : List Row) (thr : ℚ) (x : Row)
    {C : List (List Nat)} (hC : ValidGroups m C) (hlen : (playerSet m C).card ≤ 32) (col : List Nat → Nat)
    (hcol : ∀ g ∈ playerSet m C, col g ∈ g) :
    ∑ g ∈ playerSet m C, (swingSlow ts m lab data C thr x (col g)).phi = 1 := by
  have h : ∀ g ∈ playerSet m C, (swingSlow ts m lab data C thr x (col g)).phi = shapley (playerSet m C) (winsOf ts m lab data thr x) g :=
    fun g hg => swing_shapley hC hlen (fun g hg sel hs => swing_diff_wins hC hg hs) hg (hcol g hg)
  rw [Finset.sum_congr rfl h, shapley_efficiency]
  have h1 : winsOf ts m lab data thr x (playerSet m C) = 1 := by
    unfold winsOf swingWins
    rw [if_pos]
    rw [Finset.length_toList]
    exact (colsOf_all_iff hC (Finset.Subset.refl _)).2 rfl
  have h2 : winsOf ts m lab data thr x ∅ = 0 := by
    unfold winsOf swingWins
    have e : (colsOf ∅).toList.length = 0 := by
      rw [Finset.length_toList]; simp [colsOf]
    rw [if_neg (by omega), if_pos e]
  rw [h1, h2]
  norm_num

/-! ## The direct version -/

/-- Four leaves, one per quadrant; the class of the observation has probability 1 in two opposite quadrants and 0 in the others. -/
def exQuad : TreeArr where
  size := 7
  left := fun n => [1, 3, 5, -1, -1, -1, -1].getD n (-1)
  right := fun n => [2, 4, 6, -1, -1, -1, -1].getD n (-1)
  dflt := fun n => [1, 3, 5, -1, -1, -1, -1].getD n (-1)
  feature := fun n => [0, 1, 1, -2, -2, -2, -2].getD n (-2)
  threshold := fun n => [1 / 2, 1 / 2, 1 / 2].getD n 0
  value := fun n k => if k = 1 then [0, 0, 0, 1, 0, 0, 1].getD n 0 else [0, 0, 0, 0, 1, 1, 0].getD n 0
  weight := fun n => [4, 2, 2, 1, 1, 1, 1].getD n 0

/-- The class the tree predicts. -/
def exQuadLab (z : Row) : Nat := if (z 0 ≤ 1 / 2 ↔ z 1 ≤ 1 / 2) then 1 else 0

/-- One row per quadrant. -/
def exQuadData : List Row := [fun _ => 0, fun j => if j = 0 then 0 else 1, fun j => if j = 0 then 1 else 0, fun _ => 1]

theorem exQuad_wf : WellFormed exQuad 2 :=
  ⟨.node 0 0 (1 / 2) (.node 1 1 (1 / 2) (.leaf 3) (.leaf 4)) (.node 2 1 (1 / 2) (.leaf 5) (.leaf 6)), rfl,
    by refine ⟨?_, ?_, ?_, ?_, ?_, ⟨?_, ?_, ?_, ?_, ?_, ⟨?_, ?_⟩, ⟨?_, ?_⟩⟩, ⟨?_, ?_, ?_, ?_, ?_, ⟨?_, ?_⟩, ⟨?_, ?_⟩⟩⟩ <;> decide +kernel,
    by decide, by intro n; simp only [BTree.ids, exQuad, List.mem_cons, List.mem_append, List.not_mem_nil, or_false]; omega, by decide⟩

example : ValidGroups 2 [[]] ∧ (playerSet 2 [[]]).card ≤ 32 ∧ [0] ∈ playerSet 2 [[]] ∧
    (swingSlow [exQuad] 2 exQuadLab exQuadData [[]] (9 / 10) (fun _ => 0) 0) = ⟨1 / 2, 1 / 2, 0, 1, 0, 1⟩ :=
  ⟨Or.inl rfl, by decide, by decide, by decide +kernel⟩

/-- The claim that `swing_sv_clf` is efficient, as Shapley values of any game with a losing empty and a winning full coalition are. -/
def C60_direct_claim (junk : List Nat → List Nat → ℚ × ℚ × ℚ) : Prop :=
  ∀ (ts : List TreeArr) (m : Nat) (lab : Row → Nat) (data : List Row) (thr : ℚ) (x : Row), 0 < m → m ≤ 32 → (∀ t ∈ ts, WellFormed t m) →
    ((List.range m).map fun j => (swingDirect junk ts m lab data [[]] thr x j).phi).sum = 1

/-- The content of an unset variable counts only through the test `!= 0`. -/
def junkBit (q : ℚ) : ℚ := if q = 0 then 0 else 1

theorem junkBit_ne (q : ℚ) : (junkBit q ≠ 0) = (q ≠ 0) := by
  unfold junkBit
  split <;> simp_all

theorem swingDiff_junk (junk : ℚ × ℚ × ℚ) (ts : List TreeArr) (m : Nat) (lab : Row → Nat) (data : List Row) (thr : ℚ) (x : Row) (S va : List Nat) :
    swingDiff junk ts m lab data thr x S va =
      swingDiff (junkBit junk.1, junkBit junk.2.1, junkBit junk.2.2) ts m lab data thr x S va := by
  have h : ∀ (q r : ℚ), decide ((if S.length = 0 then q else r) ≠ 0) = decide ((if S.length = 0 then junkBit q else r) ≠ 0) := by
    intro q r
    by_cases hS : S.length = 0
    · simp only [if_pos hS, junkBit_ne]
    · simp only [if_neg hS]
  unfold swingDiff
  simp only [← h]

/-- In the example no coalition of `swing_sv_clf` counts, whatever the unset variables hold. -/
theorem exQuad_direct (junk : List Nat → List Nat → ℚ × ℚ × ℚ) (j : Nat) (hj : j < 2) :
    (swingDirect junk [exQuad] 2 exQuadLab exQuadData [[]] (9 / 10) (fun _ => 0) j).phi = 0 := by
  have key : ∀ a b c : Bool, ∀ S ∈ [[], [0], [1]], ∀ va ∈ [[0], [1]], S ≠ va →
      swingDiff ((if a then 0 else 1), (if b then 0 else 1), (if c then 0 else 1)) [exQuad] 2 exQuadLab exQuadData (9 / 10) (fun _ => 0) S va = 0 := by
    decide +kernel
  have zero : ∀ S ∈ [[], [0], [1]], ∀ va ∈ [[0], [1]], S ≠ va →
      swingDiff (junk S va) [exQuad] 2 exQuadLab exQuadData (9 / 10) (fun _ => 0) S va = 0 := by
    intro S hS va hva hne
    rw [swingDiff_junk]
    have := key (decide ((junk S va).1 = 0)) (decide ((junk S va).2.1 = 0)) (decide ((junk S va).2.2 = 0)) S hS va hva hne
    simpa only [junkBit, decide_eq_true_eq] using this
  unfold swingDirect swing
  simp only
  rw [List.sum_eq_zero]
  · simp
  · intro a ha
    obtain ⟨v, hv, rfl⟩ := List.mem_map.1 ha
    have hvis : ∀ j < 2, ∀ v ∈ swingVisits (playersCy 2 [[]]) j,
        v.2.flatten ∈ [[], [0], [1]] ∧ v.1 ∈ [[0], [1]] ∧ v.2.flatten ≠ v.1 := by decide
    obtain ⟨h1, h2, h3⟩ := hvis j hj v hv
    rw [zero _ h1 _ h2 h3, mul_zero]

/-- **C60, negation for the direct version.** Whatever the unset variables hold, the values of `swing_sv_clf` need not add up to 1. -/
theorem C60_direct_false (junk : List Nat → List Nat → ℚ × ℚ × ℚ) : ¬ C60_direct_claim junk := by
  intro h
  have := h [exQuad] 2 exQuadLab exQuadData (9 / 10) (fun _ => 0) (by decide) (by decide) (by simpa using exQuad_wf)
  simp [List.range_succ, exQuad_direct junk 0 (by decide), exQuad_direct junk 1 (by decide)] at this

end Acv
