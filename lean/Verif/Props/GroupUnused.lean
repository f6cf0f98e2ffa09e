import Verif.Props.GroupOrder
import Verif.Lemmas.Unused

/-!
# C139: grouping matters only among the columns that the model uses
-/

namespace Acv

/-- Two columns belong together: they are the same column or in the same group. -/
def Together (C : List (List Nat)) (i j : Nat) : Prop := i = j ∨ ∃ g ∈ C, i ∈ g ∧ j ∈ g

/-- The two groupings put the same used columns together. -/
def SameUsedGroups (ts : List TreeArr) (C C' : List (List Nat)) : Prop :=
  ∀ i j, UsesColumn ts i → UsesColumn ts j → (Together C i j ↔ Together C' i j)

theorem together_player {m : Nat} {C : List (List Nat)} (hC : ValidGroups m C) {g : List Nat} (hg : g ∈ playerSet m C) {i j : Nat} (hi : i ∈ g) :
    Together C i j ↔ j ∈ g := by
  constructor
  · rintro (rfl | ⟨h, hh, h1, h2⟩)
    · exact hi
    · have hp : h ∈ playerSet m C := mem_playerSet.2 (Or.inl ⟨hh, fun e => by simp [e] at h1⟩)
      rwa [playerSet_disjoint hC hg hp hi h1]
  · intro hj
    rcases mem_playerSet.1 hg with ⟨h1, -⟩ | ⟨a, -, -, rfl⟩
    · exact Or.inr ⟨g, h1, hi, hj⟩
    · left
      rw [List.mem_singleton.1 hi, List.mem_singleton.1 hj]

theorem leafShare_used {ts : List TreeArr} {m : Nat} (hts : ∀ t ∈ ts, WellFormed t m) (data : List Row) (x : Row) {t : TreeArr} (ht : t ∈ ts)
    {ℓ : Nat} (hℓ : ℓ ∈ t.leafIdx) {S T : Finset (List Nat)} (h : ∀ s, UsesColumn ts s → ((∃ g ∈ S, s ∈ g) ↔ ∃ g ∈ T, s ∈ g)) :
    leafShare m data (t.leafRect ℓ) x S = leafShare m data (t.leafRect ℓ) x T := by
  have key : ∀ {r : Rect}, (∀ s, ¬ UsesColumn ts s → r s = Ival.all) → ∀ {S T : Finset (List Nat)},
      (∀ s, UsesColumn ts s → ((∃ g ∈ S, s ∈ g) ↔ ∃ g ∈ T, s ∈ g)) → ∀ z, AgreesOn r S z → AgreesOn r T z := by
    intro r hr S T h z hS g hg s hs
    by_cases hu : UsesColumn ts s
    · obtain ⟨g', hg', hs'⟩ := (h s hu).2 ⟨g, hg, hs⟩
      exact hS g' hg' s hs'
    · rw [hr s hu]
      simp [Ival.all]
  have hr : ∀ s, ¬ UsesColumn ts s → t.leafRect ℓ s = Ival.all := fun s hs => leafRect_unused hts ht hℓ s hs
  have e : AgreesOn (t.leafRect ℓ) S = AgreesOn (t.leafRect ℓ) T :=
    funext fun z => propext ⟨key hr h z, key hr (fun s hs => (h s hs).symm) z⟩
  have gen : ∀ A B : Row → Prop, A = B → ∀ n : ℚ, (open Classical in (if A x then n / ((data.filter fun z => A z).length : ℚ) else 0)) =
      (open Classical in (if B x then n / ((data.filter fun z => B z).length : ℚ) else 0)) := by
    rintro A _ rfl n; rfl
  exact gen _ _ e _

theorem leafGame_used {ts : List TreeArr} {m : Nat} (hts : ∀ t ∈ ts, WellFormed t m) (data : List Row) (x : Row) (k : Nat)
    {S T : Finset (List Nat)} (h : ∀ s, UsesColumn ts s → ((∃ g ∈ S, s ∈ g) ↔ ∃ g ∈ T, s ∈ g)) :
    leafGame ts m data x k S = leafGame ts m data x k T := by
  unfold leafGame
  refine congrArg List.sum (List.map_congr_left fun t ht => congrArg List.sum (List.map_congr_left fun ℓ hℓ => ?_))
  rw [leafShare_used hts data x ht hℓ h]

open Classical in
/-- The used columns of a player. -/
noncomputable def usedOf (ts : List TreeArr) (g : List Nat) : Finset Nat := g.toFinset.filter (UsesColumn ts)

theorem mem_usedOf {ts : List TreeArr} {g : List Nat} {s : Nat} : s ∈ usedOf ts g ↔ s ∈ g ∧ UsesColumn ts s := by
  simp [usedOf]

open Classical in
/-- The players with a used column. -/
noncomputable def usedPlayers (ts : List TreeArr) (m : Nat) (C : List (List Nat)) : Finset (List Nat) :=
  (playerSet m C).filter fun g => ∃ s ∈ g, UsesColumn ts s

theorem mem_usedPlayers {ts : List TreeArr} {m : Nat} {C : List (List Nat)} {g : List Nat} :
    g ∈ usedPlayers ts m C ↔ g ∈ playerSet m C ∧ ∃ s ∈ g, UsesColumn ts s := by
  classical
  simp [usedPlayers]

/-- The coalition with all unused columns removed from its players. -/
noncomputable def trimmed (ts : List TreeArr) (S : Finset (List Nat)) : Finset (List Nat) := (S.image (usedOf ts)).image Finset.toList

theorem trimmed_cols (ts : List TreeArr) (S : Finset (List Nat)) {s : Nat} (hs : UsesColumn ts s) :
    (∃ g ∈ S, s ∈ g) ↔ ∃ g ∈ trimmed ts S, s ∈ g := by
  constructor
  · rintro ⟨a, ha, hsa⟩
    exact ⟨(usedOf ts a).toList, Finset.mem_image_of_mem _ (Finset.mem_image_of_mem _ ha), Finset.mem_toList.2 (mem_usedOf.2 ⟨hsa, hs⟩)⟩
  · rintro ⟨b, hb, hsb⟩
    obtain ⟨c, hc, rfl⟩ := Finset.mem_image.1 hb
    obtain ⟨a, ha, rfl⟩ := Finset.mem_image.1 hc
    exact ⟨a, ha, (mem_usedOf.1 (Finset.mem_toList.1 hsb)).1⟩

theorem shapley_usedOf {ts : List TreeArr} {m : Nat} {C : List (List Nat)} (hC : ValidGroups m C) {v : Finset (List Nat) → ℚ}
    (hv : ∀ S, v S = v (trimmed ts S)) (hn : ∀ a : List Nat, (∀ s ∈ a, ¬ UsesColumn ts s) → ∀ S, v (insert a S) = v S)
    {g : List Nat} (hg : g ∈ playerSet m C) {j : Nat} (hj : j ∈ g) (hu : UsesColumn ts j) :
    shapley (playerSet m C) v g = shapley ((usedPlayers ts m C).image (usedOf ts)) (fun T => v (T.image Finset.toList)) (usedOf ts g) := by
  have hgL : g ∈ usedPlayers ts m C := mem_usedPlayers.2 ⟨hg, j, hj, hu⟩
  rw [shapley_restrict (L := usedPlayers ts m C) (fun _ ha => (mem_usedPlayers.1 ha).1) hgL]
  · refine shapley_image ?_ (fun S _ => hv S) hgL
    intro a ha b hb e
    obtain ⟨ha1, s, hs, hus⟩ := mem_usedPlayers.1 (Finset.mem_coe.1 ha)
    obtain ⟨hb1, -⟩ := mem_usedPlayers.1 (Finset.mem_coe.1 hb)
    have : s ∈ usedOf ts b := e ▸ mem_usedOf.2 ⟨hs, hus⟩
    exact playerSet_disjoint hC ha1 hb1 hs (mem_usedOf.1 this).1
  · exact fun a ha haL S => hn a (fun s hs hu => haL (mem_usedPlayers.2 ⟨ha, s, hs, hu⟩)) S

theorem usedPlayers_sub {ts : List TreeArr} {m : Nat} {C C' : List (List Nat)} (hC : ValidGroups m C)
    (hC' : ValidGroups m C') (h : SameUsedGroups ts C C') {a b : List Nat} (ha : a ∈ playerSet m C) (hb : b ∈ playerSet m C') {s : Nat}
    (hsa : s ∈ a) (hsb : s ∈ b) (hu : UsesColumn ts s) : usedOf ts a = usedOf ts b := by
  ext i
  rw [mem_usedOf, mem_usedOf]
  constructor
  · rintro ⟨h1, h2⟩
    exact ⟨(together_player hC' hb hsb).1 ((h s i hu h2).1 ((together_player hC ha hsa).2 h1)), h2⟩
  · rintro ⟨h1, h2⟩
    exact ⟨(together_player hC ha hsa).1 ((h s i hu h2).2 ((together_player hC' hb hsb).2 h1)), h2⟩

theorem shapley_usedGroups {ts : List TreeArr} {m : Nat} (hts : ∀ t ∈ ts, WellFormed t m) {C C' : List (List Nat)} (hC : ValidGroups m C)
    (hC' : ValidGroups m C') (h : SameUsedGroups ts C C') {v : Finset (List Nat) → ℚ}
    (hv : ∀ S, v S = v (trimmed ts S)) (hn : ∀ a : List Nat, (∀ s ∈ a, ¬ UsesColumn ts s) → ∀ S, v (insert a S) = v S)
    {g g' : List Nat} (hg : g ∈ playerSet m C) (hg' : g' ∈ playerSet m C') {j : Nat} (hjg : j ∈ g) (hjg' : j ∈ g') (hj : UsesColumn ts j) :
    shapley (playerSet m C) v g = shapley (playerSet m C') v g' := by
  rw [shapley_usedOf hC hv hn hg hjg hj, shapley_usedOf hC' hv hn hg' hjg' hj, usedPlayers_sub hC hC' h hg hg' hjg hjg' hj]
  have sub : ∀ {C C' : List (List Nat)}, ValidGroups m C → ValidGroups m C' → SameUsedGroups ts C C' →
      (usedPlayers ts m C).image (usedOf ts) ⊆ (usedPlayers ts m C').image (usedOf ts) := by
    intro C C' hC hC' h T hT
    obtain ⟨a, ha, rfl⟩ := Finset.mem_image.1 hT
    obtain ⟨ha1, s, hsa, hu⟩ := mem_usedPlayers.1 ha
    obtain ⟨b, hb, hsb⟩ := playerSet_cover (C := C') (usesColumn_lt hts hu)
    rw [usedPlayers_sub hC hC' h ha1 hb hsa hsb hu]
    exact Finset.mem_image_of_mem _ (mem_usedPlayers.2 ⟨hb, s, hsb, hu⟩)
  rw [Finset.Subset.antisymm (sub hC hC' h) (sub hC' hC fun i j hi hj => (h i j hi hj).symm)]

/-- **C139**: two groupings that put the same used columns together give every used column the same value. -/
theorem C139_groups {ts : List TreeArr} {m : Nat} (hts : ∀ t ∈ ts, WellFormed t m) {data : List Row} (hdata : data ≠ [])
    {C C' : List (List Nat)} (hC : ValidGroups m C) (hC' : ValidGroups m C') (h : SameUsedGroups ts C C') (hm : m < ulongMax) (x : Row) (k : Nat)
    {j : Nat} (hj : UsesColumn ts j) : shapCy ts m data C x j k = shapCy ts m data C' x j k := by
  have hjm := usesColumn_lt hts hj
  obtain ⟨g, hg, hjg⟩ := playerSet_cover (C := C) hjm
  obtain ⟨g', hg', hjg'⟩ := playerSet_cover (C := C') hjm
  rw [C06_leaf_estimator_is_shapley_value hts hdata hC hm x k hg hjg, C06_leaf_estimator_is_shapley_value hts hdata hC' hm x k hg' hjg']
  refine shapley_usedGroups hts hC hC' h (fun S => leafGame_used hts data x k fun s hs => trimmed_cols ts S hs) (fun a ha S => ?_) hg hg' hjg hjg' hj
  refine leafGame_used hts data x k fun s hs => ?_
  have : s ∉ a := fun hc => ha s hc hs
  simp [this]

theorem leafCols_used {ts : List TreeArr} {m : Nat} (hts : ∀ t ∈ ts, WellFormed t m) {t : TreeArr} (ht : t ∈ ts) {ℓ : Nat}
    (hℓ : ℓ ∈ t.leafIdx) {s : Nat} (hs : s ∈ t.leafCols ℓ) : UsesColumn ts s := by
  obtain ⟨f, hf, rfl⟩ := List.mem_map.1 hs
  obtain ⟨b, hb⟩ := hts t ht
  obtain ⟨k, p, hk, ha, rfl⟩ := (leafVars_iff hb ((leafIdx_iff hb _).1 hℓ) f).1 hf
  obtain ⟨h1, h2, h3⟩ := above_internal (hts t ht) hk ha
  exact ⟨t, ht, p, h1, h2, by omega⟩

/-- **C139, normalised values**: the same for `shap_values_normalized`. -/
theorem C139_normalized {ts : List TreeArr} {m : Nat} (hts : ∀ t ∈ ts, WellFormed t m) {data : List Row} (hdata : data ≠ [])
    (hcov : LeavesCovered ts data) {C C' : List (List Nat)} (hC : ValidGroups m C) (hC' : ValidGroups m C') (h : SameUsedGroups ts C C')
    (hm : m < ulongMax) (x : Row) (k : Nat) {j : Nat} (hj : UsesColumn ts j) : shapNorm ts m data C x j k = shapNorm ts m data C' x j k := by
  have hjm := usesColumn_lt hts hj
  obtain ⟨g, hg, hjg⟩ := playerSet_cover (C := C) hjm
  obtain ⟨g', hg', hjg'⟩ := playerSet_cover (C := C') hjm
  rw [C73_is_shapley_value hts hdata hcov hC hm x k hg hjg, C73_is_shapley_value hts hdata hcov hC' hm x k hg' hjg']
  refine shapley_usedGroups hts hC hC' h (fun S => ?_) (fun a ha S => ?_) hg hg' hjg hjg' hj
  · unfold leafwiseNormGame
    refine congrArg List.sum (List.map_congr_left fun t ht => congrArg List.sum (List.map_congr_left fun ℓ hℓ => ?_))
    have e : touching t ℓ (trimmed ts S) = trimmed ts (touching t ℓ S) := by
      ext b
      unfold touching trimmed
      simp only [Finset.mem_filter, Finset.mem_image]
      constructor
      · rintro ⟨⟨c, ⟨a, ha, rfl⟩, rfl⟩, s, hs, hsl⟩
        exact ⟨_, ⟨a, ⟨ha, s, (mem_usedOf.1 (Finset.mem_toList.1 hs)).1, hsl⟩, rfl⟩, rfl⟩
      · rintro ⟨c, ⟨a, ⟨ha, s, hs, hsl⟩, rfl⟩, rfl⟩
        exact ⟨⟨_, ⟨a, ha, rfl⟩, rfl⟩, s, Finset.mem_toList.2 (mem_usedOf.2 ⟨hs, leafCols_used hts ht hℓ hsl⟩), hsl⟩
    rw [e]
    have hsh : ∀ ℓ' ∈ t.leafIdx, leafShare m data (t.leafRect ℓ') x (touching t ℓ S) =
        leafShare m data (t.leafRect ℓ') x (trimmed ts (touching t ℓ S)) :=
      fun ℓ' hℓ' => leafShare_used hts data x ht hℓ' fun s hs => trimmed_cols ts _ hs
    unfold normShare
    rw [hsh ℓ hℓ, List.map_congr_left hsh]
  · unfold leafwiseNormGame
    refine congrArg List.sum (List.map_congr_left fun t ht => congrArg List.sum (List.map_congr_left fun ℓ hℓ => ?_))
    have e : touching t ℓ (insert a S) = touching t ℓ S := by
      unfold touching
      rw [Finset.filter_insert, if_neg]
      rintro ⟨s, hs, hsl⟩
      exact ha s hs (leafCols_used hts ht hℓ hsl)
    rw [e]

/-- **C139, unused companions**: if no group has two used columns, the used columns get the values they get without groups, and their
companions in the group get them too. -/
theorem C139_companions {ts : List TreeArr} {m : Nat} (hts : ∀ t ∈ ts, WellFormed t m) {data : List Row} (hdata : data ≠ [])
    {C : List (List Nat)} (hC : ValidGroups m C) (h : ∀ g ∈ C, ∀ i ∈ g, ∀ j ∈ g, UsesColumn ts i → UsesColumn ts j → i = j)
    (hm : m < ulongMax) (x : Row) (k : Nat) {j : Nat} (hj : UsesColumn ts j) :
    shapCy ts m data C x j k = shapCy ts m data [[]] x j k ∧
      ∀ g ∈ C, j ∈ g → ∀ i ∈ g, shapCy ts m data C x i k = shapCy ts m data [[]] x j k := by
  have e : shapCy ts m data C x j k = shapCy ts m data [[]] x j k := by
    refine C139_groups hts hdata hC (Or.inl rfl) (fun a b ha hb => ?_) hm x k hj
    constructor
    · rintro (rfl | ⟨g, hg, h1, h2⟩)
      · exact Or.inl rfl
      · exact Or.inl (h g hg a h1 b h2 ha hb)
    · rintro (rfl | ⟨g, hg, h1, h2⟩)
      · exact Or.inl rfl
      · simp at hg
        simp [hg] at h1
  refine ⟨e, fun g hg hjg i hi => ?_⟩
  have hp : g ∈ playerSet m C := mem_playerSet.2 (Or.inl ⟨hg, fun e => by simp [e] at hjg⟩)
  rw [← e, C06_leaf_estimator_is_shapley_value hts hdata hC hm x k hp hi, C06_leaf_estimator_is_shapley_value hts hdata hC hm x k hp hjg]

/-- `exTree` uses the columns 0 and 1 of three: the group of 1 and 2 changes nothing. -/
example : ValidGroups 3 [[2, 1]] ∧ (∀ j, UsesColumn [exTree] j → j = 0 ∨ j = 1) ∧ UsesColumn [exTree] 1 ∧
    shapCy [exTree] 3 exData2 [[2, 1]] (fun _ => 2) 1 0 = -15 / 4 ∧ shapCy [exTree] 3 exData2 [[2, 1]] (fun _ => 2) 2 0 = -15 / 4 ∧
    shapCy [exTree] 3 exData2 [[]] (fun _ => 2) 1 0 = -15 / 4 ∧ shapCy [exTree] 3 exData2 [[]] (fun _ => 2) 2 0 = 0 := by
  have hf : ∀ n < exTree.size, 0 ≤ exTree.left n → exTree.feature n = 0 ∨ exTree.feature n = 1 := by decide
  refine ⟨exGroups_valid, ?_, ?_, by decide +kernel, by decide +kernel, by decide +kernel, by decide +kernel⟩
  · rintro j ⟨t, ht, n, hn, hl, hfj⟩
    rw [List.mem_singleton.1 ht] at hn hl hfj
    have := hf n hn hl
    omega
  · have : ∃ n < exTree.size, 0 ≤ exTree.left n ∧ exTree.feature n = 1 := by decide
    obtain ⟨n, h1, h2, h3⟩ := this
    exact ⟨exTree, by simp, n, h1, h2, h3⟩

end Acv
