import Verif.Props.ShapExp
import Verif.Props.ActiveShap
import Verif.Props.Normalized
import Verif.Props.NumberingSearch

/-!
# C133: the argument `C` is a partition of the columns, not a list of lists
-/

namespace Acv

/-- The same columns are grouped together: the order of the groups and of the columns inside a group, and groups of one column, make no
difference. -/
def SamePartition (C C' : List (List Nat)) : Prop := ∀ i j, i ≠ j → ((∃ g ∈ C, i ∈ g ∧ j ∈ g) ↔ ∃ g ∈ C', i ∈ g ∧ j ∈ g)

/-- Two players with the same columns. -/
def SameCols (g g' : List Nat) : Prop := ∀ s, s ∈ g ↔ s ∈ g'

/-- Two coalitions with the same players. -/
def Matched (S S' : Finset (List Nat)) : Prop := (∀ g ∈ S, ∃ g' ∈ S', SameCols g g') ∧ ∀ g' ∈ S', ∃ g ∈ S, SameCols g g'

theorem SamePartition.symm {C C' : List (List Nat)} (h : SamePartition C C') : SamePartition C' C := fun i j hij => (h i j hij).symm

theorem Matched.cols {S S' : Finset (List Nat)} (h : Matched S S') (s : Nat) : (∃ g ∈ S, s ∈ g) ↔ ∃ g ∈ S', s ∈ g := by
  constructor
  · rintro ⟨g, hg, hs⟩
    obtain ⟨g', hg', e⟩ := h.1 g hg
    exact ⟨g', hg', (e s).1 hs⟩
  · rintro ⟨g', hg', hs⟩
    obtain ⟨g, hg, e⟩ := h.2 g' hg'
    exact ⟨g, hg, (e s).2 hs⟩

theorem shapley_image {ι κ : Type} [DecidableEq ι] [DecidableEq κ] {P : Finset ι} {f : ι → κ} (hf : Set.InjOn f P) {v : Finset ι → ℚ}
    {w : Finset κ → ℚ} (h : ∀ S, S ⊆ P → v S = w (S.image f)) {i : ι} (hi : i ∈ P) : shapley P v i = shapley (P.image f) w (f i) := by
  unfold shapley
  have hcard : ∀ S, S ⊆ P → (S.image f).card = S.card := fun S hS => Finset.card_image_of_injOn (hf.mono hS)
  refine Finset.sum_bij (fun S _ => S.image f) ?_ ?_ ?_ ?_
  · intro S hS
    rw [Finset.mem_powerset] at hS ⊢
    intro b hb
    obtain ⟨a, ha, rfl⟩ := Finset.mem_image.1 hb
    have ha' := Finset.mem_erase.1 (hS ha)
    exact Finset.mem_erase.2 ⟨fun e => ha'.1 (hf ha'.2 hi e), Finset.mem_image_of_mem _ ha'.2⟩
  · intro S hS T hT e
    rw [Finset.mem_powerset] at hS hT
    have key : ∀ {S T : Finset ι}, S ⊆ P → T ⊆ P → S.image f = T.image f → S ⊆ T := by
      intro S T hS hT e a ha
      obtain ⟨b, hb, eb⟩ := Finset.mem_image.1 (e ▸ Finset.mem_image_of_mem f ha)
      rwa [← hf (hT hb) (hS ha) eb]
    have hS' := hS.trans (Finset.erase_subset _ _)
    have hT' := hT.trans (Finset.erase_subset _ _)
    exact Finset.Subset.antisymm (key hS' hT' e) (key hT' hS' e.symm)
  · intro T hT
    rw [Finset.mem_powerset] at hT
    refine ⟨(P.erase i).filter (fun a => f a ∈ T), Finset.mem_powerset.2 (Finset.filter_subset _ _), ?_⟩
    ext b
    rw [Finset.mem_image]
    constructor
    · rintro ⟨a, ha, rfl⟩
      exact (Finset.mem_filter.1 ha).2
    · intro hb
      obtain ⟨h1, h2⟩ := Finset.mem_erase.1 (hT hb)
      obtain ⟨a, ha, rfl⟩ := Finset.mem_image.1 h2
      exact ⟨a, Finset.mem_filter.2 ⟨Finset.mem_erase.2 ⟨fun e => h1 (by rw [e]), ha⟩, hb⟩, rfl⟩
  · intro S hS
    have hS' := (Finset.mem_powerset.1 hS).trans (Finset.erase_subset _ _)
    rw [h S hS', h (insert i S) (Finset.insert_subset hi hS'), Finset.image_insert, hcard S hS', hcard P (Finset.Subset.refl _)]

theorem shapley_matched {P P' : Finset (List Nat)} (hm : Matched P P') (hP : ∀ g ∈ P, ∀ h ∈ P, SameCols g h → g = h)
    (hP' : ∀ g ∈ P', ∀ h ∈ P', SameCols g h → g = h) {v w : Finset (List Nat) → ℚ}
    (hv : ∀ S S', S ⊆ P → S' ⊆ P' → Matched S S' → v S = w S') {g g' : List Nat} (hg : g ∈ P) (hg' : g' ∈ P') (he : SameCols g g') :
    shapley P v g = shapley P' w g' := by
  classical
  obtain ⟨f, hf⟩ : ∃ f : List Nat → List Nat, ∀ g ∈ P, f g ∈ P' ∧ SameCols g (f g) := by
    refine ⟨fun g => if h : ∃ g' ∈ P', SameCols g g' then h.choose else [], fun g hg => ?_⟩
    have h := hm.1 g hg
    simp only [dif_pos h]
    exact h.choose_spec
  have hinj : Set.InjOn f P := by
    intro a ha b hb e
    refine hP a ha b hb fun s => ?_
    rw [(hf a ha).2 s, e, ← (hf b hb).2 s]
  have himg : P.image f = P' := by
    ext b
    rw [Finset.mem_image]
    constructor
    · rintro ⟨a, ha, rfl⟩
      exact (hf a ha).1
    · intro hb
      obtain ⟨a, ha, e⟩ := hm.2 b hb
      exact ⟨a, ha, hP' _ (hf a ha).1 b hb fun s => by rw [← (hf a ha).2 s, e s]⟩
  have hfg : f g = g' := hP' _ (hf g hg).1 g' hg' fun s => by rw [← (hf g hg).2 s, he s]
  rw [← hfg, ← himg]
  refine shapley_image hinj (fun S hS => hv S (S.image f) hS ?_ ⟨?_, ?_⟩) hg
  · rw [← himg]
    exact Finset.image_subset_image hS
  · intro a ha
    exact ⟨f a, Finset.mem_image_of_mem _ ha, (hf a (hS ha)).2⟩
  · intro b hb
    obtain ⟨a, ha, rfl⟩ := Finset.mem_image.1 hb
    exact ⟨a, ha, (hf a (hS ha)).2⟩

theorem player_sub {m : Nat} {C C' : List (List Nat)} (hC' : ValidGroups m C') (h : SamePartition C C') {g g' : List Nat}
    (hg : g ∈ playerSet m C) (hg' : g' ∈ playerSet m C') {a : Nat} (ha : a ∈ g) (ha' : a ∈ g') {s : Nat} (hs : s ∈ g) : s ∈ g' := by
  rcases eq_or_ne a s with rfl | hne
  · exact ha'
  · rcases mem_playerSet.1 hg with ⟨hgC, _⟩ | ⟨i, _, _, rfl⟩
    · obtain ⟨g2, h2, h3, h4⟩ := (h a s hne).1 ⟨g, hgC, ha, hs⟩
      have h5 : g2 ∈ playerSet m C' := mem_playerSet.2 (Or.inl ⟨h2, fun e => by simp [e] at h3⟩)
      rwa [playerSet_disjoint hC' hg' h5 ha' h3]
    · simp only [List.mem_singleton] at ha hs
      exact absurd (ha.trans hs.symm) hne

theorem players_half {m : Nat} {C C' : List (List Nat)} (hC : ValidGroups m C) (hC' : ValidGroups m C') (h : SamePartition C C') {g : List Nat}
    (hg : g ∈ playerSet m C) : ∃ g' ∈ playerSet m C', SameCols g g' := by
  obtain ⟨h1, _, h3⟩ := playerSet_lt hC hg
  obtain ⟨a, l, rfl⟩ := List.exists_cons_of_ne_nil h1
  obtain ⟨g', hg', ha'⟩ := playerSet_cover (C := C') (h3 a (by simp))
  exact ⟨g', hg', fun s => ⟨fun hs => player_sub hC' h hg hg' (List.mem_cons_self ..) ha' hs,
    fun hs => player_sub hC h.symm hg' hg ha' (List.mem_cons_self ..) hs⟩⟩

theorem players_matched {m : Nat} {C C' : List (List Nat)} (hC : ValidGroups m C) (hC' : ValidGroups m C') (h : SamePartition C C') :
    Matched (playerSet m C) (playerSet m C') := by
  refine ⟨fun g hg => players_half hC hC' h hg, fun g' hg' => ?_⟩
  obtain ⟨g, hg, e⟩ := players_half hC' hC h.symm hg'
  exact ⟨g, hg, fun s => (e s).symm⟩

theorem players_sep {m : Nat} {C : List (List Nat)} (hC : ValidGroups m C) : ∀ g ∈ playerSet m C, ∀ h ∈ playerSet m C, SameCols g h → g = h := by
  intro g hg h hh e
  obtain ⟨h1, _, _⟩ := playerSet_lt hC hg
  obtain ⟨a, l, rfl⟩ := List.exists_cons_of_ne_nil h1
  exact playerSet_disjoint hC hg hh (List.mem_cons_self ..) ((e a).1 (List.mem_cons_self ..))

theorem same_player {m : Nat} {C C' : List (List Nat)} (hC : ValidGroups m C) (hC' : ValidGroups m C') (h : SamePartition C C') {j : Nat} (hj : j < m) :
    ∃ g ∈ playerSet m C, ∃ g' ∈ playerSet m C', j ∈ g ∧ j ∈ g' ∧ SameCols g g' := by
  obtain ⟨g, hg, hjg⟩ := playerSet_cover (C := C) hj
  obtain ⟨g', hg', e⟩ := players_half hC hC' h hg
  exact ⟨g, hg, g', hg', hjg, (e j).1 hjg, e⟩

/-- **C133, `shap_values`**: only the partition of the columns matters. -/
theorem C133_shapley {ts : List TreeArr} {m : Nat} (hts : ∀ t ∈ ts, WellFormed t m) {data : List Row} (hdata : data ≠ [])
    {C C' : List (List Nat)} (hC : ValidGroups m C) (hC' : ValidGroups m C') (h : SamePartition C C') (hm : m < ulongMax) (x : Row) (k : Nat)
    {j : Nat} (hj : j < m) : shapCy ts m data C x j k = shapCy ts m data C' x j k := by
  obtain ⟨g, hg, g', hg', h1, h2, e⟩ := same_player hC hC' h hj
  rw [C06_leaf_estimator_is_shapley_value hts hdata hC hm x k hg h1, C06_leaf_estimator_is_shapley_value hts hdata hC' hm x k hg' h2]
  exact shapley_matched (players_matched hC hC' h) (players_sep hC) (players_sep hC')
    (fun S S' _ _ hS => leafGame_cols ts m data x k hS.cols) hg hg' e

theorem leafShare_cols (m : Nat) (data : List Row) (r : Rect) (x : Row) {S T : Finset (List Nat)}
    (h : ∀ s, (∃ g ∈ S, s ∈ g) ↔ ∃ g ∈ T, s ∈ g) : leafShare m data r x S = leafShare m data r x T := by
  have ha : ∀ (r : Rect) (z : Row), AgreesOn r S z ↔ AgreesOn r T z := by
    intro r z
    constructor
    · intro hS g hg s hs
      obtain ⟨g', hg', hs'⟩ := (h s).2 ⟨g, hg, hs⟩
      exact hS g' hg' s hs'
    · intro hT g hg s hs
      obtain ⟨g', hg', hs'⟩ := (h s).1 ⟨g, hg, hs⟩
      exact hT g' hg' s hs'
  have gen : ∀ A B : Row → Prop, A = B → ∀ n : ℚ, (open Classical in (if A x then n / ((data.filter fun z => A z).length : ℚ) else 0)) =
      (open Classical in (if B x then n / ((data.filter fun z => B z).length : ℚ) else 0)) := by
    rintro A _ rfl n; rfl
  exact gen _ _ (funext fun z => propext (ha r z)) _

/-- **C133, `shap_values_normalized`**. -/
theorem C133_normalized {ts : List TreeArr} {m : Nat} (hts : ∀ t ∈ ts, WellFormed t m) {data : List Row} (hdata : data ≠ [])
    (hcov : LeavesCovered ts data) {C C' : List (List Nat)} (hC : ValidGroups m C) (hC' : ValidGroups m C') (h : SamePartition C C')
    (hm : m < ulongMax) (x : Row) (k : Nat) {j : Nat} (hj : j < m) : shapNorm ts m data C x j k = shapNorm ts m data C' x j k := by
  obtain ⟨g, hg, g', hg', h1, h2, e⟩ := same_player hC hC' h hj
  rw [C73_is_shapley_value hts hdata hcov hC hm x k hg h1, C73_is_shapley_value hts hdata hcov hC' hm x k hg' h2]
  refine shapley_matched (players_matched hC hC' h) (players_sep hC) (players_sep hC') (fun S S' _ _ hS => ?_) hg hg' e
  have ht : ∀ (t : TreeArr) (ℓ : Nat), Matched (touching t ℓ S) (touching t ℓ S') := by
    intro t ℓ
    constructor
    · intro a ha
      obtain ⟨h1, s, h2, h3⟩ := Finset.mem_filter.1 ha
      obtain ⟨b, hb, e⟩ := hS.1 a h1
      exact ⟨b, Finset.mem_filter.2 ⟨hb, s, (e s).1 h2, h3⟩, e⟩
    · intro b hb
      obtain ⟨h1, s, h2, h3⟩ := Finset.mem_filter.1 hb
      obtain ⟨a, ha, e⟩ := hS.2 b h1
      exact ⟨a, Finset.mem_filter.2 ⟨ha, s, (e s).2 h2, h3⟩, e⟩
  unfold leafwiseNormGame normShare
  simp only [fun (t : TreeArr) (ℓ : Nat) (r : Rect) => leafShare_cols m data r x (ht t ℓ).cols]

/-- **C133, Active Shapley values**. -/
theorem C133_active {ts : List TreeArr} {m : Nat} (hts : ∀ t ∈ ts, WellFormed t m) {data : List Row} {C C' : List (List Nat)}
    (hC : ValidGroups m C) (hC' : ValidGroups m C') (h : SamePartition C C') (hm : m < ulongMax) {S N : List Nat} (hA : ValidActive m C S N)
    (x : Row) (k : Nat) (hcov : LeavesCovered ts data) {j : Nat} (hj : j ∈ S) :
    activeCy ts m data C S N x j k = activeCy ts m data C' S N x j k := by
  have hjm : j < m := (hA.2.1 j).1 (Or.inl hj)
  have hA' : ValidActive m C' S N := by
    refine ⟨hA.1, hA.2.1, hA.2.2.1, fun g hg => ?_⟩
    by_contra hn
    push Not at hn
    obtain ⟨⟨a, ha, haS⟩, b, hb, hbS⟩ := hn
    obtain ⟨g2, h2, h3, h4⟩ := (h a b fun e => haS (e ▸ hbS)).2 ⟨g, hg, ha, hb⟩
    rcases hA.2.2.2 g2 h2 with h5 | h5
    · exact haS (h5 a h3)
    · exact h5 b h4 hbS
  obtain ⟨g, hg, g', hg', h1, h2, e⟩ := same_player hC hC' h hjm
  have hin : ∀ {C : List (List Nat)}, ValidActive m C S N → ∀ {g : List Nat}, g ∈ playerSet m C → j ∈ g → g ∈ activeSet m C S := by
    intro C hA g hg hjg
    refine mem_activeSet.2 ⟨hg, ?_⟩
    rcases mem_playerSet.1 hg with ⟨hc, _⟩ | ⟨i, _, _, rfl⟩
    · rcases hA.2.2.2 g hc with h | h
      · exact h
      · exact absurd hj (h j hjg)
    · intro s hs
      simp only [List.mem_singleton] at hs hjg
      rwa [hs, ← hjg]
  rw [C17_active_is_shapley_value hts hC hm hA x k hcov (hin hA hg h1) h1, C17_active_is_shapley_value hts hC' hm hA' x k hcov (hin hA' hg' h2) h2]
  congr 1
  have hmat : Matched (activeSet m C S) (activeSet m C' S) := by
    have hp := players_matched hC hC' h
    constructor
    · intro a ha
      obtain ⟨h1, h2⟩ := mem_activeSet.1 ha
      obtain ⟨b, hb, e⟩ := hp.1 a h1
      exact ⟨b, mem_activeSet.2 ⟨hb, fun s hs => h2 s ((e s).2 hs)⟩, e⟩
    · intro b hb
      obtain ⟨h1, h2⟩ := mem_activeSet.1 hb
      obtain ⟨a, ha, e⟩ := hp.2 b h1
      exact ⟨a, mem_activeSet.2 ⟨ha, fun s hs => h2 s ((e s).1 hs)⟩, e⟩
  refine shapley_matched hmat (fun a ha b hb => players_sep hC a (mem_activeSet.1 ha).1 b (mem_activeSet.1 hb).1)
    (fun a ha b hb => players_sep hC' a (mem_activeSet.1 ha).1 b (mem_activeSet.1 hb).1) (fun T T' _ _ hT => ?_) (hin hA hg h1) (hin hA' hg' h2) e
  unfold activeGame
  have hemp : T = ∅ ↔ T' = ∅ := by
    constructor
    · rintro rfl
      refine Finset.eq_empty_of_forall_notMem fun b hb => ?_
      obtain ⟨a, ha, _⟩ := hT.2 b hb
      simp at ha
    · rintro rfl
      refine Finset.eq_empty_of_forall_notMem fun a ha => ?_
      obtain ⟨b, hb, _⟩ := hT.1 a ha
      simp at hb
  simp only [hemp]
  split
  · rfl
  · refine leafGame_cols ts m data x k fun s => ?_
    have := hT.cols s
    simp only [Finset.mem_insert, exists_eq_or_imp, this]

/-- Groups in another order, columns in another order inside a group, and a column as a group of its own. -/
example : SamePartition [[2, 1], [0]] [[1, 2]] ∧ ValidGroups 3 [[2, 1], [0]] ∧ ValidGroups 3 [[1, 2]] ∧
    shapCy [exTree] 3 exData [[2, 1], [0]] (fun _ => 2) 2 0 = -65 / 12 ∧ shapCy [exTree] 3 exData [[1, 2]] (fun _ => 2) 2 0 = -65 / 12 := by
  refine ⟨?_, ?_, ?_, by decide +kernel, by decide +kernel⟩
  · intro i j hij
    simp only [List.mem_cons, List.not_mem_nil, or_false, exists_eq_or_imp, exists_eq_left]
    omega
  · right; simp
  · right; simp

/-! ## Searches -/

theorem mem_searchPlayers {m : Nat} {C : List (List Nat)} (hC : ValidGroups m C) {space g : List Nat} :
    g ∈ searchPlayers C space ↔ (g ∈ C ∧ ∃ c ∈ g, c ∈ space) ∨ ∃ i ∈ space, (∀ g ∈ C, i ∉ g) ∧ g = [i] := by
  unfold searchPlayers
  rcases hC with rfl | ⟨hne, hg, _⟩
  · simp only [List.headD_cons, ne_eq, not_true_eq_false, if_false, List.mem_map, List.mem_singleton]
    constructor
    · rintro ⟨i, hi, rfl⟩
      exact Or.inr ⟨i, hi, by simp, rfl⟩
    · rintro (⟨rfl, c, hc, _⟩ | ⟨i, hi, _, rfl⟩)
      · simp at hc
      · exact ⟨i, hi, rfl⟩
  · obtain ⟨g0, C, rfl⟩ := List.exists_cons_of_ne_nil hne
    rw [if_pos (by simpa using (hg g0 (by simp)).1)]
    simp only [List.mem_append, List.mem_map, List.mem_filter, List.any_eq_true, decide_eq_true_eq, List.mem_flatten, not_exists, not_and]
    constructor
    · rintro (⟨i, ⟨h1, h2⟩, rfl⟩ | h)
      · exact Or.inr ⟨i, h1, h2, rfl⟩
      · exact Or.inl h
    · rintro (h | ⟨i, h1, h2, rfl⟩)
      · exact Or.inr h
      · exact Or.inl ⟨i, ⟨h1, h2⟩, rfl⟩

theorem playersOk_disjoint {cols : Nat} {players : List (List Nat)} (h : PlayersOk cols players) {g g' : List Nat} (hg : g ∈ players)
    (hg' : g' ∈ players) {a : Nat} (ha : a ∈ g) (ha' : a ∈ g') : g = g' := by
  by_contra hne
  have : Std.Symm (List.Disjoint (α := Nat)) := ⟨fun _ _ h => h.symm⟩
  exact (List.nodup_flatten.1 h.nodup).2.forall hg hg' hne ha ha'

theorem searchPlayer_sub {m : Nat} {C C' : List (List Nat)} (hC : ValidGroups m C) (hC' : ValidGroups m C') (h : SamePartition C C')
    {space g g' : List Nat} (ho' : PlayersOk m (searchPlayers C' space)) (hg : g ∈ searchPlayers C space) (hg' : g' ∈ searchPlayers C' space)
    {a : Nat} (hsp : a ∈ space) (ha : a ∈ g) (ha' : a ∈ g') {s : Nat} (hs : s ∈ g) : s ∈ g' := by
  rcases eq_or_ne a s with rfl | hne
  · exact ha'
  · rcases (mem_searchPlayers hC).1 hg with ⟨hgC, _⟩ | ⟨i, _, _, rfl⟩
    · obtain ⟨g2, h2, h3, h4⟩ := (h a s hne).1 ⟨g, hgC, ha, hs⟩
      have h5 : g2 ∈ searchPlayers C' space := (mem_searchPlayers hC').2 (Or.inl ⟨h2, a, h3, hsp⟩)
      rwa [playersOk_disjoint ho' hg' h5 ha' h3]
    · simp only [List.mem_singleton] at ha hs
      exact absurd (ha.trans hs.symm) hne

theorem searchPlayers_half {m : Nat} {C C' : List (List Nat)} (hC : ValidGroups m C) (hC' : ValidGroups m C') (h : SamePartition C C')
    {space g : List Nat} (ho : PlayersOk m (searchPlayers C space)) (ho' : PlayersOk m (searchPlayers C' space))
    (hg : g ∈ searchPlayers C space) : ∃ g' ∈ searchPlayers C' space, SameCols g g' := by
  obtain ⟨a, ha, hsp⟩ : ∃ a ∈ g, a ∈ space := by
    rcases (mem_searchPlayers hC).1 hg with ⟨_, h⟩ | ⟨i, hi, _, rfl⟩
    · exact h
    · exact ⟨i, by simp, hi⟩
  obtain ⟨g', hg', ha'⟩ : ∃ g' ∈ searchPlayers C' space, a ∈ g' := by
    by_cases hc : ∃ g' ∈ C', a ∈ g'
    · obtain ⟨g', h1, h2⟩ := hc
      exact ⟨g', (mem_searchPlayers hC').2 (Or.inl ⟨h1, a, h2, hsp⟩), h2⟩
    · push Not at hc
      exact ⟨[a], (mem_searchPlayers hC').2 (Or.inr ⟨a, hsp, hc, rfl⟩), by simp⟩
  exact ⟨g', hg', fun s => ⟨fun hs => searchPlayer_sub hC hC' h ho' hg hg' hsp ha ha' hs,
    fun hs => searchPlayer_sub hC' hC h.symm ho hg' hg hsp ha' ha hs⟩⟩

/-- Each set of players of one search has the same columns as a set of as many players of the other. -/
theorem candidate_partition {m : Nat} {C C' : List (List Nat)} (hC : ValidGroups m C) (hC' : ValidGroups m C') (h : SamePartition C C')
    {space : List Nat} (ho : PlayersOk m (searchPlayers C space)) (ho' : PlayersOk m (searchPlayers C' space)) {k : Nat} {S : List Nat}
    (hS : Candidate (searchPlayers C space) k S) : ∃ S', Candidate (searchPlayers C' space) k S' ∧ S'.Perm S := by
  classical
  obtain ⟨f, hf⟩ : ∃ f : List Nat → List Nat, ∀ g ∈ searchPlayers C space, f g ∈ searchPlayers C' space ∧ SameCols g (f g) := by
    refine ⟨fun g => if h : ∃ g' ∈ searchPlayers C' space, SameCols g g' then h.choose else [], fun g hg => ?_⟩
    have h := searchPlayers_half hC hC' h ho ho' hg
    simp only [dif_pos h]
    exact h.choose_spec
  obtain ⟨co, h1, h2, rfl⟩ := hS
  have hinj : ∀ a ∈ co, ∀ b ∈ co, f a = f b → a = b := by
    intro a ha b hb e
    obtain ⟨s, hs⟩ := List.exists_mem_of_ne_nil _ (ho.ne a (h1.subset ha))
    refine playersOk_disjoint ho (h1.subset ha) (h1.subset hb) hs ?_
    rw [(hf b (h1.subset hb)).2 s, ← e, ← (hf a (h1.subset ha)).2 s]
    exact hs
  have hnd : (co.map f).Nodup := (List.nodup_map_iff_inj_on (ho.players_nodup.sublist h1)).2 hinj
  obtain ⟨co', h3, h4⟩ : (co.map f).Subperm (searchPlayers C' space) := hnd.subperm fun g hg => by
    obtain ⟨a, ha, rfl⟩ := List.mem_map.1 hg
    exact (hf a (h1.subset ha)).1
  refine ⟨co'.flatten, ⟨co', h4, by rw [h3.length_eq, List.length_map, h2], rfl⟩, h3.flatten.trans ?_⟩
  have key : ∀ l : List (List Nat), (∀ g ∈ l, g ∈ searchPlayers C space) → (l.map f).flatten.Perm l.flatten := by
    intro l
    induction l with
    | nil => intro _; exact List.Perm.refl _
    | cons g l ih =>
      intro hl
      rw [List.map_cons, List.flatten_cons, List.flatten_cons]
      obtain ⟨h5, h6⟩ := hf g (hl g (by simp))
      refine List.Perm.append ?_ (ih fun g hg => hl g (by simp [hg]))
      refine (List.perm_ext_iff_of_nodup ((List.nodup_flatten.1 ho'.nodup).1 _ h5) ((List.nodup_flatten.1 ho.nodup).1 _ (hl g (by simp)))).2
        fun s => (h6 s).symm
  exact key co fun g hg => h1.subset hg

/-- **C133, `importance_sdp_rf`** (part). With `stop=False` and a set of all columns of probability 1, two arguments `C` with the same
partition reach the level for the same samples and report the same probability. Missing (false): the reported set, when two sets tie
(`C133_search_false`), and `stop=True`, where the sizes that are tried depend on the last group (`C133_stop_false`). -/
theorem C133_search_partial (sdp : Nat → List Nat → ℚ) (hs : ∀ i S S', S.Perm S' → sdp i S = sdp i S') {n cols : Nat} (order : List Nat)
    {C C' : List (List Nat)} (hC : ValidGroups cols C) (hC' : ValidGroups cols C') (h : SamePartition C C')
    (hA : SearchArgs cols C (rfSpace cols order)) (hA' : SearchArgs cols C' (rfSpace cols order)) {pi : ℚ} (h0 : 0 < pi) (h1 : pi ≤ 1)
    (minimal : Nat) {half : Nat} (hhalf : 0 < half) (hfull : ∀ i < n, sdp i (List.range cols) = 1) :
    ∃ st st', importanceSdpRf sdp n cols order C pi minimal false half = some st ∧
      importanceSdpRf sdp n cols order C' pi minimal false half = some st' ∧
      ∀ i < n, (pi ≤ (st'.best i).sdp ↔ pi ≤ (st.best i).sdp) ∧ (pi ≤ (st.best i).sdp → (st'.best i).sdp = (st.best i).sdp) := by
  have hfull : ∀ i < n, ∀ S : List Nat, S.Perm (List.range cols) → sdp i S = 1 := fun i hi S hS => (hs i _ _ hS).trans (hfull i hi)
  have hto : ∀ i k S, Candidate (searchPlayers C (rfSpace cols order)) k S →
      ∃ S', Candidate (searchPlayers C' (rfSpace cols order)) k S' ∧ sdp i S' = sdp i S := by
    intro i k S hS
    obtain ⟨S', h2, h3⟩ := candidate_partition hC hC' h (playersOk hA) (playersOk hA') hS
    exact ⟨S', h2, hs i _ _ h3⟩
  have hfrom : ∀ i k S', Candidate (searchPlayers C' (rfSpace cols order)) k S' →
      ∃ S, Candidate (searchPlayers C (rfSpace cols order)) k S ∧ sdp i S = sdp i S' := by
    intro i k S hS
    obtain ⟨S', h2, h3⟩ := candidate_partition hC' hC h.symm (playersOk hA') (playersOk hA) hS
    exact ⟨S', h2, hs i _ _ h3⟩
  obtain ⟨st, e, hst⟩ := C29_full_one hA sdp n h0 h1 minimal false half hfull
  obtain ⟨st2, e2, hst2⟩ := C29_not_found hA sdp n h0 h1 minimal false half hhalf
  obtain ⟨st', e', hst'⟩ := C29_full_one hA' sdp n h0 h1 minimal false half hfull
  obtain ⟨st2', e2', hst2'⟩ := C29_not_found hA' sdp n h0 h1 minimal false half hhalf
  rw [e] at e2
  rw [e'] at e2'
  cases e2
  cases e2'
  have hiff : ∀ i < n, pi ≤ (st'.best i).sdp ↔ pi ≤ (st.best i).sdp := by
    intro i hi
    constructor
    · intro h
      by_contra hn
      obtain ⟨k, S, a1, a2, _, a4, _⟩ := hst' i hi h
      obtain ⟨T, hT, eT⟩ := hfrom i k S a2
      have := hst2 i hi (not_le.1 hn) k T a1 hT (Or.inl rfl)
      rw [eT, ← a4] at this
      exact absurd h (not_le.2 this)
    · intro h
      by_contra hn
      obtain ⟨k, S, a1, a2, _, a4, _⟩ := hst i hi h
      obtain ⟨T, hT, eT⟩ := hto i k S a2
      have := hst2' i hi (not_le.1 hn) k T a1 hT (Or.inl rfl)
      rw [eT, ← a4] at this
      exact absurd h (not_le.2 this)
  refine ⟨st, st', e, e', fun i hi => ⟨hiff i hi, fun h => ?_⟩⟩
  obtain ⟨k, S, a1, a2, _, a4, a5, a6⟩ := hst i hi h
  have h' := (hiff i hi).2 h
  obtain ⟨k', S', b1, b2, _, b4, b5, b6⟩ := hst' i hi h'
  rw [a4] at h a6 ⊢
  rw [b4] at h' b6 ⊢
  exact (reports_same (hto i) (hfrom i) a1 a2 h a5 a6 b1 b2 h' b5 b6).2.symm

/-- **C133, the probabilities of the projected forest** meet the hypothesis of `C133_search_partial`: the order of the columns of a set
does not matter. -/
theorem C133_sdp_order (mems : List Mem) (X : Nat → Row) (yX : Nat → ℚ) (data : Nat → Row) (y : Nat → ℚ) (minSize maxDepth N : Nat)
    (classifier : Bool) (t : Nat → ℚ × ℚ) (i : Nat) (S S' : List Nat) (h : S.Perm S') :
    sdpRf mems S (X i) (yX i) data y minSize maxDepth N classifier (t i) =
      sdpRf mems S' (X i) (yX i) data y minSize maxDepth N classifier (t i) :=
  sdpRf_congr mems h (X i) (yX i) data y minSize maxDepth N classifier (t i)

/-- The claim that the search reports the same columns for the same partition. -/
def C133_search_claim : Prop := ∀ (sdp : Nat → List Nat → ℚ), (∀ i S S', S.Perm S' → sdp i S = sdp i S') → ∀ (n cols : Nat)
  (C C' : List (List Nat)), ValidGroups cols C → ValidGroups cols C' → SamePartition C C' → (∀ i < n, sdp i (List.range cols) = 1) →
  ∀ st st', importanceSdpRf sdp n cols [] C (9 / 10) 1 false ((cols + 1) / 2) = some st →
    importanceSdpRf sdp n cols [] C' (9 / 10) 1 false ((cols + 1) / 2) = some st' →
    ∀ i < n, ∀ c, c ∈ (st'.best i).cols ↔ c ∈ (st.best i).cols

theorem C133_search_false : ¬ C133_search_claim := by
  intro h
  have := h (fun _ _ => 1) (fun _ _ _ _ => rfl) 1 2 [[0], [1]] [[1], [0]] (by right; simp) (by right; simp)
    (by intro i j hij; simp only [List.mem_cons, List.not_mem_nil, or_false, exists_eq_or_imp, exists_eq_left]; omega) (fun _ _ => rfl)
    _ _ rfl rfl 0 (by norm_num) 1
  revert this
  decide +kernel

/-- The claim that the same samples reach the level, with `stop=True`. -/
def C133_stop_claim : Prop := ∀ (sdp : Nat → List Nat → ℚ), (∀ i S S', S.Perm S' → sdp i S = sdp i S') → ∀ (n cols : Nat)
  (C C' : List (List Nat)), ValidGroups cols C → ValidGroups cols C' → SamePartition C C' → (∀ i < n, sdp i (List.range cols) = 1) →
  ∀ st st', importanceSdpRf sdp n cols [] C (9 / 10) 1 true ((cols + 1) / 2) = some st →
    importanceSdpRf sdp n cols [] C' (9 / 10) 1 true ((cols + 1) / 2) = some st' →
    ∀ i < n, (9 / 10 ≤ (st'.best i).sdp ↔ 9 / 10 ≤ (st.best i).sdp)

/-- Columns 2 and 3 together decide. -/
def pairSdp : Nat → List Nat → ℚ := fun _ S => if 2 ∈ S ∧ 3 ∈ S then 1 else 0

/-- **False**: the group `[0, 1]` in the last place ends the search after the sets of one player, since it has half of the columns. -/
theorem C133_stop_false : ¬ C133_stop_claim := by
  intro h
  have := h pairSdp (fun _ S S' hp => by simp only [pairSdp, hp.mem_iff]) 1 4 [[0, 1], [2]] [[2], [0, 1]] (by right; simp) (by right; simp)
    (by intro i j hij; simp only [List.mem_cons, List.not_mem_nil, or_false, exists_eq_or_imp, exists_eq_left]; omega)
    (fun _ _ => by simp [pairSdp]) _ _ rfl rfl 0 (by norm_num)
  revert this
  decide +kernel

/-- The hypotheses of `C133_search_partial` hold, and the level is reached. -/
example : ValidGroups 4 [[0, 1], [2]] ∧ SearchArgs 4 [[0, 1], [2]] (rfSpace 4 []) ∧ pairSdp 0 (List.range 4) = 1 ∧
    ∃ st, importanceSdpRf pairSdp 1 4 [] [[0, 1], [2]] (9 / 10) 1 false 2 = some st ∧ (st.best 0).cols = [3, 2] := by
  refine ⟨by right; simp, ⟨by decide, by decide, by decide, by decide⟩, by decide +kernel, _, rfl, by decide +kernel⟩

end Acv
