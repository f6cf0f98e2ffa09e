import Verif.Lemmas.Search
import Mathlib.Data.List.Sublists
import Mathlib.Data.Nat.Choose.Sum

/-! # Lemmas about the candidate enumeration and the list of all sufficient sets -/

namespace Acv

theorem length_combos {α : Type} (k : Nat) (l : List α) : (combos k l).length = l.length.choose k := by
  rw [(combos_perm k l).length_eq, List.length_sublistsLen]

theorem nodup_combos {α : Type} (k : Nat) {l : List α} (h : l.Nodup) : (combos k l).Nodup :=
  (combos_perm k l).nodup_iff.2 (List.nodup_sublistsLen k h)

theorem combos_self {α : Type} (l : List α) : combos l.length l = [l] := by
  have h1 : (combos l.length l).length = 1 := by rw [length_combos, Nat.choose_self]
  obtain ⟨a, ha⟩ := List.length_eq_one_iff.1 h1
  have : l ∈ combos l.length l := mem_combos.2 ⟨List.Sublist.refl _, rfl⟩
  rw [ha] at this ⊢
  simp at this
  rw [this]

/-- All sets of columns of `k` players. -/
def levelOf (players : List (List Nat)) (k : Nat) : List (List Nat) := (combos k players).map List.flatten

/-- Number of sizes kept by the cut. -/
def enumKeep (m cap : Nat) : List Nat → Nat → Nat
  | [], _ => 0
  | k :: ks, c => 1 + if cap ≤ c + m.choose k then 0 else enumKeep m cap ks (c + m.choose k)

theorem enumSizes_eq (players : List (List Nat)) (cap : Nat) : ∀ (sizes : List Nat) (c : Nat),
    enumSizes players cap sizes c = (sizes.take (enumKeep players.length cap sizes c)).map (levelOf players)
  | [], c => by simp [enumSizes]
  | k :: ks, c => by
    simp only [enumSizes, enumKeep, List.length_map, length_combos]
    rw [Nat.add_comm 1, List.take_succ_cons, List.map_cons]
    congr 1
    split
    · simp
    · exact enumSizes_eq players cap ks _

theorem enumKeep_le (m cap : Nat) : ∀ (sizes : List Nat) (c : Nat), enumKeep m cap sizes c ≤ sizes.length
  | [], _ => by simp [enumKeep]
  | k :: ks, c => by
    have := enumKeep_le m cap ks (c + m.choose k)
    rw [enumKeep, List.length_cons]
    split <;> omega

theorem enumKeep_full (m cap : Nat) : ∀ (sizes : List Nat) (c : Nat),
    c + (sizes.dropLast.map (m.choose ·)).sum < cap → enumKeep m cap sizes c = sizes.length
  | [], _, _ => rfl
  | [k], c, _ => by simp [enumKeep]
  | k :: k' :: ks, c, h => by
    simp only [List.dropLast_cons₂, List.map_cons, List.sum_cons] at h
    have hlt : ¬ cap ≤ c + m.choose k := by omega
    rw [enumKeep, if_neg hlt, enumKeep_full m cap (k' :: ks) _ (by omega)]
    simp; omega

theorem sum_choose_lt (m : Nat) (a : Nat) : ((List.range' a (m + 1 - a)).dropLast.map (m.choose ·)).sum < 2 ^ m := by
  have h1 : (List.range' a (m + 1 - a)).dropLast = List.range' a (m - a) := by
    rcases Nat.lt_or_ge m a with h | h
    · have : m + 1 - a = 0 := by omega
      have : m - a = 0 := by omega
      simp [*]
    · have e : m + 1 - a = (m - a) + 1 := by omega
      rw [e, List.range'_concat, List.dropLast_concat]
  rw [h1]
  have h2 : (List.range' a (m - a)).Sublist (List.range m) := by
    rw [List.range_eq_range']
    rcases Nat.lt_or_ge m a with h | h
    · have : m - a = 0 := by omega
      simp [this]
    · have e : m = a + (m - a) := by omega
      conv_rhs => rw [e]
      rw [← List.range'_append_1]
      simp
  have h3 : ((List.range' a (m - a)).map (m.choose ·)).sum ≤ ((List.range m).map (m.choose ·)).sum :=
    (h2.map _).sum_le_sum (by intros; omega)
  have h4 : ((List.range m).map (m.choose ·)).sum + 1 = 2 ^ m := by
    rw [← Nat.sum_range_choose, Finset.sum_range_succ, Nat.choose_self]
    rfl
  omega

/-- With at most 15 players nothing is cut. -/
theorem levelsClf_eq (players : List (List Nat)) (minimal : Nat) (h : players.length ≤ 15) :
    levelsClf players minimal = (List.range' minimal (players.length + 1 - minimal)).map (levelOf players) := by
  unfold levelsClf
  rw [enumSizes_eq, enumKeep_full]
  · rw [List.take_length]
  · have := sum_choose_lt players.length minimal
    have h2 : 2 ^ players.length ≤ 2 ^ 15 := Nat.pow_le_pow_right (by omega) h
    unfold enumCap
    omega

theorem mapM_some {α β : Type} (f : α → Option β) (g : α → β) : ∀ (l : List α), (∀ a ∈ l, f a = some (g a)) →
    l.mapM f = some (l.map g)
  | [], _ => rfl
  | a :: l, h => by
    rw [List.mapM_cons, h a (by simp), mapM_some f g l (fun b hb => h b (by simp [hb]))]
    rfl

theorem levelsRf_eq (players : List (List Nat)) (minimal : Nat) (h : players.length ≤ 15) :
    levelsRf players minimal = some ((List.range' minimal (players.length + 1 - minimal)).map (levelOf players)) := by
  unfold levelsRf
  have e : enumSizes players enumCap (List.range (players.length + 1)) 0 =
      (List.range (players.length + 1)).map (levelOf players) := by
    have := levelsClf_eq players 0 h
    unfold levelsClf at this
    rw [Nat.sub_zero, ← List.range_eq_range'] at this
    exact this
  simp only [e]
  apply mapM_some
  intro a ha
  rw [List.mem_range'_1] at ha
  rw [List.getElem?_map, List.getElem?_range (by omega)]
  rfl

theorem mapM_none {α β : Type} (f : α → Option β) : ∀ (l : List α) (a : α), a ∈ l → f a = none → l.mapM f = none
  | b :: l, a, ha, h => by
    rw [List.mapM_cons]
    rcases List.mem_cons.1 ha with rfl | ha
    · rw [h]; rfl
    · rw [mapM_none f l a ha h]
      cases f b <;> rfl

/-- Every list that is scanned is the list of sets of some size, and sizes increase without gap from `minimal`. -/
theorem levelsClf_take (players : List (List Nat)) (minimal : Nat) : ∃ n, levelsClf players minimal =
    (List.range' minimal (min n (players.length + 1 - minimal))).map (levelOf players) := by
  refine ⟨enumKeep players.length enumCap (List.range' minimal (players.length + 1 - minimal)) 0, ?_⟩
  unfold levelsClf
  rw [enumSizes_eq]
  congr 1
  apply List.ext_getElem (by simp)
  intro i h1 h2
  simp

/-! ## Players -/

/-- What the proofs use about the players. -/
structure PlayersOk (cols : Nat) (players : List (List Nat)) : Prop where
  nodup : players.flatten.Nodup
  ne : ∀ p ∈ players, p ≠ []
  lt : ∀ c ∈ players.flatten, c < cols

theorem flatten_map_single (l : List Nat) : (l.map ([·])).flatten = l := by
  induction l with
  | nil => rfl
  | cons a l ih => simp [ih]

theorem playersOk {cols : Nat} {C : List (List Nat)} {space : List Nat} (h : SearchArgs cols C space) :
    PlayersOk cols (searchPlayers C space) := by
  unfold searchPlayers
  split
  · have hsub : (C.filter fun g => g.any fun c => decide (c ∈ space)).flatten.Sublist C.flatten := by
      apply List.Sublist.flatten
      exact List.filter_sublist
    refine ⟨?_, ?_, ?_⟩
    · rw [List.flatten_append, flatten_map_single, List.nodup_append]
      refine ⟨h.space_nodup.filter _, h.groups_nodup.sublist hsub, ?_⟩
      intro a ha b hb
      simp only [List.mem_filter, decide_eq_true_eq] at ha
      rintro rfl
      exact ha.2 (hsub.subset hb)
    · intro p hp
      rcases List.mem_append.1 hp with hp | hp
      · obtain ⟨a, _, rfl⟩ := List.mem_map.1 hp
        simp
      · have := (List.mem_filter.1 hp).2
        rintro rfl
        simp at this
    · intro c hc
      rw [List.flatten_append, flatten_map_single] at hc
      rcases List.mem_append.1 hc with hc | hc
      · exact h.space_lt c (List.mem_filter.1 hc).1
      · exact h.groups_lt c (hsub.subset hc)
  · refine ⟨?_, ?_, ?_⟩
    · rw [flatten_map_single]; exact h.space_nodup
    · intro p hp
      obtain ⟨a, _, rfl⟩ := List.mem_map.1 hp
      simp
    · rw [flatten_map_single]; exact h.space_lt

theorem length_flatten_ge {players : List (List Nat)} (h : ∀ p ∈ players, p ≠ []) {co : List (List Nat)}
    (hco : co.Sublist players) : co.flatten.length + (players.length - co.length) ≤ players.flatten.length := by
  induction hco with
  | slnil => simp
  | @cons l₁ l₂ a hs ih =>
    have ih := ih fun p hp => h p (by simp [hp])
    have := List.length_pos_of_ne_nil (h a (by simp))
    have := hs.length_le
    simp only [List.flatten_cons, List.length_append, List.length_cons] at *
    omega
  | @cons_cons l₁ l₂ a hs ih =>
    have ih := ih fun p hp => h p (by simp [hp])
    simp only [List.flatten_cons, List.length_append, List.length_cons] at *
    omega

theorem PlayersOk.flatten_le {cols : Nat} {players : List (List Nat)} (h : PlayersOk cols players) :
    players.flatten.length ≤ cols := by
  have : players.flatten.Subperm (List.range cols) := h.nodup.subperm fun c hc => List.mem_range.2 (h.lt c hc)
  simpa using this.length_le

/-- Only the set of all players can contain all columns. -/
theorem PlayersOk.full {cols : Nat} {players : List (List Nat)} (h : PlayersOk cols players) {co : List (List Nat)}
    (hco : co.Sublist players) (hf : co.flatten.length = cols) : co = players := by
  have h1 := length_flatten_ge h.ne hco
  have h2 := h.flatten_le
  have h3 := hco.length_le
  exact hco.eq_of_length (by omega)

theorem PlayersOk.players_nodup {cols : Nat} {players : List (List Nat)} (h : PlayersOk cols players) : players.Nodup := by
  have := List.nodup_flatten.1 h.nodup
  refine List.Pairwise.imp_of_mem ?_ this.2
  intro a b ha _ hd hab
  subst hab
  obtain ⟨c, hc⟩ := List.exists_mem_of_ne_nil _ (h.ne a ha)
  exact hd hc hc

theorem mem_levelOf {players : List (List Nat)} {k : Nat} {S : List Nat} :
    S ∈ levelOf players k ↔ Candidate players k S := by
  unfold levelOf Candidate
  simp only [List.mem_map, mem_combos]
  constructor
  · rintro ⟨co, ⟨h1, h2⟩, h3⟩; exact ⟨co, h1, h2, h3.symm⟩
  · rintro ⟨co, h1, h2, h3⟩; exact ⟨co, ⟨h1, h2⟩, h3.symm⟩

theorem goodLevel {cols : Nat} {players : List (List Nat)} (h : PlayersOk cols players) (k : Nat) :
    GoodLevel cols (levelOf players k) := by
  by_cases hex : ∃ S ∈ levelOf players k, S.length = cols
  · obtain ⟨S, hS, hl⟩ := hex
    obtain ⟨co, h1, h2, rfl⟩ := mem_levelOf.1 hS
    have : co = players := h.full h1 hl
    subst this
    right
    refine ⟨co.flatten, ?_, hl⟩
    unfold levelOf
    rw [← h2, combos_self]
    rfl
  · left
    intro S hS hl
    exact hex ⟨S, hS, hl⟩

theorem candidate_nodup {cols : Nat} {players : List (List Nat)} (h : PlayersOk cols players) {k : Nat} {S : List Nat}
    (hS : Candidate players k S) : S.Nodup ∧ ∀ c ∈ S, c < cols := by
  obtain ⟨co, h1, _, rfl⟩ := hS
  have hs : co.flatten.Sublist players.flatten := h1.flatten
  exact ⟨h.nodup.sublist hs, fun c hc => h.lt c (hs.subset hc)⟩

/-- Among sets of players, inclusion of the columns is inclusion of the players. -/
theorem PlayersOk.subset {cols : Nat} {players : List (List Nat)} (h : PlayersOk cols players) {co co' : List (List Nat)}
    (hco : co.Sublist players) (hco' : co'.Sublist players) (hs : co'.flatten ⊆ co.flatten) : co' ⊆ co := by
  intro p hp
  obtain ⟨c, hc⟩ := List.exists_mem_of_ne_nil _ (h.ne p (hco'.subset hp))
  obtain ⟨q, hq, hcq⟩ := List.mem_flatten.1 (hs (List.mem_flatten.2 ⟨p, hp, hc⟩))
  have : p = q := by
    by_contra hne
    have hd := (List.nodup_flatten.1 h.nodup).2
    have : Std.Symm (List.Disjoint (α := Nat)) := ⟨fun _ _ h => h.symm⟩
    exact hd.forall (hco'.subset hp) (hco.subset hq) hne hc hcq
  exact this ▸ hq

theorem filter_mem_sublist' {α : Type} [DecidableEq α] {l R : List α} (h : R.Sublist l) (hl : l.Nodup) :
    l.filter (fun i => decide (i ∈ R)) = R := by
  induction h with
  | slnil => rfl
  | @cons l₁ l₂ a h ih =>
    have hn := List.nodup_cons.1 hl
    have : a ∉ l₁ := fun ha => hn.1 (h.subset ha)
    rw [List.filter_cons, if_neg (by simp [this]), ih hn.2]
  | @cons_cons l₁ l₂ a h ih =>
    have hn := List.nodup_cons.1 hl
    rw [List.filter_cons, if_pos (by simp)]
    congr 1
    rw [← ih hn.2]
    apply List.filter_congr
    intro b hb
    rw [ih hn.2]
    have : b ≠ a := by rintro rfl; exact hn.1 hb
    rw [Bool.eq_iff_iff]; simp [this]

theorem PlayersOk.subset_length {cols : Nat} {players : List (List Nat)} (h : PlayersOk cols players)
    {co co' : List (List Nat)} (hco : co.Sublist players) (hco' : co'.Sublist players) (hs : co'.flatten ⊆ co.flatten) :
    co'.length ≤ co.length ∧ (co'.length = co.length → co' = co) := by
  have hsub := h.subset hco hco' hs
  have hn := h.players_nodup
  have hsp : co'.Subperm co := (hn.sublist hco').subperm hsub
  refine ⟨hsp.length_le, fun hl => ?_⟩
  have hp : co'.Perm co := hsp.perm_of_length_le hl.ge
  rw [← filter_mem_sublist' hco' hn, ← filter_mem_sublist' hco hn]
  apply List.filter_congr
  intro a _
  rw [Bool.eq_iff_iff]; simp [hp.mem_iff]

/-! ## All sufficient sets -/

/-- Sufficient, and no sufficient set of the list is strictly inside. -/
def MinimalIn (v : List Nat → ℚ) (pi : ℚ) (L : List (List Nat)) (S : List Nat) : Prop :=
  pi ≤ v S ∧ ∀ T ∈ L, pi ≤ v T → T ⊆ S → T = S

open Classical in
theorem suffFold (v : List Nat → ℚ) (pi : ℚ) (L : List (List Nat))
    (hL : L.Pairwise fun a b => ¬ b ⊆ a) :
    L.foldl (fun found S => suffStep pi (v S) S found) [([-1], -1)] =
      ([-1], -1) :: (L.filter fun S => decide (MinimalIn v pi L S)).map fun S => (S.map (↑), v S) := by
  induction L using List.reverseRecOn with
  | nil => rfl
  | append_singleton L S ih =>
    have hp := List.pairwise_append.1 hL
    have hpre := hp.1
    have hlast : ∀ a ∈ L, ¬ S ⊆ a := fun a ha => hp.2.2 a ha S (by simp)
    rw [List.foldl_append, ih hpre, List.foldl_cons, List.foldl_nil]
    have hin : ∀ a ∈ L, (MinimalIn v pi (L ++ [S]) a ↔ MinimalIn v pi L a) := by
      intro a ha
      unfold MinimalIn
      constructor
      · rintro ⟨h1, h2⟩; exact ⟨h1, fun T hT => h2 T (by simp [hT])⟩
      · rintro ⟨h1, h2⟩
        refine ⟨h1, fun T hT hv hs => ?_⟩
        rcases List.mem_append.1 hT with hT | hT
        · exact h2 T hT hv hs
        · simp at hT; subst hT
          exact absurd hs (hlast a ha)
    have hfil : (L.filter fun a => decide (MinimalIn v pi (L ++ [S]) a)) = L.filter fun a => decide (MinimalIn v pi L a) := by
      apply List.filter_congr
      intro a ha
      rw [Bool.eq_iff_iff]; simp [hin a ha]
    have hsubs : hasSubset (([-1], -1) :: (L.filter fun S => decide (MinimalIn v pi L S)).map fun S => (S.map (↑), v S)) S = true
        ↔ ∃ T ∈ L, MinimalIn v pi L T ∧ T ⊆ S := by
      unfold hasSubset
      simp only [List.any_cons, List.any_map, Bool.or_eq_true, List.any_eq_true, List.mem_filter, decide_eq_true_eq]
      constructor
      · rintro (h | ⟨T, ⟨h1, h2⟩, h3⟩)
        · simp at h
        · refine ⟨T, h1, h2, ?_⟩
          intro c hc
          simp only [Function.comp_apply, List.all_map, List.all_eq_true, Function.comp_apply, decide_eq_true_eq] at h3
          have := h3 c hc
          simpa using this
      · rintro ⟨T, h1, h2, h3⟩
        right
        refine ⟨T, ⟨h1, h2⟩, ?_⟩
        simp only [Function.comp_apply, List.all_map, List.all_eq_true, decide_eq_true_eq]
        intro c hc
        exact List.mem_map.2 ⟨c, h3 hc, rfl⟩
    -- every sufficient set contains a minimal one
    have hmin : ∀ n, ∀ pre post, L = pre ++ post → pre.length = n → ∀ T ∈ pre, pi ≤ v T → T ⊆ S →
        ∃ U ∈ L, MinimalIn v pi L U ∧ U ⊆ S := by
      intro n
      induction n using Nat.strong_induction_on with
      | _ n ihn =>
        intro pre post hLe hn T hT hv hs
        by_cases hm : MinimalIn v pi L T
        · exact ⟨T, by rw [hLe]; simp [hT], hm, hs⟩
        · unfold MinimalIn at hm
          push Not at hm
          obtain ⟨U, hU, hvU, hUT, hne⟩ := hm hv
          obtain ⟨p1, p2, rfl⟩ := List.append_of_mem hT
          -- U comes before T
          have hU' : U ∈ p1 := by
            rw [hLe] at hU hpre
            simp only [List.append_assoc, List.cons_append] at hU hpre
            rcases List.mem_append.1 hU with h | h
            · exact h
            · rcases List.mem_cons.1 h with h | h
              · exact absurd h hne
              · have := (List.pairwise_append.1 hpre).2.1
                exact absurd hUT ((List.pairwise_cons.1 this).1 U h)
          refine ihn p1.length ?_ p1 (T :: p2 ++ post) (by rw [hLe]; simp) rfl U hU' hvU (List.Subset.trans hUT hs)
          simp at hn; omega
    have hsub2 : (∃ T ∈ L, MinimalIn v pi L T ∧ T ⊆ S) ↔ ∃ T ∈ L, pi ≤ v T ∧ T ⊆ S := by
      constructor
      · rintro ⟨T, h1, h2, h3⟩; exact ⟨T, h1, h2.1, h3⟩
      · rintro ⟨T, h1, h2, h3⟩; exact hmin _ L [] (by simp) rfl T h1 h2 h3
    have hself : MinimalIn v pi (L ++ [S]) S ↔ pi ≤ v S ∧ ¬ ∃ T ∈ L, pi ≤ v T ∧ T ⊆ S := by
      unfold MinimalIn
      constructor
      · rintro ⟨h1, h2⟩
        refine ⟨h1, ?_⟩
        rintro ⟨T, h3, h4, h5⟩
        have := h2 T (by simp [h3]) h4 h5
        subst this
        exact hlast T h3 (List.Subset.refl _)
      · rintro ⟨h1, h2⟩
        refine ⟨h1, fun T hT hv hs => ?_⟩
        rcases List.mem_append.1 hT with hT | hT
        · exact absurd ⟨T, hT, hv, hs⟩ h2
        · simpa using hT
    rw [List.filter_append, hfil]
    unfold suffStep
    by_cases hv : pi ≤ v S
    · rw [if_pos hv]
      by_cases hh : ∃ T ∈ L, pi ≤ v T ∧ T ⊆ S
      · rw [if_pos (hsubs.2 (hsub2.2 hh))]
        have : ¬ MinimalIn v pi (L ++ [S]) S := by rw [hself]; exact fun h => h.2 hh
        simp [this]
      · rw [if_neg (by rw [hsubs, hsub2]; exact hh)]
        have : MinimalIn v pi (L ++ [S]) S := by rw [hself]; exact ⟨hv, hh⟩
        simp [this]
    · rw [if_neg hv]
      have : ¬ MinimalIn v pi (L ++ [S]) S := fun h => hv h.1
      simp [this]

theorem foldl_levels {α β : Type} (f : α → β → α) : ∀ (levels : List (List β)) (a : α),
    levels.foldl (fun a l => l.foldl f a) a = levels.flatten.foldl f a
  | [], _ => rfl
  | l :: ls, a => by rw [List.foldl_cons, foldl_levels f ls, List.flatten_cons, List.foldl_append]

theorem levels_pairwise {cols : Nat} {players : List (List Nat)} (h : PlayersOk cols players) (a n : Nat) :
    (((List.range' a n).map (levelOf players)).flatten).Pairwise fun S T => ¬ T ⊆ S := by
  rw [List.pairwise_flatten]
  constructor
  · intro l hl
    obtain ⟨k, _, rfl⟩ := List.mem_map.1 hl
    unfold levelOf
    rw [List.pairwise_map]
    refine List.Pairwise.imp_of_mem ?_ (nodup_combos k h.players_nodup)
    intro co co' h1 h2 hne hs
    obtain ⟨h1, l1⟩ := mem_combos.1 h1
    obtain ⟨h2, l2⟩ := mem_combos.1 h2
    exact hne (((h.subset_length h1 h2 hs).2 (by omega)).symm)
  · rw [List.pairwise_map]
    refine List.Pairwise.imp ?_ (List.pairwise_lt_range' (s := a) (n := n))
    intro k k' hlt S hS T hT hs
    obtain ⟨co, h1, l1, rfl⟩ := mem_levelOf.1 hS
    obtain ⟨co', h2, l2, rfl⟩ := mem_levelOf.1 hT
    have := (h.subset_length h1 h2 hs).1
    omega

theorem mem_levels {players : List (List Nat)} {a n : Nat} {S : List Nat} :
    S ∈ ((List.range' a n).map (levelOf players)).flatten ↔ ∃ k, a ≤ k ∧ k < a + n ∧ Candidate players k S := by
  simp only [List.mem_flatten, List.mem_map, List.mem_range'_1]
  constructor
  · rintro ⟨_, ⟨k, h, rfl⟩, hS⟩; exact ⟨k, h.1, h.2, mem_levelOf.1 hS⟩
  · rintro ⟨k, h1, h2, hS⟩; exact ⟨_, ⟨k, ⟨h1, h2⟩, rfl⟩, mem_levelOf.2 hS⟩

theorem Candidate.le {players : List (List Nat)} {k : Nat} {S : List Nat} (h : Candidate players k S) :
    k ≤ players.length := by
  obtain ⟨co, h1, rfl, _⟩ := h
  exact h1.length_le

end Acv
