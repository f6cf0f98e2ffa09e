import Verif.Spec.Swing
import Verif.Lemmas.LeafShap
import Verif.Lemmas.TreeSdp
import Verif.Lemmas.Comb
import Verif.Lemmas.ActiveShap

namespace Acv

theorem maskSel_length {α : Type} (l : List α) (c : Nat) : (maskSel l c).length ≤ l.length := (maskSel_sublist l c).length_le

/-- for different players, only the player of column `j` writes, once per coalition of the others -/
theorem swingVisits_eq {players : List (List Nat)} (hnd : players.Nodup) (hd : players.Pairwise List.Disjoint) (hn : ∀ g ∈ players, g.Nodup)
    (hlen : players.length ≤ 32) {g : List Nat} (hg : g ∈ players) {j : Nat} (hj : j ∈ g) :
    swingVisits players j = (List.range (2 ^ (players.erase g).length)).map fun c => (g, maskSel (players.erase g) c) := by
  obtain ⟨i, hi, rfl⟩ := List.getElem_of_mem hg
  have hpow : 2 ^ (players.length - 1) % 2 ^ 32 = 2 ^ (players.length - 1) :=
    Nat.mod_eq_of_lt (Nat.pow_lt_pow_right (by decide) (by omega))
  have hlen' : (players.erase players[i]).length = players.length - 1 := List.length_erase_of_mem hg
  unfold swingVisits
  simp only
  rw [hpow, hlen']
  have hsplit : List.range players.length = List.range i ++ i :: (List.range (players.length - i - 1)).map (· + (i + 1)) := by
    have e : players.length = i + (1 + (players.length - i - 1)) := by omega
    conv_lhs => rw [e]
    rw [List.range_add, List.range_add, List.map_append, List.map_map]
    congr 1
    simp
    intro a _
    omega
  have hzero : ∀ k, k < players.length → k ≠ i → (players.getD k []).count j = 0 := by
    intro k hk hne
    rw [List.getD_eq_getElem?_getD, List.getElem?_eq_getElem hk, Option.getD_some]
    apply List.count_eq_zero_of_not_mem
    intro hj'
    rcases Nat.lt_or_gt_of_ne hne with h | h
    · exact List.pairwise_iff_getElem.1 hd k i hk hi h hj' hj
    · exact List.pairwise_iff_getElem.1 hd i k hi hk h hj hj'
  have hempty : ∀ (L : List Nat), (∀ k ∈ L, k < players.length ∧ k ≠ i) → (L.flatMap fun k =>
      (List.range (2 ^ (players.length - 1))).flatMap fun counter =>
        List.replicate ((players.getD k []).count j) (players.getD k [], maskSel (players.eraseIdx k) counter)) = [] := by
    intro L hL
    rw [List.flatMap_eq_nil_iff]
    intro k hk
    rw [hzero k (hL k hk).1 (hL k hk).2]
    simp
  rw [hsplit, List.flatMap_append, List.flatMap_cons, hempty _ ?_, hempty _ ?_, List.nil_append, List.append_nil]
  · have e1 : players.getD i [] = players[i] := by
      rw [List.getD_eq_getElem?_getD, List.getElem?_eq_getElem hi, Option.getD_some]
    have e2 : players.eraseIdx i = players.erase players[i] := (hnd.erase_getElem i hi).symm
    have e3 : players[i].count j = 1 := List.count_eq_one_of_mem (hn _ hg) hj
    rw [e1, e2, e3]
    simp only [List.replicate_one]
    rw [List.map_eq_flatMap]
  · intro k hk
    rw [List.mem_map] at hk
    obtain ⟨a, ha, rfl⟩ := hk
    rw [List.mem_range] at ha
    omega
  · intro k hk
    rw [List.mem_range] at hk
    omega

theorem swing_parts (L : List (List Nat × List (List Nat))) (d w : List Nat × List (List Nat) → ℚ) (m : ℚ) :
    (L.map fun v => (if 0 < d v then 1 else 0) * d v * w v / m).sum + (L.map fun v => (if d v < 0 then 1 else 0) * d v * w v / m).sum =
      (L.map fun v => w v * d v).sum / m := by
  induction L with
  | nil => simp
  | cons a L ih =>
    simp only [List.map_cons, List.sum_cons, add_div, ← ih]
    rcases lt_trichotomy (d a) 0 with h | h | h
    · rw [if_neg (not_lt.2 (le_of_lt h)), if_pos h]; ring
    · rw [h]; simp
    · rw [if_pos h, if_neg (not_lt.2 (le_of_lt h))]; ring

theorem swing_counts (L : List (List Nat × List (List Nat))) (d : List Nat × List (List Nat) → ℚ) :
    (L.filter fun v => decide (0 < d v)).length + (L.filter fun v => decide (d v < 0)).length +
      (L.filter fun v => decide (d v = 0)).length = L.length := by
  induction L with
  | nil => rfl
  | cons a L ih =>
    rcases lt_trichotomy (d a) 0 with h | h | h
    · simp [h, not_lt.2 (le_of_lt h), ne_of_lt h]; omega
    · simp [h]; omega
    · simp [h, not_lt.2 (le_of_lt h), ne_of_gt h]; omega

theorem players_facts {m : Nat} {C : List (List Nat)} (hC : ValidGroups m C) :
    (playersCy m C).Nodup ∧ (playersCy m C).Pairwise List.Disjoint ∧ (∀ g ∈ playersCy m C, g.Nodup) ∧
      (playersCy m C).toFinset = playerSet m C := by
  obtain ⟨h1, h2⟩ := playersCy_spec hC
  refine ⟨h1, ?_, fun g hg => (playerSet_lt hC ((h2 g).1 hg)).2.1, ?_⟩
  · refine List.Pairwise.imp_of_mem ?_ h1
    intro a b ha hb hne s hs hs'
    exact hne (playerSet_disjoint hC ((h2 a).1 ha) ((h2 b).1 hb) hs hs')
  · ext c
    rw [List.mem_toFinset, h2]

theorem colsOf_sel (sel : List (List Nat)) : colsOf sel.toFinset = sel.flatten.toFinset := by
  ext s
  simp [colsOf]

theorem colsOf_insert (g : List Nat) (T : Finset (List Nat)) : colsOf (insert g T) = g.toFinset ∪ colsOf T := by
  unfold colsOf
  rw [Finset.biUnion_insert]

/-- the accumulated value is the Shapley value -/
theorem swing_shapley {m : Nat} {C : List (List Nat)} (hC : ValidGroups m C) (hlen : (playerSet m C).card ≤ 32)
    {diff : List Nat → List Nat → ℚ} {G : Finset (List Nat) → ℚ}
    (hdiff : ∀ g ∈ playerSet m C, ∀ sel : List (List Nat), sel.Sublist ((playersCy m C).erase g) →
      diff sel.flatten g = G (insert g sel.toFinset) - G sel.toFinset)
    {g : List Nat} (hg : g ∈ playerSet m C) {j : Nat} (hj : j ∈ g) :
    (swing (playersCy m C) diff j).phi = shapley (playerSet m C) G g := by
  obtain ⟨hnd, hpd, hn, hset⟩ := players_facts hC
  have hgm : g ∈ playersCy m C := (playersCy_spec hC).2 g |>.2 hg
  have hcard : (playerSet m C).card = (playersCy m C).length := by rw [← hset, List.toFinset_card_of_nodup hnd]
  unfold swing
  simp only
  rw [swingVisits_eq hnd hpd hn (by omega) hgm hj]
  generalize hL : playersCy m C = L at *
  have hpos : 0 < L.length := List.length_pos_of_mem hgm
  have herase : (L.erase g).toFinset = (playerSet m C).erase g := by
    rw [← hset]
    ext c; simp [hnd.mem_erase_iff]
  have hbin : ∀ s, binomialC (L.length - 1) s = ((L.length - 1).choose s : ℚ) :=
    fun s => binomialC_eq (by unfold ulongMax; omega)
  have hms := mask_sum (L.erase g) (hnd.erase g)
    (fun sel => 1 / binomialC (L.length - 1) sel.length * diff sel.flatten g)
    (fun S => 1 / binomialC (L.length - 1) S.card * (G (insert g S) - G S))
    (by intro sel hs
        have : sel.toFinset.card = sel.length := List.toFinset_card_of_nodup ((hnd.erase g).sublist hs)
        rw [this, hdiff g hg sel hs])
  rw [List.map_map]
  have e : ((fun v : List Nat × List (List Nat) => 1 / binomialC (L.length - 1) v.2.length * diff v.2.flatten v.1) ∘
      fun c => (g, maskSel (L.erase g) c)) = fun c => 1 / binomialC (L.length - 1) (maskSel (L.erase g) c).length *
        diff (maskSel (L.erase g) c).flatten g := rfl
  rw [e, hms, Finset.sum_div, herase]
  unfold shapley
  apply Finset.sum_congr rfl
  intro S hS
  have hSc : S.card < L.length := by
    have h1 := Finset.card_le_card (Finset.mem_powerset.mp hS)
    rw [Finset.card_erase_of_mem hg] at h1
    omega
  rw [hcard, shapW_eq hSc, hbin]
  rw [mul_comm (L.length : ℚ), ← div_div]
  ring

theorem satCC_perm {r : Rect} {S S' : List Nat} (h : S.Perm S') (z : Row) : satCC r S z = satCC r S' z := by
  unfold satCC
  exact h.all_eq

theorem swingWins_perm (ts : List TreeArr) (m : Nat) (lab : Row → Nat) (data : List Row) (thr : ℚ) (x : Row) {S S' : List Nat}
    (h : S.Perm S') : swingWins ts m lab data thr x S = swingWins ts m lab data thr x S' := by
  unfold swingWins cntCC
  simp only [h.length_eq, satCC_perm h]
  have e : ∀ r, satCC r S = satCC r S' := fun r => funext fun z => satCC_perm h z
  simp only [e]

/-- The value of a set of columns. -/
noncomputable def winsOf (ts : List TreeArr) (m : Nat) (lab : Row → Nat) (data : List Row) (thr : ℚ) (x : Row) (T : Finset (List Nat)) : ℚ :=
  swingWins ts m lab data thr x (colsOf T).toList

theorem sel_nodup {m : Nat} {C : List (List Nat)} (hC : ValidGroups m C) {g : List Nat} (hg : g ∈ playerSet m C) {sel : List (List Nat)}
    (hs : sel.Sublist ((playersCy m C).erase g)) : sel.flatten.Nodup ∧ (sel.flatten ++ g).Nodup ∧ sel.Nodup ∧
      (∀ c ∈ sel, c ∈ playerSet m C ∧ c ≠ g) := by
  obtain ⟨hnd, hpd, hn, hset⟩ := players_facts hC
  have hm := (playersCy_spec hC).2
  have hsn : sel.Nodup := hs.nodup (hnd.erase g)
  have hmem : ∀ c ∈ sel, c ∈ playerSet m C ∧ c ≠ g := by
    intro c hc
    have := hs.subset hc
    rw [hnd.mem_erase_iff] at this
    exact ⟨(hm c).1 this.2, this.1⟩
  have h1 : sel.flatten.Nodup := by
    rw [List.nodup_flatten]
    refine ⟨fun l hl => (playerSet_lt hC (hmem l hl).1).2.1, ?_⟩
    refine List.Pairwise.imp_of_mem ?_ hsn
    intro a b ha hb hne s hs hs'
    exact hne (playerSet_disjoint hC (hmem a ha).1 (hmem b hb).1 hs hs')
  refine ⟨h1, ?_, hsn, hmem⟩
  rw [List.nodup_append]
  refine ⟨h1, (playerSet_lt hC hg).2.1, ?_⟩
  rintro s hs' b hb rfl
  obtain ⟨c, hc, hsc⟩ := List.mem_flatten.1 hs'
  exact (hmem c hc).2 (playerSet_disjoint hC (hmem c hc).1 hg hsc hb)

theorem swing_diff_wins {ts : List TreeArr} {m : Nat} {lab : Row → Nat} {data : List Row} {thr : ℚ} {x : Row} {C : List (List Nat)}
    (hC : ValidGroups m C) {g : List Nat} (hg : g ∈ playerSet m C) {sel : List (List Nat)} (hs : sel.Sublist ((playersCy m C).erase g)) :
    swingWins ts m lab data thr x (sel.flatten ++ g) - swingWins ts m lab data thr x sel.flatten =
      winsOf ts m lab data thr x (insert g sel.toFinset) - winsOf ts m lab data thr x sel.toFinset := by
  obtain ⟨h1, h2, -, -⟩ := sel_nodup hC hg hs
  unfold winsOf
  congr 1
  · apply swingWins_perm
    rw [colsOf_insert, colsOf_sel]
    rw [List.perm_ext_iff_of_nodup h2 (Finset.nodup_toList _)]
    intro a
    simp [or_comm]
  · apply swingWins_perm
    rw [colsOf_sel]
    rw [List.perm_ext_iff_of_nodup h1 (Finset.nodup_toList _)]
    intro a
    simp

theorem colsOf_players {m : Nat} {C : List (List Nat)} (hC : ValidGroups m C) : colsOf (playerSet m C) = Finset.range m := by
  ext s
  simp only [colsOf, Finset.mem_biUnion, List.mem_toFinset, Finset.mem_range]
  constructor
  · rintro ⟨g, hg, hs⟩
    exact (playerSet_lt hC hg).2.2 s hs
  · intro hs
    exact playerSet_cover hs

theorem colsOf_all_iff {m : Nat} {C : List (List Nat)} (hC : ValidGroups m C) {T : Finset (List Nat)} (hT : T ⊆ playerSet m C) :
    (colsOf T).card = m ↔ T = playerSet m C := by
  constructor
  · intro h
    have hsub : colsOf T ⊆ Finset.range m := by
      rw [← colsOf_players hC]
      exact Finset.biUnion_subset_biUnion_of_subset_left _ hT
    have heq : colsOf T = Finset.range m := Finset.eq_of_subset_of_card_le hsub (by rw [Finset.card_range, h])
    refine Finset.Subset.antisymm hT ?_
    intro g hg
    obtain ⟨h1, h2, h3⟩ := playerSet_lt hC hg
    obtain ⟨s, hs⟩ := List.exists_mem_of_ne_nil g h1
    have : s ∈ colsOf T := by rw [heq]; exact Finset.mem_range.2 (h3 s hs)
    simp only [colsOf, Finset.mem_biUnion, List.mem_toFinset] at this
    obtain ⟨g', hg', hs'⟩ := this
    rw [playerSet_disjoint hC hg (hT hg') hs hs']
    exact hg'
  · rintro rfl
    rw [colsOf_players hC, Finset.card_range]

theorem colsOf_empty_iff {m : Nat} {C : List (List Nat)} (hC : ValidGroups m C) {T : Finset (List Nat)} (hT : T ⊆ playerSet m C) :
    (colsOf T).card = 0 ↔ T = ∅ := by
  constructor
  · intro h
    rw [Finset.card_eq_zero] at h
    by_contra hne
    obtain ⟨g, hg⟩ := Finset.nonempty_iff_ne_empty.2 hne
    obtain ⟨h1, -, -⟩ := playerSet_lt hC (hT hg)
    obtain ⟨s, hs⟩ := List.exists_mem_of_ne_nil g h1
    have : s ∈ colsOf T := by
      simp only [colsOf, Finset.mem_biUnion, List.mem_toFinset]
      exact ⟨g, hg, hs⟩
    rw [h] at this
    simp at this
  · rintro rfl
    simp [colsOf]

theorem sat_colsOf {r : Rect} {T : Finset (List Nat)} {z : Row} : sat r (colsOf T).toList z = true ↔ AgreesOn r T z := by
  rw [sat_iff]
  simp only [Finset.mem_toList, colsOf, Finset.mem_biUnion, List.mem_toFinset, AgreesOn]
  constructor
  · intro h g hg s hs
    exact h s ⟨g, hg, hs⟩
  · rintro h s ⟨g, hg, hs⟩
    exact h g hg s hs

open Classical in
theorem swing_mean_eq {ts : List TreeArr} {m : Nat} (hts : ∀ t ∈ ts, WellFormed t m) {rows : List Row} {x : Row} (k : Nat)
    (hx : ∀ t ∈ ts, OffSplits t x) (hd : ∀ t ∈ ts, ∀ z ∈ rows, OffSplits t z) (T : Finset (List Nat)) :
    (sumLeaves ts k fun r v => if satCC r (colsOf T).toList x then
      guardDiv (cntCC rows r (List.range m) * v) (cntCC rows r (colsOf T).toList) else 0) = leafGame ts m rows x k T := by
  have : leafGame ts m rows x k T = sumLeaves ts k fun r v => v * leafShare m rows r x T := rfl
  rw [this]
  apply sumLeaves_congr
  intro t ht ℓ hℓ
  have hc : ∀ S, cntCC rows (t.leafRect ℓ) S = cnt rows (t.leafRect ℓ) S := fun S =>
    cntCC_eq fun z hz s => offSplits_lo (hts t ht) (hd t ht z hz) hℓ s
  rw [hc, hc, satCC_eq (fun s => offSplits_lo (hts t ht) (hx t ht) hℓ s)]
  unfold leafShare
  by_cases hs : AgreesOn (t.leafRect ℓ) T x
  · rw [if_pos (sat_colsOf.2 hs), if_pos hs, guardDiv_eq, cnt_range]
    have : cnt rows (t.leafRect ℓ) (colsOf T).toList = (rows.filter fun z => decide (AgreesOn (t.leafRect ℓ) T z)).length := by
      unfold cnt
      congr 1
      apply List.filter_congr
      intro z _
      rw [Bool.eq_iff_iff, sat_colsOf, decide_eq_true_iff]
    rw [this]
    ring
  · rw [if_neg (fun h => hs (sat_colsOf.1 h)), if_neg hs, mul_zero]

theorem winsOf_eq {ts : List TreeArr} {m : Nat} (hts : ∀ t ∈ ts, WellFormed t m) {lab : Row → Nat} {data : List Row} {thr : ℚ} {x : Row}
    {C : List (List Nat)} (hC : ValidGroups m C) (hx : ∀ t ∈ ts, OffSplits t x) (hd : ∀ t ∈ ts, ∀ z ∈ data, OffSplits t z)
    {T : Finset (List Nat)} (hT : T ⊆ playerSet m C) :
    winsOf ts m lab data thr x T = swingGame ts m lab data (playerSet m C) thr x T := by
  have hu : ∀ p : Row → Bool, ∀ t ∈ ts, ∀ z ∈ data.filter p, OffSplits t z := fun p t ht z hz => hd t ht z (List.mem_of_mem_filter hz)
  unfold winsOf swingWins swingGame
  simp only [Finset.length_toList, colsOf_all_iff hC hT, colsOf_empty_iff hC hT]
  simp only [swing_mean_eq hts (lab x) hx hd, swing_mean_eq hts (lab x) hx (hu _)]
  simp only [guardDiv_eq]
  by_cases h1 : T = playerSet m C
  · simp [h1]
  · by_cases h2 : T = ∅
    · simp [h1, h2]
    · simp [h1, h2]

end Acv
