import Verif.Lemmas.Normalized

namespace Acv

theorem pySm_perm {C : List (List Nat)} {A B : List Nat} (h : ∀ s, s ∈ A ↔ s ∈ B) (i : PyVar) :
    (pySm C A i).Perm (pySm C B i) := by
  have hp : ((A.filter fun s => decide (s ∉ i.cols)).dedup).Perm ((B.filter fun s => decide (s ∉ i.cols)).dedup) := by
    rw [List.perm_ext_iff_of_nodup (List.nodup_dedup _) (List.nodup_dedup _)]
    intro s; simp [h]
  unfold pySm
  simp only
  split
  · have hin : (C.filter fun c => c.all fun s => decide (s ∈ (A.filter fun s => decide (s ∉ i.cols)).dedup))
        = C.filter fun c => c.all fun s => decide (s ∈ (B.filter fun s => decide (s ∉ i.cols)).dedup) := by
      apply List.filter_congr
      intro c _
      congr 1
      funext s
      simp [h]
    rw [hin]
    exact ((hp.filter _).map _).append_right _
  · exact hp.map _

theorem mem_pyNode_range {m : Nat} {C : List (List Nat)} (hC : ValidGroups m C) (s : Nat) :
    s ∈ pyNode C (List.range m) ↔ s ∈ List.range m := by
  rcases hC with rfl | ⟨hne, hg, hpd⟩
  · have h0 : hasGroups [[]] = false := rfl
    simp [pyNode, h0]
  · simp only [pyNode, hasGroups_of hne hg, if_true]
    rw [mem_pyNode_fold C (List.range m) (List.range m) hpd (by simp) s]
    constructor
    · rintro (h | ⟨c, hc, h, _⟩)
      · exact h
      · exact List.mem_range.mpr ((hg c hc).2.2 s h)
    · exact Or.inl

/-- the players of the enumeration and the remaining players -/
theorem pyEnum_spec {m : Nat} {C : List (List Nat)} (hC : ValidGroups m C) :
    (pyPlayers m C).Nodup ∧ (∀ a ∈ pyPlayers m C, ∀ b ∈ pyPlayers m C, a.cols = b.cols → a = b) ∧
    (∀ c, (∃ i ∈ pyPlayers m C, i.cols = c) ↔ c ∈ playerSet m C) ∧
    (∀ i ∈ pyPlayers m C, ((pySm C (List.range m) i).map PyVar.cols).Nodup) ∧
    (∀ i ∈ pyPlayers m C, ∀ c, c ∈ (pySm C (List.range m) i).map PyVar.cols ↔ c ∈ playerSet m C ∧ c ≠ i.cols) ∧
    (∀ i l, PyVar.list l ∈ pySm C (List.range m) i → l ∈ C) := by
  have hnode := mem_pyNode_range hC
  have hspec := pyLeaf_spec hC (vars := List.range m) (fun i hi => List.mem_range.mp hi)
  have hcols : ∀ i ∈ pyPlayers m C, ∀ s ∈ i.cols, s < m := by
    intro i hi s hs
    unfold pyPlayers at hi
    split at hi
    · rcases List.mem_append.mp hi with h | h
      · obtain ⟨k, hk, rfl⟩ := List.mem_map.mp h
        rw [PyVar.cols, List.mem_singleton] at hs
        rw [hs]; exact (mem_freeCols.mp hk).1
      · obtain ⟨c, hc, rfl⟩ := List.mem_map.mp h
        rcases hC with rfl | ⟨_, hg, _⟩
        · simp [hasGroups] at *
        · exact (hg c hc).2.2 s hs
    · obtain ⟨k, hk, rfl⟩ := List.mem_map.mp hi
      rw [PyVar.cols, List.mem_singleton] at hs
      rw [hs]; exact List.mem_range.mp hk
  have hQ : ((pyPlayers m C).filter fun i => i.cols.all fun s => decide (s ∈ pyNode C (List.range m))) = pyPlayers m C := by
    rw [List.filter_eq_self]
    intro i hi
    rw [List.all_eq_true]
    intro s hs
    rw [decide_eq_true_eq, hnode]
    exact List.mem_range.mpr (hcols i hi s hs)
  simp only [hQ] at hspec
  obtain ⟨h1, h2, h3, h4, h5, h6⟩ := hspec
  have htriv : ∀ c ∈ playerSet m C, ∃ s ∈ List.range m, s ∈ c := by
    intro c hc
    obtain ⟨ha, _, hb⟩ := playerSet_lt hC hc
    obtain ⟨s, hs⟩ := List.exists_mem_of_ne_nil c ha
    exact ⟨s, List.mem_range.mpr (hb s hs), hs⟩
  have hperm := fun i => pySm_perm (C := C) (A := List.range m) (B := pyNode C (List.range m)) (fun s => (hnode s).symm) i
  refine ⟨h1, h2, ?_, ?_, ?_, ?_⟩
  · intro c; rw [h3]; exact ⟨fun h => h.1, fun h => ⟨h, htriv c h⟩⟩
  · intro i hi; exact ((hperm i).map _).nodup_iff.mpr (h4 i hi)
  · intro i hi c
    rw [((hperm i).map _).mem_iff, h5 i hi]
    exact ⟨fun h => ⟨h.1.1, h.2⟩, fun h => ⟨⟨h.1, htriv c h.1⟩, h.2⟩⟩
  · intro i l hl; exact h6 i l ((hperm i).mem_iff.mp hl)

theorem pyD_card {m : Nat} {C : List (List Nat)} (hC : ValidGroups m C) : (playerSet m C).card = pyD m C := by
  obtain ⟨h1, h2, h3, _⟩ := pyEnum_spec hC
  have hset : playerSet m C = ((pyPlayers m C).map PyVar.cols).toFinset := by
    ext c; rw [List.mem_toFinset, List.mem_map, ← h3]
  rw [hset, List.toFinset_card_of_nodup ((List.nodup_map_iff_inj_on h1).mpr h2), List.length_map]
  rcases hC with rfl | ⟨hne, hg, hpd⟩
  · have h0 : hasGroups [[]] = false := rfl
    simp [pyPlayers, pyD, h0]
  · have := freeCols_length hg hpd
    simp only [pyPlayers, pyD, hasGroups_of hne hg, if_true, List.length_append, List.length_map]
    omega

theorem flatten_cols (S : List PyVar) : (S.map PyVar.cols).flatten = S.flatMap PyVar.cols := (List.flatMap_def ..).symm

/-- the enumeration computes the Shapley values of its value function -/
theorem shapEnum_eq {m : Nat} {C : List (List Nat)} (hC : ValidGroups m C) (hns : NoSingleton C) {v : List Nat → Option ℚ}
    {V : Finset (List Nat) → ℚ} (hv : ∀ L : List (List Nat), (∀ c ∈ L, c ∈ playerSet m C) → v L.flatten = some (V L.toFinset))
    {g : List Nat} (hg : g ∈ playerSet m C) {j : Nat} (hj : j ∈ g) :
    shapEnum v m C j = .ok (some (shapley (playerSet m C) V g)) := by
  obtain ⟨h1, h2, h3, h4, h5, h6⟩ := pyEnum_spec hC
  have hlen : ∀ i l, PyVar.list l ∈ pySm C (List.range m) i → 1 < l.length := by
    intro i l hl
    rcases hns with rfl | h
    · exfalso
      have h0 : hasGroups [[]] = false := rfl
      simp [pySm, h0] at hl
    · exact h l (h6 i l hl)
  -- every increment is finite
  have hw : enumWrites v m C = .ok ((pyPlayers m C).flatMap fun i => (powerset ((pySm C (List.range m) i).map PyVar.cols)).flatMap
      fun S => i.cols.map fun j => (j, some (1 / ((pyD m C - 1).choose S.length : ℚ) * (V (insert i.cols S.toFinset) - V S.toFinset)))) := by
    unfold enumWrites
    rw [mapM_ok _ _ (fun i => ((powerset (pySm C (List.range m) i)).map fun S => i.cols.map fun j =>
      (j, some (1 / ((pyD m C - 1).choose S.length : ℚ) *
        (V (insert i.cols (S.map PyVar.cols).toFinset) - V (S.map PyVar.cols).toFinset)))).flatten)]
    · simp only [bind, Except.bind, pure, Except.pure]
      congr 1
      rw [List.flatMap_def]
      congr 1
      apply List.map_congr_left
      intro i _
      rw [powerset_map, List.flatMap_map, ← List.flatMap_def]
      simp only [List.length_map]
    · intro i hi
      rw [mapM_ok _ _ (fun S => i.cols.map fun j => (j, some (1 / ((pyD m C - 1).choose S.length : ℚ) *
        (V (insert i.cols (S.map PyVar.cols).toFinset) - V (S.map PyVar.cols).toFinset))))]
      · rfl
      · intro S hS
        have hsub := (mem_powerset.mp hS).subset
        rw [chainL_ok S (fun l hl => hlen i l (hsub hl))]
        have hin : ∀ c ∈ S.map PyVar.cols, c ∈ playerSet m C := by
          intro c hc
          obtain ⟨p, hp, rfl⟩ := List.mem_map.mp hc
          exact ((h5 i hi p.cols).mp (List.mem_map_of_mem (hsub hp))).1
        have hvi := hv (S.map PyVar.cols ++ [i.cols]) (by
          intro c hc
          rcases List.mem_append.mp hc with hc | hc
          · exact hin c hc
          · rw [List.mem_singleton.mp hc]; exact (h3 _).mp ⟨i, hi, rfl⟩)
        rw [List.flatten_append, List.flatten_singleton] at hvi
        have hfs : (S.map PyVar.cols ++ [i.cols]).toFinset = insert i.cols (S.map PyVar.cols).toFinset := by
          ext c; simp [or_comm]
        simp only [bind, Except.bind, pure, Except.pure, hv _ hin, hvi, hfs, Option.bind]
  unfold shapEnum
  rw [hw]
  simp only [bind, Except.bind, pure, Except.pure]
  congr 1
  obtain ⟨i0, hi0, rfl⟩ := (h3 g).mpr hg
  rw [cellWrites_flatMap]
  simp only [cellWrites_flatMap, cellWrites_map_const]
  rw [flatMap_unique h1 hi0]
  swap
  · intro a ha hne
    have hca := (h3 a.cols).mp ⟨a, ha, rfl⟩
    have : a.cols.count j = 0 := List.count_eq_zero_of_not_mem fun hja =>
      hne (h2 a ha i0 hi0 (playerSet_disjoint hC hca hg hja hj))
    simp [this]
  have hone : i0.cols.count j = 1 := List.count_eq_one_of_mem (playerSet_lt hC hg).2.1 hj
  simp only [hone, List.replicate_one]
  rw [← List.map_eq_flatMap]
  set R := (pySm C (List.range m) i0).map PyVar.cols with hR
  have hRn := h4 i0 hi0
  rw [← hR] at hRn
  have hRm := h5 i0 hi0
  rw [← hR] at hRm
  have hmap : (powerset R).map (fun S => some (1 / ((pyD m C - 1).choose S.length : ℚ) * (V (insert i0.cols S.toFinset) - V S.toFinset)))
      = ((powerset R).map fun S => 1 / ((pyD m C - 1).choose S.length : ℚ) * (V (insert i0.cols S.toFinset) - V S.toFinset)).map some := by
    rw [List.map_map]; rfl
  rw [hmap, osum_some, Option.map_some]
  congr 1
  rw [powerset_sum R hRn _ (fun S => 1 / ((pyD m C - 1).choose S.card : ℚ) * (V (insert i0.cols S) - V S)) (by
    intro sel hs
    rw [List.toFinset_card_of_nodup (hRn.sublist hs)])]
  have hRset : R.toFinset = (playerSet m C).erase i0.cols := by
    ext c; rw [List.mem_toFinset, hRm, Finset.mem_erase]; tauto
  have hcard := pyD_card hC
  have hpos : 0 < (playerSet m C).card := Finset.card_pos.mpr ⟨_, hg⟩
  unfold shapley
  rw [hRset, Finset.sum_div]
  apply Finset.sum_congr rfl
  intro S hS
  have hSc : S.card ≤ (playerSet m C).card - 1 := by
    have := Finset.card_le_card (Finset.mem_powerset.mp hS)
    rwa [Finset.card_erase_of_mem hg] at this
  have hc := pyCoef_eq (m := pyD m C) (k := pyD m C - 1) (s := S.card) (by omega) (by omega)
  have hz : pyD m C - (pyD m C - 1) - 1 = 0 := by omega
  unfold pyCoef at hc
  rw [hz] at hc
  simp only [List.range'_zero, List.map_nil, List.sum_nil, add_zero] at hc
  rw [hcard, mul_div_right_comm, hc]
  congr 2
  omega

end Acv
