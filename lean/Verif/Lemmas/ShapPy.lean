import Verif.Lemmas.LeafShapPy

namespace Acv

/-- valid coalition arguments for the Python version: no group of a single column -/
def NoSingleton (C : List (List Nat)) : Prop := C = [[]] ∨ ∀ g ∈ C, 1 < g.length

theorem mem_freeCols {m : Nat} {C : List (List Nat)} {i : Nat} : i ∈ freeCols m C ↔ i < m ∧ ∀ g ∈ C, i ∉ g := by
  simp only [freeCols, List.mem_filter, List.mem_range, decide_eq_true_eq, List.mem_flatten, not_exists, not_and]

theorem chainL_ok : ∀ (S : List PyVar), (∀ l, PyVar.list l ∈ S → 1 < l.length) →
    chainL S = .ok (S.map PyVar.cols).flatten
  | [], _ => rfl
  | .int i :: S, h => by
    rw [chainL, chainL_ok S (fun l hl => h l (by simp [hl]))]
    rfl
  | .list l :: S, h => by
    rw [chainL, chainL_ok S (fun l hl => h l (by simp [hl])), if_pos (h l (by simp))]
    rfl

/-- the exception-free form of the writes of a leaf -/
theorem pyLeafWrites_ok (m : Nat) (data : List Row) (C : List (List Nat)) (r : Rect) (vars : List Nat) (x : Row) (v : ℚ)
    (h : ∀ i l, PyVar.list l ∈ pySm C (pyNode C vars) i → 1 < l.length) :
    pyLeafWrites m data C r vars x v = .ok (absWrites m (pyD m C) data r x v
      ((pyPlayers m C).filter fun i => i.cols.all fun s => decide (s ∈ pyNode C vars)) PyVar.cols
      (fun i => (pySm C (pyNode C vars) i).map PyVar.cols)) := by
  unfold pyLeafWrites
  simp only
  rw [mapM_ok _ _ (fun i => ((powerset (pySm C (pyNode C vars) i)).map fun S =>
      i.cols.map fun j => (j, pyTerm m (pyD m C) (pySm C (pyNode C vars) i).length S.length data r x
        (S.map PyVar.cols).flatten i.cols v)).flatten)]
  · unfold absWrites
    simp only [bind, Except.bind, pure, Except.pure]
    congr 1
    rw [List.flatMap_def]
    congr 1
    apply List.map_congr_left
    intro i _
    rw [powerset_map, List.flatMap_map, ← List.flatMap_def]
    simp only [List.length_map]
  · intro i _
    rw [mapM_ok _ _ (fun S => i.cols.map fun j => (j, pyTerm m (pyD m C) (pySm C (pyNode C vars) i).length S.length
      data r x (S.map PyVar.cols).flatten i.cols v))]
    · rfl
    · intro S hS
      rw [chainL_ok S (fun l hl => h i l ((mem_powerset.mp hS).subset hl))]
      rfl

theorem mem_pyNode_fold : ∀ (C : List (List Nat)) (vars node : List Nat), C.Pairwise List.Disjoint →
    (∀ c ∈ C, ∀ i ∈ c, (i ∈ node ↔ i ∈ vars)) → ∀ s,
    (s ∈ C.foldl (fun node c => if c.any (fun i => decide (i ∈ node)) then node ++ c else node) node ↔
      s ∈ node ∨ ∃ c ∈ C, s ∈ c ∧ ∃ i ∈ c, i ∈ vars)
  | [], vars, node, _, _, s => by simp
  | c :: C, vars, node, hpd, hnode, s => by
    rw [List.pairwise_cons] at hpd
    rw [List.foldl_cons]
    have hmeet : (c.any (fun i => decide (i ∈ node))) = true ↔ ∃ i ∈ c, i ∈ vars := by
      simp only [List.any_eq_true, decide_eq_true_eq]
      constructor
      · rintro ⟨i, hi, hin⟩; exact ⟨i, hi, (hnode c (by simp) i hi).mp hin⟩
      · rintro ⟨i, hi, hin⟩; exact ⟨i, hi, (hnode c (by simp) i hi).mpr hin⟩
    by_cases hm : ∃ i ∈ c, i ∈ vars
    · rw [if_pos (hmeet.mpr hm), mem_pyNode_fold C vars (node ++ c) hpd.2 (by
        intro c' hc' i hi
        rw [List.mem_append]
        constructor
        · rintro (h | h)
          · exact (hnode c' (by simp [hc']) i hi).mp h
          · exact absurd hi (fun hi' => hpd.1 c' hc' h hi')
        · intro h; exact Or.inl ((hnode c' (by simp [hc']) i hi).mpr h))]
      rw [List.mem_append]
      constructor
      · rintro ((h | h) | ⟨c', hc', h⟩)
        · exact Or.inl h
        · exact Or.inr ⟨c, by simp, h, hm⟩
        · exact Or.inr ⟨c', by simp [hc'], h⟩
      · rintro (h | ⟨c', hc', h⟩)
        · exact Or.inl (Or.inl h)
        · rcases List.mem_cons.mp hc' with rfl | hc'
          · exact Or.inl (Or.inr h.1)
          · exact Or.inr ⟨c', hc', h⟩
    · rw [if_neg (fun h => hm (hmeet.mp h)), mem_pyNode_fold C vars node hpd.2 (by
        intro c' hc' i hi; exact hnode c' (by simp [hc']) i hi)]
      constructor
      · rintro (h | ⟨c', hc', h⟩)
        · exact Or.inl h
        · exact Or.inr ⟨c', by simp [hc'], h⟩
      · rintro (h | ⟨c', hc', h⟩)
        · exact Or.inl h
        · rcases List.mem_cons.mp hc' with rfl | hc'
          · exact absurd h.2 hm
          · exact Or.inr ⟨c', hc', h⟩

theorem hasGroups_of {m : Nat} {C : List (List Nat)} (hne : C ≠ []) (hg : ∀ g ∈ C, g ≠ [] ∧ g.Nodup ∧ ∀ s ∈ g, s < m) :
    hasGroups C = true := by
  obtain ⟨g0, C', rfl⟩ := List.exists_cons_of_ne_nil hne
  have := (hg g0 (by simp)).1
  simp [hasGroups, this]

theorem groups_nodup {m : Nat} {C : List (List Nat)} (hg : ∀ g ∈ C, g ≠ [] ∧ g.Nodup ∧ ∀ s ∈ g, s < m)
    (hpd : C.Pairwise List.Disjoint) : C.Nodup := by
  rw [List.nodup_iff_pairwise_ne]
  refine List.Pairwise.imp_of_mem ?_ hpd
  rintro a b ha _ hab rfl
  obtain ⟨s, hs⟩ := List.exists_mem_of_ne_nil a (hg a ha).1
  exact hab hs hs

theorem freeCols_nodup (m : Nat) (C : List (List Nat)) : (freeCols m C).Nodup := List.nodup_range.filter _

/-- number of free columns -/
theorem freeCols_length {m : Nat} {C : List (List Nat)} (hg : ∀ g ∈ C, g ≠ [] ∧ g.Nodup ∧ ∀ s ∈ g, s < m)
    (hpd : C.Pairwise List.Disjoint) : (freeCols m C).length + (C.map List.length).sum = m := by
  have hflat : C.flatten.Nodup := by
    rw [List.nodup_flatten]
    exact ⟨fun l hl => (hg l hl).2.1, hpd⟩
  have hperm : (freeCols m C ++ C.flatten).Perm (List.range m) := by
    rw [List.perm_ext_iff_of_nodup _ List.nodup_range]
    · intro s
      rw [List.mem_append, mem_freeCols, List.mem_flatten, List.mem_range]
      constructor
      · rintro (h | ⟨c, hc, hs⟩)
        · exact h.1
        · exact (hg c hc).2.2 s hs
      · intro hs
        by_cases h : ∃ c ∈ C, s ∈ c
        · exact Or.inr h
        · exact Or.inl ⟨hs, fun c hc hsc => h ⟨c, hc, hsc⟩⟩
    · rw [List.nodup_append]
      refine ⟨freeCols_nodup m C, hflat, ?_⟩
      rintro a ha b hb rfl
      obtain ⟨c, hc, hs⟩ := List.mem_flatten.mp hb
      exact (mem_freeCols.mp ha).2 c hc hs
  have := hperm.length_eq
  rw [List.length_append, List.length_flatten, List.length_range] at this
  exact this

theorem playerSet_card_le {m : Nat} {C : List (List Nat)} (hC : ValidGroups m C) : (playerSet m C).card ≤ pyD m C := by
  rcases hC with rfl | ⟨hne, hg, hpd⟩
  · have : pyD m [[]] = m := rfl
    rw [this]; exact playerSet_card (Or.inl rfl)
  · have e : pyD m C = (freeCols m C).length + C.length := by
      unfold pyD
      rw [hasGroups_of hne hg, if_pos rfl]
      have := freeCols_length hg hpd
      omega
    rw [e]
    have hsub : playerSet m C ⊆ ((freeCols m C).map ([·]) ++ C).toFinset := by
      intro c hc
      rw [List.mem_toFinset, List.mem_append]
      rcases mem_playerSet.mp hc with ⟨h, _⟩ | ⟨i, hi, hin, rfl⟩
      · exact Or.inr h
      · exact Or.inl (List.mem_map.mpr ⟨i, mem_freeCols.mpr ⟨hi, hin⟩, rfl⟩)
    refine (Finset.card_le_card hsub).trans ((List.toFinset_card_le _).trans ?_)
    simp

/-- the players of a leaf and the remaining players, Python version -/
theorem pyLeaf_spec {m : Nat} {C : List (List Nat)} (hC : ValidGroups m C) {vars : List Nat} (hlt : ∀ i ∈ vars, i < m) :
    let Q := (pyPlayers m C).filter fun i => i.cols.all fun s => decide (s ∈ pyNode C vars)
    Q.Nodup ∧ (∀ a ∈ Q, ∀ b ∈ Q, a.cols = b.cols → a = b) ∧
    (∀ c, (∃ i ∈ Q, i.cols = c) ↔ c ∈ playerSet m C ∧ ∃ s ∈ vars, s ∈ c) ∧
    (∀ i ∈ Q, ((pySm C (pyNode C vars) i).map PyVar.cols).Nodup) ∧
    (∀ i ∈ Q, ∀ c, c ∈ (pySm C (pyNode C vars) i).map PyVar.cols ↔
      (c ∈ playerSet m C ∧ ∃ s ∈ vars, s ∈ c) ∧ c ≠ i.cols) ∧
    (∀ i l, PyVar.list l ∈ pySm C (pyNode C vars) i → l ∈ C) := by
  intro Q
  rcases hC with rfl | ⟨hne, hg, hpd⟩
  · have h0 : hasGroups [[]] = false := rfl
    have hnode : pyNode [[]] vars = vars := by simp [pyNode, h0]
    have hQ : ∀ i, i ∈ Q ↔ ∃ k < m, i = .int k ∧ k ∈ vars := by
      intro i
      simp only [Q, pyPlayers, h0, Bool.false_eq_true, if_false, List.mem_filter, List.mem_map, List.mem_range, hnode,
        List.all_eq_true, decide_eq_true_eq]
      constructor
      · rintro ⟨⟨k, hk, rfl⟩, h⟩; exact ⟨k, hk, rfl, h k (by simp [PyVar.cols])⟩
      · rintro ⟨k, hk, rfl, h⟩; exact ⟨⟨k, hk, rfl⟩, by simpa [PyVar.cols] using h⟩
    have hSm : ∀ i, pySm [[]] (pyNode [[]] vars) i = ((vars.filter fun s => decide (s ∉ i.cols)).dedup).map .int := by
      intro i; simp [pySm, h0, hnode]
    refine ⟨?_, ?_, ?_, ?_, ?_, ?_⟩
    · apply List.Nodup.filter
      simp only [pyPlayers, h0, Bool.false_eq_true, if_false]
      exact List.nodup_range.map (fun a b h => by simpa using h)
    · intro a ha b hb hab
      obtain ⟨k, _, rfl, _⟩ := (hQ a).mp ha
      obtain ⟨k', _, rfl, _⟩ := (hQ b).mp hb
      simpa [PyVar.cols] using hab
    · intro c
      rw [mem_playerSet]
      constructor
      · rintro ⟨i, hi, rfl⟩
        obtain ⟨k, hk, rfl, hkv⟩ := (hQ i).mp hi
        exact ⟨Or.inr ⟨k, hk, by simp, rfl⟩, k, hkv, by simp [PyVar.cols]⟩
      · rintro ⟨⟨h1, h2⟩ | ⟨k, hk, _, rfl⟩, s, hs, hsc⟩
        · simp at h1; exact absurd h1 h2
        · simp only [List.mem_singleton] at hsc; subst hsc
          exact ⟨.int s, (hQ _).mpr ⟨s, hk, rfl, hs⟩, rfl⟩
    · intro i _
      rw [hSm, List.map_map]
      exact (List.nodup_dedup _).map (fun a b h => by simpa [PyVar.cols] using h)
    · intro i hi c
      obtain ⟨k, hk, rfl, hkv⟩ := (hQ i).mp hi
      rw [hSm, List.map_map, mem_playerSet]
      simp only [List.mem_map, List.mem_dedup, List.mem_filter, decide_eq_true_eq, Function.comp, PyVar.cols,
        List.mem_singleton]
      constructor
      · rintro ⟨s, ⟨hs, hne⟩, rfl⟩
        exact ⟨⟨Or.inr ⟨s, hlt s hs, by simp, rfl⟩, s, hs, by simp⟩, by simpa using hne⟩
      · rintro ⟨⟨⟨h1, h2⟩ | ⟨q, hq, _, rfl⟩, s, hs, hsc⟩, hne⟩
        · exact absurd h1 h2
        · simp only [List.mem_singleton] at hsc; subst hsc
          exact ⟨s, ⟨hs, by simpa using hne⟩, rfl⟩
    · intro i l hl
      rw [hSm] at hl
      simp at hl
  · have h0 := hasGroups_of hne hg
    have hnode : ∀ s, s ∈ pyNode C vars ↔ s ∈ vars ∨ ∃ c ∈ C, s ∈ c ∧ ∃ i ∈ c, i ∈ vars := by
      intro s
      simp only [pyNode, h0, if_true]
      exact mem_pyNode_fold C vars vars hpd (by simp) s
    have hdisj : ∀ c ∈ C, ∀ c' ∈ C, ∀ s, s ∈ c → s ∈ c' → c = c' := by
      intro c hc c' hc' s hs hs'
      by_contra hne
      exact (hpd.forall hc hc' hne) hs hs'
    have hnodefree : ∀ s, (∀ c ∈ C, s ∉ c) → (s ∈ pyNode C vars ↔ s ∈ vars) := by
      intro s hs
      rw [hnode]
      constructor
      · rintro (h | ⟨c, hc, h, _⟩)
        · exact h
        · exact absurd h (hs c hc)
      · exact Or.inl
    have hnodegrp : ∀ c ∈ C, ∀ s ∈ c, (s ∈ pyNode C vars ↔ ∃ i ∈ c, i ∈ vars) := by
      intro c hc s hs
      rw [hnode]
      constructor
      · rintro (h | ⟨c', hc', h, h'⟩)
        · exact ⟨s, hs, h⟩
        · rw [hdisj c hc c' hc' s hs h]; exact h'
      · intro h; exact Or.inr ⟨c, hc, hs, h⟩
    have hQ : ∀ i, i ∈ Q ↔ (∃ k ∈ freeCols m C, i = .int k ∧ k ∈ vars) ∨ (∃ c ∈ C, i = .list c ∧ ∃ s ∈ c, s ∈ vars) := by
      intro i
      simp only [Q, pyPlayers, h0, if_true, List.mem_filter, List.mem_append, List.mem_map, List.all_eq_true,
        decide_eq_true_eq]
      constructor
      · rintro ⟨⟨k, hk, rfl⟩ | ⟨c, hc, rfl⟩, h⟩
        · exact Or.inl ⟨k, hk, rfl, (hnodefree k (mem_freeCols.mp hk).2).mp (h k (by simp [PyVar.cols]))⟩
        · obtain ⟨s, hs⟩ := List.exists_mem_of_ne_nil c (hg c hc).1
          exact Or.inr ⟨c, hc, rfl, (hnodegrp c hc s hs).mp (h s hs)⟩
      · rintro (⟨k, hk, rfl, hkv⟩ | ⟨c, hc, rfl, hcv⟩)
        · refine ⟨Or.inl ⟨k, hk, rfl⟩, ?_⟩
          intro s hs
          simp only [PyVar.cols, List.mem_singleton] at hs
          subst hs
          exact (hnodefree s (mem_freeCols.mp hk).2).mpr hkv
        · exact ⟨Or.inr ⟨c, hc, rfl⟩, fun s hs => (hnodegrp c hc s hs).mpr hcv⟩
    -- the columns `Sm` before collapsing
    have hcol : ∀ i s, s ∈ ((pyNode C vars).filter fun s => decide (s ∉ i.cols)).dedup ↔
        s ∈ pyNode C vars ∧ s ∉ PyVar.cols i := by
      intro i s; simp
    have hins : ∀ i ∈ Q, ∀ c, c ∈ (C.filter fun c => c.all fun s => decide
        (s ∈ ((pyNode C vars).filter fun s => decide (s ∉ i.cols)).dedup)) ↔
        c ∈ C ∧ (∃ s ∈ c, s ∈ vars) ∧ c ≠ i.cols := by
      intro i hi c
      simp only [List.mem_filter, List.all_eq_true, decide_eq_true_eq, hcol]
      constructor
      · rintro ⟨hc, h⟩
        obtain ⟨s, hs⟩ := List.exists_mem_of_ne_nil c (hg c hc).1
        refine ⟨hc, (hnodegrp c hc s hs).mp (h s hs).1, ?_⟩
        intro he
        exact (h s hs).2 (he ▸ hs)
      · rintro ⟨hc, hv, hne⟩
        refine ⟨hc, fun s hs => ⟨(hnodegrp c hc s hs).mpr hv, ?_⟩⟩
        intro hsi
        rcases (hQ i).mp hi with ⟨k, hk, rfl, _⟩ | ⟨c', hc', rfl, _⟩
        · simp only [PyVar.cols, List.mem_singleton] at hsi
          subst hsi
          exact (mem_freeCols.mp hk).2 c hc hs
        · exact hne (hdisj c hc c' hc' s hs hsi)
    have hSm : ∀ i ∈ Q, ∀ p, p ∈ pySm C (pyNode C vars) i ↔
        (∃ s, p = .int s ∧ s ∈ freeCols m C ∧ s ∈ vars ∧ [s] ≠ i.cols) ∨
        (∃ c ∈ C, p = .list c ∧ (∃ s ∈ c, s ∈ vars) ∧ c ≠ i.cols) := by
      intro i hi p
      simp only [pySm, h0, if_true, List.mem_append]
      apply or_congr
      · rw [List.mem_map]
        simp only [List.mem_filter, decide_eq_true_eq, List.mem_flatten, not_exists, not_and]
        constructor
        · rintro ⟨s, ⟨hs, hns⟩, rfl⟩
          rw [hcol] at hs
          have hfree : ∀ c ∈ C, s ∉ c := by
            intro c hc hsc
            refine hns c ?_ hsc
            have := (hins i hi c).mpr ⟨hc, (hnodegrp c hc s hsc).mp hs.1, fun he => hs.2 (he ▸ hsc)⟩
            simpa using this
          have hsv := (hnodefree s hfree).mp hs.1
          refine ⟨s, rfl, mem_freeCols.mpr ⟨hlt s hsv, hfree⟩, hsv, ?_⟩
          intro he; exact hs.2 (he ▸ by simp)
        · rintro ⟨s, rfl, hsf, hsv, hne⟩
          refine ⟨s, ⟨(hcol i s).mpr ⟨(hnodefree s (mem_freeCols.mp hsf).2).mpr hsv, ?_⟩, ?_⟩, rfl⟩
          · intro hsi
            rcases (hQ i).mp hi with ⟨k, hk, rfl, _⟩ | ⟨c', hc', rfl, _⟩
            · simp only [PyVar.cols, List.mem_singleton] at hsi
              subst hsi
              exact hne rfl
            · exact (mem_freeCols.mp hsf).2 c' hc' hsi
          · intro c hc hsc
            exact (mem_freeCols.mp hsf).2 c hc.1 hsc
      · rw [List.mem_map]
        constructor
        · rintro ⟨c, hc, rfl⟩
          have := (hins i hi c).mp hc
          exact ⟨c, this.1, rfl, this.2⟩
        · rintro ⟨c, hc, rfl, h⟩
          exact ⟨c, (hins i hi c).mpr ⟨hc, h⟩, rfl⟩
    refine ⟨?_, ?_, ?_, ?_, ?_, ?_⟩
    · apply List.Nodup.filter
      simp only [pyPlayers, h0, if_true]
      rw [List.nodup_append]
      refine ⟨(freeCols_nodup m C).map (fun a b h => by simpa using h), (groups_nodup hg hpd).map (fun a b h => by simpa using h), ?_⟩
      rintro a ha b hb rfl
      obtain ⟨_, _, rfl⟩ := List.mem_map.mp ha
      simp at hb
    · intro a ha b hb hab
      rcases (hQ a).mp ha with ⟨k, hk, rfl, _⟩ | ⟨c, hc, rfl, _⟩ <;>
      rcases (hQ b).mp hb with ⟨k', hk', rfl, _⟩ | ⟨c', hc', rfl, _⟩ <;> simp only [PyVar.cols] at hab
      · simpa using hab
      · exact absurd (hab ▸ List.mem_singleton_self k) ((mem_freeCols.mp hk).2 c' hc')
      · exact absurd (hab ▸ List.mem_singleton_self k') ((mem_freeCols.mp hk').2 c hc)
      · rw [hab]
    · intro c
      rw [mem_playerSet]
      constructor
      · rintro ⟨i, hi, rfl⟩
        rcases (hQ i).mp hi with ⟨k, hk, rfl, hkv⟩ | ⟨c, hc, rfl, s, hs, hsv⟩
        · exact ⟨Or.inr ⟨k, (mem_freeCols.mp hk).1, (mem_freeCols.mp hk).2, rfl⟩, k, hkv, by simp [PyVar.cols]⟩
        · exact ⟨Or.inl ⟨hc, (hg c hc).1⟩, s, hsv, hs⟩
      · rintro ⟨⟨hc, _⟩ | ⟨k, hk, hkn, rfl⟩, s, hs, hsc⟩
        · exact ⟨.list c, (hQ _).mpr (Or.inr ⟨c, hc, rfl, s, hsc, hs⟩), rfl⟩
        · simp only [List.mem_singleton] at hsc; subst hsc
          exact ⟨.int s, (hQ _).mpr (Or.inl ⟨s, mem_freeCols.mpr ⟨hk, hkn⟩, rfl, hs⟩), rfl⟩
    · intro i hi
      have hinjSm : ∀ a ∈ pySm C (pyNode C vars) i, ∀ b ∈ pySm C (pyNode C vars) i, a.cols = b.cols → a = b := by
        intro a ha b hb hab
        rcases (hSm i hi a).mp ha with ⟨k, rfl, hk, _⟩ | ⟨c, hc, rfl, _⟩ <;>
        rcases (hSm i hi b).mp hb with ⟨k', rfl, hk', _⟩ | ⟨c', hc', rfl, _⟩ <;> simp only [PyVar.cols] at hab
        · simpa using hab
        · exact absurd (hab ▸ List.mem_singleton_self k) ((mem_freeCols.mp hk).2 c' hc')
        · exact absurd (hab ▸ List.mem_singleton_self k') ((mem_freeCols.mp hk').2 c hc)
        · rw [hab]
      have hnd : (pySm C (pyNode C vars) i).Nodup := by
        simp only [pySm, h0, if_true]
        rw [List.nodup_append]
        refine ⟨((List.nodup_dedup _).filter _).map (fun a b h => by simpa using h),
          ((groups_nodup hg hpd).filter _).map (fun a b h => by simpa using h), ?_⟩
        rintro a ha b hb rfl
        obtain ⟨_, _, rfl⟩ := List.mem_map.mp ha
        simp at hb
      rw [List.nodup_map_iff_inj_on hnd]
      exact hinjSm
    · intro i hi c
      rw [List.mem_map, mem_playerSet]
      constructor
      · rintro ⟨p, hp, rfl⟩
        rcases (hSm i hi p).mp hp with ⟨k, rfl, hk, hkv, hne⟩ | ⟨c, hc, rfl, ⟨s, hs, hsv⟩, hne⟩
        · exact ⟨⟨Or.inr ⟨k, (mem_freeCols.mp hk).1, (mem_freeCols.mp hk).2, rfl⟩, k, hkv, by simp [PyVar.cols]⟩, hne⟩
        · exact ⟨⟨Or.inl ⟨hc, (hg c hc).1⟩, s, hsv, hs⟩, hne⟩
      · rintro ⟨⟨⟨hc, _⟩ | ⟨k, hk, hkn, rfl⟩, s, hs, hsc⟩, hne⟩
        · exact ⟨.list c, (hSm i hi _).mpr (Or.inr ⟨c, hc, rfl, ⟨s, hsc, hs⟩, hne⟩), rfl⟩
        · simp only [List.mem_singleton] at hsc; subst hsc
          exact ⟨.int s, (hSm i hi _).mpr (Or.inl ⟨s, rfl, mem_freeCols.mpr ⟨hk, hkn⟩, hs, hne⟩), rfl⟩
    · intro i l hl
      simp only [pySm, h0, if_true, List.mem_append, List.mem_map] at hl
      rcases hl with ⟨_, _, h⟩ | ⟨c, hc, h⟩
      · simp at h
      · cases h; exact (List.mem_filter.mp hc).1

/-- lists of writes of leaves, all finite -/
theorem cell_sum {ι : Type} (ls : List ι) (W : ι → List (Nat × Option ℚ)) (j : Nat) (f : ι → ℚ) (d : ℚ)
    (h : ∀ ℓ ∈ ls, ∃ l : List ℚ, cellWrites (W ℓ) j = l.map some ∧ l.sum / d = f ℓ) :
    (osum (cellWrites (ls.flatMap W) j)).map (fun p => p / d) = some (ls.map f).sum := by
  have : ∃ L : List ℚ, cellWrites (ls.flatMap W) j = L.map some ∧ L.sum / d = (ls.map f).sum := by
    rw [cellWrites_flatMap]
    induction ls with
    | nil => exact ⟨[], by simp, by simp⟩
    | cons a ls ih =>
      obtain ⟨l, h1, h2⟩ := h a (by simp)
      obtain ⟨L, h3, h4⟩ := ih (fun ℓ hℓ => h ℓ (by simp [hℓ]))
      refine ⟨l ++ L, ?_, ?_⟩
      · rw [List.flatMap_cons, h1, h3, List.map_append]
      · rw [List.sum_append, add_div, h2, h4, List.map_cons, List.sum_cons]
  obtain ⟨L, h1, h2⟩ := this
  rw [h1, osum_some, Option.map_some, h2]

theorem shapPy_eq {ts : List TreeArr} {m : Nat} (hts : ∀ t ∈ ts, WellFormed t m) {data : List Row}
    {C : List (List Nat)} (hC : ValidGroups m C) (hns : NoSingleton C) (x : Row) (k : Nat)
    (hleaf : ∀ t ∈ ts, ∀ ℓ ∈ t.leafIdx, 0 < cnt data (t.leafRect ℓ) (List.range m))
    {g : List Nat} (hg : g ∈ playerSet m C) {j : Nat} (hj : j ∈ g) :
    shapPy ts m data C x j k = .ok (some (shapley (playerSet m C) (leafGame ts m data x k) g)) := by
  have hlen : ∀ t ∈ ts, ∀ ℓ ∈ t.leafIdx, ∀ i l,
      PyVar.list l ∈ pySm C (pyNode C (t.leafCols ℓ)) i → 1 < l.length := by
    intro t ht ℓ hℓ i l hl
    rcases hns with rfl | h
    · exfalso
      have h0 : hasGroups [[]] = false := rfl
      simp [pySm, h0] at hl
    · exact h l ((pyLeaf_spec hC (leafCols_spec (hts t ht) hℓ).2.1).2.2.2.2.2 i l hl)
  have htree : ∀ t ∈ ts, shapTreePy t m data C x j k = .ok (some (t.leafIdx.map fun ℓ => t.value ℓ k *
      shapley (playerSet m C) (leafShare m data (t.leafRect ℓ) x) g).sum) := by
    intro t ht
    unfold shapTreePy
    rw [mapM_ok _ _ _ (fun ℓ hℓ => pyLeafWrites_ok m data C (t.leafRect ℓ) (t.leafCols ℓ) x (t.value ℓ k)
      (hlen t ht ℓ hℓ))]
    simp only [bind, Except.bind, pure, Except.pure]
    rw [← List.flatMap_def, cell_sum]
    intro ℓ hℓ
    obtain ⟨h1, h2, h3, h4, h5, _⟩ := pyLeaf_spec hC (leafCols_spec (hts t ht) hℓ).2.1
    exact absLeaf (hts t ht) hℓ hC x (t.value ℓ k) (playerSet_card_le hC) h1 h2 h3 h4 h5 (hleaf t ht ℓ hℓ) hg hj
  unfold shapPy
  rw [mapM_ok _ _ _ htree]
  simp only [bind, Except.bind, pure, Except.pure]
  rw [osum_of_forall ts _ (fun t : TreeArr => (t.leafIdx.map fun ℓ => t.value ℓ k *
      shapley (playerSet m C) (leafShare m data (t.leafRect ℓ) x) g).sum) (fun _ _ => rfl)]
  have h1 : leafGame ts m data x k = fun S => (ts.map fun t => (fun S => (t.leafIdx.map fun ℓ =>
      t.value ℓ k * leafShare m data (t.leafRect ℓ) x S).sum) S).sum := rfl
  rw [h1, shapley_sum]
  congr 3
  apply List.map_congr_left
  intro t ht
  rw [shapley_sum (playerSet m C) t.leafIdx (fun ℓ S => t.value ℓ k * leafShare m data (t.leafRect ℓ) x S) g]
  congr 1
  apply List.map_congr_left
  intro ℓ hℓ
  rw [shapley_mul]


/-! ### version 2 -/

theorem v2Group_spec (rv : List (List Nat)) : ∀ (is : List Nat) (buff : List (List Nat)), is.Nodup →
    buff.Pairwise List.Disjoint → (∀ c ∈ buff, c ≠ []) →
    (∀ c, c ∈ v2Group rv is buff ↔ (c ∈ buff ∧ ∃ i ∈ is, i ∈ c)) ∧ (v2Group rv is buff).Nodup := by
  intro is buff hnd hpd hne
  have e : ∀ is buff, v2Group rv is buff = groupUp [] is buff := by
    intro is
    induction is with
    | nil => intros; rfl
    | cons i is ih =>
      intro buff
      rw [v2Group, groupUp, v2InRemove, if_neg (by simp), if_neg (by simp)]
      cases buff.find? (fun c => decide (i ∈ c)) <;> simp [ih]
  rw [e]
  obtain ⟨h1, h2⟩ := groupUp_spec [] is buff hnd hpd hne (by simp)
  refine ⟨fun c => ?_, h2⟩
  rw [h1]; simp

theorem mem_v2Players {m : Nat} {C : List (List Nat)} (hC : ValidGroups m C) :
    (v2Players m C).Nodup ∧ ∀ c, c ∈ v2Players m C ↔ c ∈ playerSet m C := by
  rcases hC with rfl | ⟨hne, hg, hpd⟩
  · have h0 : hasGroups [[]] = false := rfl
    simp only [v2Players, h0, Bool.false_eq_true, if_false, mem_playerSet]
    refine ⟨List.nodup_range.map (fun a b h => by simpa using h), fun c => ?_⟩
    simp only [List.mem_map, List.mem_range, List.mem_singleton]
    constructor
    · rintro ⟨i, hi, rfl⟩; exact Or.inr ⟨i, hi, by simp, rfl⟩
    · rintro (⟨h1, h2⟩ | ⟨i, hi, _, rfl⟩)
      · exact absurd h1 h2
      · exact ⟨i, hi, rfl⟩
  · have h0 := hasGroups_of hne hg
    simp only [v2Players, h0, if_true, mem_playerSet]
    constructor
    · rw [List.nodup_append]
      refine ⟨(freeCols_nodup m C).map (fun a b h => by simpa using h), groups_nodup hg hpd, ?_⟩
      rintro a ha b hb rfl
      obtain ⟨i, hi, rfl⟩ := List.mem_map.mp ha
      exact (mem_freeCols.mp hi).2 [i] hb (by simp)
    · intro c
      rw [List.mem_append, List.mem_map]
      constructor
      · rintro (⟨i, hi, rfl⟩ | hc)
        · exact Or.inr ⟨i, (mem_freeCols.mp hi).1, (mem_freeCols.mp hi).2, rfl⟩
        · exact Or.inl ⟨hc, (hg c hc).1⟩
      · rintro (⟨hc, _⟩ | ⟨i, hi, hin, rfl⟩)
        · exact Or.inr hc
        · exact Or.inl ⟨i, mem_freeCols.mpr ⟨hi, hin⟩, rfl⟩

/-- the players of a leaf, version 2: correct when there is no coalition, or when all columns of the leaf are grouped -/
theorem v2Node_spec {m : Nat} {C : List (List Nat)} (hC : ValidGroups m C) {vars : List Nat} (hnd : vars.Nodup)
    (hlt : ∀ i ∈ vars, i < m) (hcov : C = [[]] ∨ ∀ i ∈ vars, ∃ g ∈ C, i ∈ g) :
    (v2Node m C vars).Nodup ∧ ∀ c, c ∈ v2Node m C vars ↔ c ∈ playerSet m C ∧ ∃ i ∈ vars, i ∈ c := by
  by_cases hC0 : C = [[]]
  · subst hC0
    have h0 : hasGroups [[]] = false := rfl
    have h := leafPlayers_spec (m := m) hC hnd hlt
    simpa only [v2Node, leafPlayersCy, h0, Bool.false_eq_true, if_false] using h
  · rcases hC with rfl | ⟨hne, hg, hpd⟩
    · exact absurd rfl hC0
    have h0 := hasGroups_of hne hg
    simp only [v2Node, h0, if_true]
    obtain ⟨h1, h2⟩ := v2Group_spec ((freeCols m C).map ([·])) vars C hnd hpd (fun c hc => (hg c hc).1)
    refine ⟨h2, fun c => ?_⟩
    rw [h1, mem_playerSet]
    constructor
    · rintro ⟨hc, h⟩; exact ⟨Or.inl ⟨hc, (hg c hc).1⟩, h⟩
    · rintro ⟨⟨hc, _⟩ | ⟨k, hk, hkn, rfl⟩, i, hi, hic⟩
      · exact ⟨hc, i, hi, hic⟩
      · simp only [List.mem_singleton] at hic; subst hic
        obtain ⟨g, hgC, hig⟩ := (hcov.resolve_left hC0) i hi
        exact absurd hig (hkn g hgC)

theorem v2LeafWrites_eq (m : Nat) (data : List Row) (C : List (List Nat)) (r : Rect) (vars : List Nat) (x : Row) (v : ℚ) :
    v2LeafWrites m data C r vars x v = absWrites m (v2Players m C).length data r x v
      ((v2Players m C).filter fun i => decide (i ∈ v2Node m C vars)) (fun i => i) (fun i => (v2Node m C vars).erase i) := rfl

theorem shapV2_eq {ts : List TreeArr} {m : Nat} (hts : ∀ t ∈ ts, WellFormed t m) {data : List Row}
    {C : List (List Nat)} (hC : ValidGroups m C) (x : Row) (k : Nat)
    (hcov : C = [[]] ∨ ∀ t ∈ ts, ∀ ℓ ∈ t.leafIdx, ∀ i ∈ t.leafCols ℓ, ∃ g ∈ C, i ∈ g)
    (hleaf : ∀ t ∈ ts, ∀ ℓ ∈ t.leafIdx, 0 < cnt data (t.leafRect ℓ) (List.range m))
    {g : List Nat} (hg : g ∈ playerSet m C) {j : Nat} (hj : j ∈ g) :
    shapV2 ts m data C x j k = some (shapley (playerSet m C) (leafGame ts m data x k) g) := by
  obtain ⟨hpn, hpm⟩ := mem_v2Players hC
  have hcard : (playerSet m C).card ≤ (v2Players m C).length := by
    have : playerSet m C ⊆ (v2Players m C).toFinset := fun c hc => List.mem_toFinset.mpr ((hpm c).mpr hc)
    exact (Finset.card_le_card this).trans (List.toFinset_card_le _)
  unfold shapV2
  rw [osum_of_forall ts _ (fun t : TreeArr => (t.leafIdx.map fun ℓ => t.value ℓ k *
      shapley (playerSet m C) (leafShare m data (t.leafRect ℓ) x) g).sum)]
  · have h1 : leafGame ts m data x k = fun S => (ts.map fun t => (fun S => (t.leafIdx.map fun ℓ =>
        t.value ℓ k * leafShare m data (t.leafRect ℓ) x S).sum) S).sum := rfl
    rw [h1, shapley_sum]
    congr 2
    apply List.map_congr_left
    intro t ht
    rw [shapley_sum (playerSet m C) t.leafIdx (fun ℓ S => t.value ℓ k * leafShare m data (t.leafRect ℓ) x S) g]
    congr 1
    apply List.map_congr_left
    intro ℓ hℓ
    rw [shapley_mul]
  · intro t ht
    apply cell_sum
    intro ℓ hℓ
    obtain ⟨hnd, hlt, _⟩ := leafCols_spec (hts t ht) hℓ
    obtain ⟨hnn, hnm⟩ := v2Node_spec hC hnd hlt (hcov.imp_right fun h => h t ht ℓ hℓ)
    rw [v2LeafWrites_eq]
    refine absLeaf (hts t ht) hℓ hC x (t.value ℓ k) hcard (hpn.filter _) (fun a _ b _ h => h) ?_ ?_ ?_
      (hleaf t ht ℓ hℓ) hg hj
    · intro c
      rw [← hnm]
      constructor
      · rintro ⟨i, hi, rfl⟩; simpa using (List.mem_filter.mp hi).2
      · intro hc
        exact ⟨c, List.mem_filter.mpr ⟨(hpm c).mpr ((hnm c).mp hc).1, by simpa using hc⟩, rfl⟩
    · intro i _; exact hnn.erase i
    · intro i _ c
      rw [hnn.mem_erase_iff, hnm]
      tauto

theorem shapV2_free {ts : List TreeArr} {m : Nat} (hts : ∀ t ∈ ts, WellFormed t m) (data : List Row)
    {C : List (List Nat)} (hC : ValidGroups m C) (hC' : C ≠ [[]]) (x : Row) (k : Nat) {j : Nat}
    (hj : ∀ g ∈ C, j ∉ g) : shapV2 ts m data C x j k = some 0 := by
  rcases hC with rfl | ⟨hne, hg, hpd⟩
  · exact absurd rfl hC'
  have h0 := hasGroups_of hne hg
  unfold shapV2
  rw [osum_of_forall ts _ (fun _ => 0)]
  · simp
  · intro t ht
    have : cellWrites (t.leafIdx.flatMap fun ℓ =>
      v2LeafWrites m data C (t.leafRect ℓ) (t.leafCols ℓ) x (t.value ℓ k)) j = [] := by
      rw [cellWrites_flatMap, List.flatMap_eq_nil_iff]
      intro ℓ hℓ
      rw [v2LeafWrites_eq]
      unfold absWrites
      rw [cellWrites_flatMap, List.flatMap_eq_nil_iff]
      intro i hi
      rw [cellWrites_flatMap, List.flatMap_eq_nil_iff]
      intro S _
      rw [cellWrites_map_const]
      have hin := (List.mem_filter.mp hi).2
      simp only [v2Node, h0, if_true, decide_eq_true_eq] at hin
      obtain ⟨h1, _⟩ := v2Group_spec ((freeCols m C).map ([·])) (t.leafCols ℓ) C (leafCols_spec (hts t ht) hℓ).1 hpd
        (fun c hc => (hg c hc).1)
      rw [List.count_eq_zero_of_not_mem (hj i ((h1 i).mp hin).1)]
      rfl
    rw [this]; simp [osum]

end Acv
