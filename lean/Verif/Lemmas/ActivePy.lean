import Verif.Model.ActivePy
import Verif.Lemmas.ActiveShap
import Verif.Lemmas.ShapEnum
import Verif.Lemmas.TreeSdp

namespace Acv

theorem mem_pyActiveGroups {m : Nat} {C : List (List Nat)} (hC : ValidGroups m C) {S c : List Nat} (hc : c ≠ []) :
    c ∈ pyActiveGroups C S ↔ c ∈ C ∧ ∀ s ∈ c, s ∈ S := by
  unfold pyActiveGroups
  rcases hC with rfl | ⟨hne, hg, _⟩
  · simp [show hasGroups [[]] = false from rfl, hc]
  · rw [hasGroups_of hne hg, if_pos rfl, List.mem_filter, List.all_eq_true]
    simp only [decide_eq_true_eq]

theorem pyActiveGroups_facts {m : Nat} {C : List (List Nat)} (hC : ValidGroups m C) (S : List Nat) :
    (∀ g ∈ pyActiveGroups C S, g ∈ C ∧ (g ≠ [] ∧ g.Nodup ∧ ∀ s ∈ g, s < m) ∧ ∀ s ∈ g, s ∈ S) ∧ (pyActiveGroups C S).Pairwise List.Disjoint := by
  unfold pyActiveGroups
  rcases hC with rfl | ⟨hne, hg, hpd⟩
  · simp [show hasGroups [[]] = false from rfl]
  · rw [hasGroups_of hne hg, if_pos rfl]
    refine ⟨fun g hgm => ?_, hpd.filter _⟩
    rw [List.mem_filter, List.all_eq_true] at hgm
    simp only [decide_eq_true_eq] at hgm
    exact ⟨hgm.1, hg g hgm.1, hgm.2⟩

theorem pyActiveC_valid {m : Nat} {C : List (List Nat)} (hC : ValidGroups m C) (S : List Nat) : ValidGroups m (pyActiveC C S) := by
  unfold pyActiveC
  split
  · exact Or.inl rfl
  · rename_i h
    obtain ⟨h1, h2⟩ := pyActiveGroups_facts hC S
    exact Or.inr ⟨h, fun g hg => (h1 g hg).2.1, h2⟩

theorem mem_pyActiveC {C : List (List Nat)} {S c : List Nat} (hc : c ≠ []) : c ∈ pyActiveC C S ↔ c ∈ pyActiveGroups C S := by
  unfold pyActiveC
  split
  · rename_i h; rw [h]; simp [hc]
  · rfl

theorem activeSet_C {m : Nat} {C : List (List Nat)} (hC : ValidGroups m C) {S N : List Nat} (hA : ValidActive m C S N) (c : List Nat) :
    c ∈ activeSet m C S ↔ c ∈ playerSet m (pyActiveC C S) ∧ ∀ s ∈ c, s ∈ S := by
  rw [mem_activeSet]
  refine and_congr_left fun hin => ?_
  rw [mem_playerSet, mem_playerSet]
  apply or_congr
  · constructor
    · rintro ⟨h, hne⟩; exact ⟨(mem_pyActiveC hne).2 ((mem_pyActiveGroups hC hne).2 ⟨h, hin⟩), hne⟩
    · rintro ⟨h, hne⟩; exact ⟨((mem_pyActiveGroups hC hne).1 ((mem_pyActiveC hne).1 h)).1, hne⟩
  · constructor
    · rintro ⟨i, hi, hf, rfl⟩
      refine ⟨i, hi, fun g hg hig => ?_, rfl⟩
      have hne : g ≠ [] := List.ne_nil_of_mem hig
      exact hf g ((mem_pyActiveGroups hC hne).1 ((mem_pyActiveC hne).1 hg)).1 hig
    · rintro ⟨i, hi, hf, rfl⟩
      refine ⟨i, hi, fun g hg hig => ?_, rfl⟩
      have hne : g ≠ [] := List.ne_nil_of_mem hig
      have hgS : ∀ s ∈ g, s ∈ S := (hA.2.2.2 g hg).resolve_right fun h => h i hig (hin i (by simp))
      exact hf g ((mem_pyActiveC hne).2 ((mem_pyActiveGroups hC hne).2 ⟨hg, hgS⟩)) hig

theorem pyActivePlayers_mem {m : Nat} {C : List (List Nat)} (hC : ValidGroups m C) {S N : List Nat} (hA : ValidActive m C S N) {i : PyVar}
    (hi : i ∈ pyActivePlayers C S) : i ∈ pyPlayers m (pyActiveC C S) := by
  unfold pyActivePlayers at hi
  obtain ⟨hG, _⟩ := pyActiveGroups_facts hC S
  have hlt : ∀ i ∈ S, i < m := fun i hi => (hA.2.1 i).mp (Or.inl hi)
  unfold pyPlayers pyActiveC
  rcases List.mem_append.1 hi with hi | hi
  · obtain ⟨k, hk, rfl⟩ := List.mem_map.1 hi
    obtain ⟨hkS, hkf⟩ := List.mem_filter.1 hk
    split
    · have h0 : hasGroups [[]] = false := rfl
      simp only [h0, Bool.false_eq_true, if_false]
      exact List.mem_map.2 ⟨k, List.mem_range.2 (hlt k hkS), rfl⟩
    · rename_i hne
      rw [hasGroups_of hne fun g hg => (hG g hg).2.1, if_pos rfl]
      refine List.mem_append_left _ (List.mem_map.2 ⟨k, mem_freeCols.2 ⟨hlt k hkS, fun g hg hkg => ?_⟩, rfl⟩)
      exact of_decide_eq_true hkf (List.mem_flatten.2 ⟨g, hg, hkg⟩)
  · obtain ⟨c, hc, rfl⟩ := List.mem_map.1 hi
    have hne : pyActiveGroups C S ≠ [] := List.ne_nil_of_mem hc
    rw [if_neg hne, hasGroups_of hne fun g hg => (hG g hg).2.1, if_pos rfl]
    exact List.mem_append_right _ (List.mem_map.2 ⟨c, hc, rfl⟩)

theorem pyActivePlayers_spec {m : Nat} {C : List (List Nat)} (hC : ValidGroups m C) {S N : List Nat} (hA : ValidActive m C S N) :
    (pyActivePlayers C S).Nodup ∧ (∀ a ∈ pyActivePlayers C S, ∀ b ∈ pyActivePlayers C S, a.cols = b.cols → a = b) ∧
    (∀ c, (∃ i ∈ pyActivePlayers C S, i.cols = c) ↔ c ∈ activeSet m C S) ∧ pyActiveD C S = (activeSet m C S).card := by
  obtain ⟨hG, hpd⟩ := pyActiveGroups_facts hC S
  have hlt : ∀ i ∈ S, i < m := fun i hi => (hA.2.1 i).mp (Or.inl hi)
  have h2 := (pyEnum_spec (pyActiveC_valid hC S)).2.1
  have hnd : (pyActivePlayers C S).Nodup := by
    unfold pyActivePlayers
    rw [List.nodup_append]
    refine ⟨(hA.1.filter _).map (fun a b h => by simpa using h),
      (groups_nodup (fun g hg => (hG g hg).2.1) hpd).map (fun a b h => by simpa using h), ?_⟩
    rintro a ha b hb rfl
    obtain ⟨_, _, rfl⟩ := List.mem_map.mp ha
    simp at hb
  have hinj : ∀ a ∈ pyActivePlayers C S, ∀ b ∈ pyActivePlayers C S, a.cols = b.cols → a = b := fun a ha b hb =>
    h2 a (pyActivePlayers_mem hC hA ha) b (pyActivePlayers_mem hC hA hb)
  have hmem : ∀ c, (∃ i ∈ pyActivePlayers C S, i.cols = c) ↔ c ∈ activeSet m C S := by
    intro c
    constructor
    · rintro ⟨i, hi, rfl⟩
      rw [activeSet_C hC hA]
      refine ⟨((pyEnum_spec (pyActiveC_valid hC S)).2.2.1 _).1 ⟨i, pyActivePlayers_mem hC hA hi, rfl⟩, ?_⟩
      unfold pyActivePlayers at hi
      rcases List.mem_append.1 hi with hi | hi
      · obtain ⟨k, hk, rfl⟩ := List.mem_map.1 hi
        intro s hs
        simp only [PyVar.cols, List.mem_singleton] at hs
        subst hs
        exact (List.mem_filter.1 hk).1
      · obtain ⟨c, hc, rfl⟩ := List.mem_map.1 hi
        exact (hG c hc).2.2
    · intro hc
      rw [activeSet_C hC hA, mem_playerSet] at hc
      unfold pyActivePlayers
      rcases hc with ⟨⟨h, hne⟩ | ⟨i, hi, hf, rfl⟩, hin⟩
      · exact ⟨.list c, List.mem_append_right _ (List.mem_map.2 ⟨c, (mem_pyActiveC hne).1 h, rfl⟩), rfl⟩
      · refine ⟨.int i, List.mem_append_left _ (List.mem_map.2 ⟨i, List.mem_filter.2 ⟨hin i (by simp), decide_eq_true ?_⟩, rfl⟩), rfl⟩
        intro h
        obtain ⟨g, hg, hig⟩ := List.mem_flatten.1 h
        exact hf g ((mem_pyActiveC (List.ne_nil_of_mem hig)).2 hg) hig
  refine ⟨hnd, hinj, hmem, ?_⟩
  have hset : activeSet m C S = ((pyActivePlayers C S).map PyVar.cols).toFinset := by
    ext c; rw [List.mem_toFinset, List.mem_map, ← hmem]
  rw [hset, List.toFinset_card_of_nodup ((List.nodup_map_iff_inj_on hnd).mpr hinj), List.length_map]
  have hperm : (S.filter (fun i => decide (i ∉ (pyActiveGroups C S).flatten)) ++ (pyActiveGroups C S).flatten).Perm S := by
    rw [List.perm_ext_iff_of_nodup _ hA.1]
    · intro s
      rw [List.mem_append, List.mem_filter, decide_eq_true_eq, List.mem_flatten]
      constructor
      · rintro (h | ⟨c, hc, hs⟩)
        · exact h.1
        · exact (hG c hc).2.2 s hs
      · intro hs
        by_cases h : ∃ c ∈ pyActiveGroups C S, s ∈ c
        · exact Or.inr h
        · exact Or.inl ⟨hs, h⟩
    · rw [List.nodup_append]
      refine ⟨hA.1.filter _, List.nodup_flatten.2 ⟨fun l hl => (hG l hl).2.1.2.1, hpd⟩, ?_⟩
      rintro a ha b hb rfl
      exact of_decide_eq_true (List.mem_filter.1 ha).2 hb
  have hl := hperm.length_eq
  rw [List.length_append, List.length_flatten] at hl
  unfold pyActiveD pyActivePlayers
  rw [List.length_append, List.length_map, List.length_map]
  omega

theorem pyActiveLeaf_spec {m : Nat} {C : List (List Nat)} (hC : ValidGroups m C) {S N : List Nat} (hA : ValidActive m C S N)
    {vars : List Nat} (hlt : ∀ i ∈ vars, i < m) {i : PyVar} (hi : i ∈ pyActivePlayers C S) :
    ((i.cols.all fun s => decide (s ∈ pyActiveNode C S N vars)) = true ↔ ∃ s ∈ vars, s ∈ i.cols) ∧
    ((∃ s ∈ vars, s ∈ i.cols) → ((pySm (pyActiveC C S) (pyActiveNode C S N vars) i).map PyVar.cols).Nodup ∧
      ∀ c, c ∈ (pySm (pyActiveC C S) (pyActiveNode C S N vars) i).map PyVar.cols ↔
        (c ∈ activeSet m C S ∧ ∃ s ∈ vars, s ∈ c) ∧ c ≠ i.cols) := by
  have hv := pyActiveC_valid hC S
  have hvars : ∀ s, s ∈ vars.filter (fun i => decide (i ∉ N)) ↔ s ∈ vars ∧ s ∉ N := fun s => by simp
  have hvS : ∀ s ∈ vars.filter (fun i => decide (i ∉ N)), s ∈ S := fun s hs =>
    ((hA.2.1 s).2 (hlt s ((hvars s).1 hs).1)).resolve_right ((hvars s).1 hs).2
  obtain ⟨_, _, h3, h4, h5, _⟩ := pyLeaf_spec hv (vars := vars.filter fun i => decide (i ∉ N)) (fun s hs => hlt s ((hvars s).1 hs).1)
  have hip := pyActivePlayers_mem hC hA hi
  have hia := ((pyActivePlayers_spec hC hA).2.2.1 i.cols).1 ⟨i, hi, rfl⟩
  have hmeet : ∀ c, c ∈ activeSet m C S → ((∃ s ∈ vars.filter (fun i => decide (i ∉ N)), s ∈ c) ↔ ∃ s ∈ vars, s ∈ c) := by
    intro c hc
    constructor
    · rintro ⟨s, hs, hsc⟩; exact ⟨s, ((hvars s).1 hs).1, hsc⟩
    · rintro ⟨s, hs, hsc⟩
      exact ⟨s, (hvars s).2 ⟨hs, hA.2.2.1 s ((mem_activeSet.1 hc).2 s hsc)⟩, hsc⟩
  have hact : ∀ c, (c ∈ playerSet m (pyActiveC C S) ∧ ∃ s ∈ vars.filter (fun i => decide (i ∉ N)), s ∈ c) ↔
      (c ∈ activeSet m C S ∧ ∃ s ∈ vars, s ∈ c) := by
    intro c
    constructor
    · rintro ⟨hp, s, hs, hsc⟩
      have hcS : c ∈ activeSet m C S := by
        rw [activeSet_C hC hA]
        refine ⟨hp, ?_⟩
        rcases mem_playerSet.1 hp with ⟨h, hne⟩ | ⟨k, _, _, rfl⟩
        · exact ((pyActiveGroups_facts hC S).1 c ((mem_pyActiveC hne).1 h)).2.2
        · simp only [List.mem_singleton] at hsc
          subst hsc
          intro q hq
          simp only [List.mem_singleton] at hq
          subst hq
          exact hvS _ hs
      exact ⟨hcS, (hmeet c hcS).1 ⟨s, hs, hsc⟩⟩
    · rintro ⟨hcS, h⟩
      exact ⟨((activeSet_C hC hA c).1 hcS).1, (hmeet c hcS).2 h⟩
  have hQ : ((i.cols.all fun s => decide (s ∈ pyActiveNode C S N vars)) = true ↔ ∃ s ∈ vars, s ∈ i.cols) := by
    constructor
    · intro h
      exact ((hact _).1 ((h3 i.cols).1 ⟨i, List.mem_filter.2 ⟨hip, h⟩, rfl⟩)).2
    · intro h
      obtain ⟨i', hi', he⟩ := (h3 i.cols).2 ((hact _).2 ⟨hia, h⟩)
      obtain ⟨hi'p, hi'n⟩ := List.mem_filter.1 hi'
      have := (pyEnum_spec hv).2.1 i' hi'p i hip he
      subst this
      exact hi'n
  refine ⟨hQ, fun h => ?_⟩
  have hiQ : i ∈ (pyPlayers m (pyActiveC C S)).filter (fun i => i.cols.all fun s => decide (s ∈ pyActiveNode C S N vars)) :=
    List.mem_filter.2 ⟨hip, hQ.2 h⟩
  exact ⟨h4 i hiQ, fun c => by
    have := h5 i hiQ c
    unfold pyActiveNode
    rw [this, hact]⟩

theorem pyActiveOff_eq {m : Nat} {data : List Row} {r : Rect} {x : Row} {N : List Nat} {v : ℚ} (hx : ∀ s, (r s).lo ≠ some (x s)) :
    pyActiveOff m data r x N v = activeOffTerm m data r x N v := by
  unfold pyActiveOff activeOffTerm
  simp only [satCC_eq hx, bind, Option.bind]
  generalize npDiv _ _ = a
  generalize npDiv _ _ = b
  cases a <;> cases b <;> rfl

theorem pyActiveTerm_eq {m d k : Nat} {data : List Row} {r : Rect} {x : Row} {N va : List Nat} {sel : List (List Nat)} {v : ℚ}
    (hx : ∀ s, (r s).lo ≠ some (x s)) (hlm : 0 < cnt data r (List.range m)) (hN : ∀ s ∈ N, s < m) (hva : ∀ s ∈ va, s < m)
    (hsel : ∀ c ∈ sel, ∀ s ∈ c, s < m) :
    pyActiveTerm m d k sel.length data r x N sel.flatten va v =
      some (pyCoef d k sel.length *
        (leafShare m data r x (insert N (insert va sel.toFinset)) - leafShare m data r x (insert N sel.toFinset)) * v +
        if sel.toFinset = ∅ then (leafShare m data r x (insert N ∅) - leafShare m data r x ∅) * v else 0) := by
  have hflat : ∀ s ∈ sel.flatten, s < m := by
    intro s hs; obtain ⟨c, hc, hsc⟩ := List.mem_flatten.mp hs; exact hsel c hc s hsc
  have a1 : ∀ z, sat r (sel.flatten ++ N) z = true ↔ AgreesOn r (insert N sel.toFinset) z := by
    intro z; rw [sat_append, Bool.and_eq_true, agreesOn_insert, sat_flatten]
  have a2 : ∀ z, sat r (sel.flatten ++ va ++ N) z = true ↔ AgreesOn r (insert N (insert va sel.toFinset)) z := by
    intro z
    rw [agreesOn_insert, agreesOn_insert, ← sat_flatten, sat_append, sat_append, Bool.and_eq_true, Bool.and_eq_true]
  have e1 := npDiv_share (x := x) hlm (T := sel.flatten ++ N) (by
    intro s hs; rcases List.mem_append.mp hs with h | h; exacts [hflat s h, hN s h]) a1
  have e2 := npDiv_share (x := x) hlm (T := sel.flatten ++ va ++ N) (by
    intro s hs; rcases List.mem_append.mp hs with h | h
    · rcases List.mem_append.mp h with h | h; exacts [hflat s h, hva s h]
    · exact hN s h) a2
  have e3 := npDiv_off (x := x) hlm
  unfold pyActiveTerm
  simp only [satCC_eq hx, e1, e2, e3]
  have hco : ∀ s, pyCoef d k s = 1 / ((d - 1).choose s : ℚ) + pyCoefTail d k s := fun _ => rfl
  by_cases h0 : sel = []
  · subst h0
    simp only [bind, Option.bind, pure, List.length_nil, List.toFinset_nil, ne_eq, not_true_eq_false, if_false, if_true, hco,
      Nat.choose_zero_right, Nat.cast_one, div_one]
    congr 1
    ring
  · have hts : sel.toFinset ≠ ∅ := by simpa [List.toFinset_eq_empty_iff] using h0
    have hl : sel.length ≠ 0 := by simpa using h0
    simp only [bind, Option.bind, pure, if_pos hl, if_neg hts, add_zero, hco]

/-- The writes when nothing is raised. -/
theorem pyActiveWrites_ok (m : Nat) (data : List Row) (C : List (List Nat)) (S N : List Nat) (r : Rect) (vars : List Nat) (x : Row) (v : ℚ)
    (h : ∀ i l, PyVar.list l ∈ pySm (pyActiveC C S) (pyActiveNode C S N vars) i → 1 < l.length) :
    pyActiveWrites m data C S N r vars x v = .ok ((pyActivePlayers C S).flatMap fun i =>
      if i.cols.all fun s => decide (s ∈ pyActiveNode C S N vars) then
        (powerset ((pySm (pyActiveC C S) (pyActiveNode C S N vars) i).map PyVar.cols)).flatMap fun T => i.cols.map fun j =>
          (j, pyActiveTerm m (pyActiveD C S) ((pySm (pyActiveC C S) (pyActiveNode C S N vars) i).map PyVar.cols).length T.length data r x N
            T.flatten i.cols v)
      else i.cols.map fun j => (j, pyActiveOff m data r x N v)) := by
  unfold pyActiveWrites
  simp only
  rw [mapM_ok _ _ (fun i => if i.cols.all fun s => decide (s ∈ pyActiveNode C S N vars) then
      ((powerset (pySm (pyActiveC C S) (pyActiveNode C S N vars) i)).map fun T => i.cols.map fun j =>
        (j, pyActiveTerm m (pyActiveD C S) (pySm (pyActiveC C S) (pyActiveNode C S N vars) i).length T.length data r x N
          (T.map PyVar.cols).flatten i.cols v)).flatten
      else i.cols.map fun j => (j, pyActiveOff m data r x N v))]
  · simp only [bind, Except.bind, pure, Except.pure]
    congr 1
    rw [List.flatMap_def]
    congr 1
    apply List.map_congr_left
    intro i _
    split
    · rw [powerset_map, List.flatMap_map, ← List.flatMap_def]
      simp only [List.length_map]
    · rfl
  · intro i _
    split
    · rw [mapM_ok _ _ (fun T => i.cols.map fun j => (j, pyActiveTerm m (pyActiveD C S)
        (pySm (pyActiveC C S) (pyActiveNode C S N vars) i).length T.length data r x N (T.map PyVar.cols).flatten i.cols v))]
      · rfl
      · intro T hT
        have hsub := (mem_powerset.mp hT).subset
        rw [chainL_ok T (fun l hl => h i l (hsub hl))]
        rfl
    · rfl

open Classical in
theorem pyActiveLeaf_eq {t : TreeArr} {m : Nat} (ht : WellFormed t m) {ℓ : Nat} (hℓ : ℓ ∈ t.leafIdx) {data : List Row}
    {C : List (List Nat)} (hC : ValidGroups m C) {S N : List Nat} (hns : ∀ g ∈ pyActiveGroups C S, 1 < g.length) (hA : ValidActive m C S N)
    (x : Row) (hx : ∀ s, ((t.leafRect ℓ) s).lo ≠ some (x s)) (v : ℚ) (hlm : 0 < cnt data (t.leafRect ℓ) (List.range m)) {g : List Nat}
    (hg : g ∈ activeSet m C S) {j : Nat} (hj : j ∈ g) :
    ∃ ws, pyActiveWrites m data C S N (t.leafRect ℓ) (t.leafCols ℓ) x v = .ok ws ∧ ∃ l : List ℚ, cellWrites ws j = l.map some ∧
      l.sum / pyActiveD C S = v * shapley (activeSet m C S) (fun T => if T = ∅ then
        leafShare m data (t.leafRect ℓ) x ∅ else leafShare m data (t.leafRect ℓ) x (insert N T)) g := by
  obtain ⟨hnd, hlt, hun⟩ := leafCols_spec ht hℓ
  obtain ⟨hpn, hinj, hpm, hcard⟩ := pyActivePlayers_spec hC hA
  have hN : ∀ s ∈ N, s < m := fun s hs => (hA.2.1 s).mp (Or.inr hs)
  have hgp := (mem_activeSet.mp hg).1
  have hglt := playerSet_lt hC hgp
  have hpos : 0 < (activeSet m C S).card := Finset.card_pos.mpr ⟨g, hg⟩
  have hone : g.count j = 1 := List.count_eq_one_of_mem hglt.2.1 hj
  have hlen : ∀ i l, PyVar.list l ∈ pySm (pyActiveC C S) (pyActiveNode C S N (t.leafCols ℓ)) i → 1 < l.length := by
    intro i l hl
    by_cases hG : pyActiveGroups C S = []
    · exfalso
      have h0 : hasGroups [[]] = false := rfl
      simp [pySm, pyActiveC, hG, h0] at hl
    · have hh := hasGroups_of hG fun g hg => ((pyActiveGroups_facts hC S).1 g hg).2.1
      simp only [pySm, pyActiveC, if_neg hG, hh, if_true, List.mem_append, List.mem_map] at hl
      rcases hl with ⟨_, _, h⟩ | ⟨c, hc, h⟩
      · cases h
      · cases h; exact hns _ (List.mem_filter.1 hc).1
  refine ⟨_, pyActiveWrites_ok m data C S N _ _ x v hlen, ?_⟩
  obtain ⟨i0, hi0, rfl⟩ := (hpm g).2 hg
  rw [shapley_patch _ _ hg, hcard]
  set n := (activeSet m C S).card with hn
  rw [cellWrites_flatMap, flatMap_unique hpn hi0]
  swap
  · intro a ha hne
    have hca := (mem_activeSet.mp ((hpm a.cols).mp ⟨a, ha, rfl⟩)).1
    have h0 : a.cols.count j = 0 := List.count_eq_zero_of_not_mem fun hja =>
      hne (hinj a ha i0 hi0 (playerSet_disjoint hC hca hgp hja hj))
    split
    · simp [cellWrites_flatMap, cellWrites_map_const, h0]
    · simp [cellWrites_map_const, h0]
  obtain ⟨hnode, hsm⟩ := pyActiveLeaf_spec (vars := t.leafCols ℓ) hC hA hlt hi0
  by_cases hgl : ∃ s ∈ t.leafCols ℓ, s ∈ i0.cols
  · rw [if_pos (hnode.2 hgl)]
    obtain ⟨hRn, hRm⟩ := hsm hgl
    generalize hR : (pySm (pyActiveC C S) (pyActiveNode C S N (t.leafCols ℓ)) i0).map PyVar.cols = R at *
    have hgR : i0.cols ∉ R := fun h => ((hRm _).1 h).2 rfl
    have hLp : ∀ c ∈ R, ∀ s ∈ c, s < m := by
      intro c hc
      exact (playerSet_lt hC (mem_activeSet.mp ((hRm c).mp hc).1.1).1).2.2
    refine ⟨(powerset R).map fun sel =>
      (pyCoef n R.length sel.length * (leafShare m data (t.leafRect ℓ) x (insert N (insert i0.cols sel.toFinset)) -
          leafShare m data (t.leafRect ℓ) x (insert N sel.toFinset)) * v +
        if sel.toFinset = ∅ then (leafShare m data (t.leafRect ℓ) x (insert N ∅) -
          leafShare m data (t.leafRect ℓ) x ∅) * v else 0), ?_, ?_⟩
    · rw [cellWrites_flatMap, List.map_map]
      simp only [cellWrites_map_const, hone, List.replicate_one]
      rw [← List.map_eq_flatMap]
      apply List.map_congr_left
      intro sel hs
      rw [pyActiveTerm_eq hx hlm hN hglt.2.2 fun c hc => hLp c ((mem_powerset.1 hs).subset hc)]
      rfl
    · have hms := powerset_sum R hRn
        (fun sel => (pyCoef n R.length sel.length * (leafShare m data (t.leafRect ℓ) x (insert N (insert i0.cols sel.toFinset)) -
          leafShare m data (t.leafRect ℓ) x (insert N sel.toFinset)) * v +
        if sel.toFinset = ∅ then (leafShare m data (t.leafRect ℓ) x (insert N ∅) -
          leafShare m data (t.leafRect ℓ) x ∅) * v else 0))
        (fun T => (pyCoef n R.length T.card * (leafShare m data (t.leafRect ℓ) x (insert N (insert i0.cols T)) -
          leafShare m data (t.leafRect ℓ) x (insert N T)) * v +
        if T = ∅ then (leafShare m data (t.leafRect ℓ) x (insert N ∅) -
          leafShare m data (t.leafRect ℓ) x ∅) * v else 0))
        (by intro sel hs
            rw [List.toFinset_card_of_nodup (hRn.sublist hs)])
      rw [hms, Finset.sum_add_distrib, Finset.sum_ite_eq', if_pos (by simp), add_div]
      have hsub : insert i0.cols R.toFinset ⊆ activeSet m C S := by
        intro c hc
        rcases Finset.mem_insert.1 hc with rfl | hc
        · exact hg
        · exact ((hRm c).1 (List.mem_toFinset.1 hc)).1.1
      have hcR : R.toFinset.card = R.length := List.toFinset_card_of_nodup hRn
      have hgR' : i0.cols ∉ R.toFinset := by simpa using hgR
      have hcL : R.length + 1 ≤ n := by
        have h1 := Finset.card_le_card hsub
        rwa [Finset.card_insert_of_notMem hgR', hcR] at h1
      rw [shapley_restrict hsub (Finset.mem_insert_self _ _) (by
        intro a ha hna T
        rw [Finset.insert_comm]
        apply leafShare_null ht hℓ
        intro s hs hsl
        refine hna ?_
        by_cases hai : a = i0.cols
        · rw [hai]; exact Finset.mem_insert_self _ _
        · exact Finset.mem_insert_of_mem (List.mem_toFinset.2 ((hRm a).2 ⟨⟨ha, s, hsl, hs⟩, hai⟩)))]
      rw [mul_add]
      congr 1
      · unfold shapley
        rw [Finset.sum_div, Finset.erase_insert hgR', Finset.mul_sum, Finset.card_insert_of_notMem hgR', hcR]
        apply Finset.sum_congr rfl
        intro T hT
        have hTc : T.card ≤ R.length := by
          have h1 := Finset.card_le_card (Finset.mem_powerset.mp hT)
          rwa [hcR] at h1
        rw [← pyCoef_eq (m := n) (k := R.length) (s := T.card) (by omega) hTc]
        ring
      · ring
  · rw [if_neg fun h => hgl (hnode.1 h), cellWrites_map_const, hone]
    refine ⟨[(leafShare m data (t.leafRect ℓ) x (insert N ∅) - leafShare m data (t.leafRect ℓ) x ∅) * v], ?_, ?_⟩
    · rw [pyActiveOff_eq hx, activeOff_eq hlm hN]; simp
    · have hnull : shapley (activeSet m C S) (fun T => leafShare m data (t.leafRect ℓ) x (insert N T)) i0.cols = 0 := by
        apply shapley_null
        intro T
        rw [Finset.insert_comm]
        apply leafShare_null ht hℓ
        intro s hs hsl
        exact hgl ⟨s, hsl, hs⟩
      rw [hnull]
      simp only [List.sum_cons, List.sum_nil]
      ring

end Acv
