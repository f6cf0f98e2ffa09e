import Verif.Model.SwingPy
import Verif.Spec.Swing2
import Verif.Lemmas.ShapEnum
import Verif.Props.Swing

/-! # C84: the Python swing values -/

namespace Acv

/-- The cells of a list of passes that enumerates the coalitions of the other players. -/
theorem swingCells_spec {P : Finset (List Nat)} {V : Finset (List Nat) → ℚ} {g : List Nat} (hg : g ∈ P) (L : List (List (List Nat)))
    (w d : List (List Nat) → ℚ) (hL : ∀ (f : List (List Nat) → ℚ) (F : Finset (List Nat) → ℚ), (∀ S ∈ L, f S = F S.toFinset) →
      (L.map f).sum = ∑ T ∈ (P.erase g).powerset, F T) (hcard : ∀ S ∈ L, S.toFinset.card = S.length)
    (hw : ∀ S ∈ L, w S = 1 / ((P.card - 1).choose S.length : ℚ)) (hd : ∀ S ∈ L, d S = V (insert g S.toFinset) - V S.toFinset) :
    swingCells P.card (L.map fun S => (w S, d S)) = swingSpec P V g := by
  have hpos : 0 < P.card := Finset.card_pos.2 ⟨g, hg⟩
  have hp' : (P.card : ℚ) ≠ 0 := by exact_mod_cast hpos.ne'
  have hsw : ∀ T ∈ (P.erase g).powerset, shapW P.card T.card = 1 / ((P.card - 1).choose T.card : ℚ) / P.card := by
    intro T hT
    have hSc : T.card < P.card := by
      have h1 := Finset.card_le_card (Finset.mem_powerset.mp hT)
      rw [Finset.card_erase_of_mem hg] at h1
      omega
    rw [shapW_eq hSc, mul_comm (P.card : ℚ), ← div_div]
  have hcount : ∀ (q : ℚ → Bool) (Q : Finset (List Nat) → Prop) [DecidablePred Q], (∀ T, Q T ↔ q (V (insert g T) - V T) = true) →
      ((L.map fun S => (w S, d S)).filter fun x => q x.2).length = (((P.erase g).powerset).filter Q).card := by
    intro q Q _ hQ
    have h1 : (((L.map fun S => (w S, d S)).filter fun x => q x.2).length : ℚ) = (L.map fun S => if q (d S) then (1 : ℚ) else 0).sum := by
      clear hL hcard hw hd
      induction L with
      | nil => simp
      | cons S L ih =>
        rw [List.map_cons, List.map_cons, List.filter_cons, List.sum_cons, ← ih]
        by_cases h : q (d S) = true
        · simp [h]; ring
        · simp [h]
    have h2 := hL (fun S => if q (d S) then (1 : ℚ) else 0) (fun T => if Q T then 1 else 0) (by
      intro S hS
      simp only [hd S hS, hQ])
    rw [h2, Finset.sum_boole] at h1
    exact_mod_cast h1
  unfold swingCells swingSpec
  simp only [List.map_map, Function.comp_def]
  congr 1
  · rw [hL _ (fun T => 1 / ((P.card - 1).choose T.card : ℚ) * (V (insert g T) - V T)) (by
      intro S hS; rw [hw S hS, hd S hS, hcard S hS])]
    unfold shapley
    rw [Finset.sum_div]
    refine Finset.sum_congr rfl fun T hT => ?_
    rw [hsw T hT]; ring
  · rw [hL _ (fun T => (if 0 < V (insert g T) - V T then 1 else 0) * ((V (insert g T) - V T) * (1 / ((P.card - 1).choose T.card : ℚ)) / P.card)) (by
      intro S hS; simp only [hw S hS, hd S hS, hcard S hS])]
    refine Finset.sum_congr rfl fun T hT => ?_
    rw [hsw T hT]
    unfold marginal
    by_cases h : 0 < V (insert g T) - V T
    · rw [if_pos h, max_eq_left h.le]; ring
    · rw [if_neg h, max_eq_right (not_lt.1 h)]; ring
  · rw [hL _ (fun T => (if V (insert g T) - V T < 0 then 1 else 0) * ((V (insert g T) - V T) * (1 / ((P.card - 1).choose T.card : ℚ)) / P.card)) (by
      intro S hS; simp only [hw S hS, hd S hS, hcard S hS])]
    refine Finset.sum_congr rfl fun T hT => ?_
    rw [hsw T hT]
    unfold marginal
    by_cases h : V (insert g T) - V T < 0
    · rw [if_pos h, min_eq_left h.le]; ring
    · rw [if_neg h, min_eq_right (not_lt.1 h)]; ring
  · exact hcount (fun d => decide (0 < d)) _ fun T => by rw [decide_eq_true_eq, sub_pos]
  · exact hcount (fun d => decide (d < 0)) _ fun T => by rw [decide_eq_true_eq, sub_neg]
  · exact hcount (fun d => decide (d = 0)) _ fun T => by rw [decide_eq_true_eq, sub_eq_zero]

theorem filter_map_const (g : List Nat) (w : ℚ × ℚ) (j : Nat) :
    (((g.map fun j => (j, w)).filter fun x => decide (x.1 = j)).map Prod.snd) = List.replicate (g.count j) w := by
  induction g with
  | nil => simp
  | cons a g ih =>
    rw [List.map_cons, List.filter_cons]
    by_cases h : a = j
    · subst h; simp only [decide_true, if_true, List.map_cons, ih, List.count_cons_self, List.replicate_succ]
    · simp only [h, decide_false, Bool.false_eq_true, if_false, ih, List.count_cons_of_ne h]

/-- **C84.** For every value function that depends only on the set of columns, the Python swing functions return, for a column of the player
`g`, the Shapley value of the game, its positive and negative parts, and the numbers of coalitions that gain, lose and stay. -/
theorem C84_python_swing {m : Nat} {C : List (List Nat)} (hC : ValidGroups m C) (hns : C = [[]] ∨ ∀ g ∈ C, 1 < g.length)
    {v : List Nat → ℚ} {V : Finset (List Nat) → ℚ}
    (hv : ∀ L : List (List Nat), (∀ c ∈ L, c ∈ playerSet m C) → v L.flatten = V L.toFinset)
    {g : List Nat} (hg : g ∈ playerSet m C) {j : Nat} (hj : j ∈ g) :
    swingPy v m C j = .ok (swingSpec (playerSet m C) V g) := by
  obtain ⟨h1, h2, h3, h4, h5, h6⟩ := pyEnum_spec hC
  have hlen : ∀ i l, PyVar.list l ∈ pySm C (List.range m) i → 1 < l.length := by
    intro i l hl
    rcases hns with rfl | h
    · exfalso
      have h0 : hasGroups [[]] = false := rfl
      simp [pySm, h0] at hl
    · exact h l (h6 i l hl)
  have hw : swingPyVisits v m C = .ok ((pyPlayers m C).flatMap fun i => (powerset ((pySm C (List.range m) i).map PyVar.cols)).flatMap
      fun S => i.cols.map fun j => (j, 1 / ((pyD m C - 1).choose S.length : ℚ), V (insert i.cols S.toFinset) - V S.toFinset)) := by
    unfold swingPyVisits
    rw [mapM_ok _ _ (fun i => ((powerset (pySm C (List.range m) i)).map fun S => i.cols.map fun j =>
      (j, 1 / ((pyD m C - 1).choose S.length : ℚ), V (insert i.cols (S.map PyVar.cols).toFinset) - V (S.map PyVar.cols).toFinset)).flatten)]
    · simp only [bind, Except.bind, pure, Except.pure]
      congr 1
      rw [List.flatMap_def]
      congr 1
      apply List.map_congr_left
      intro i _
      rw [powerset_map, List.flatMap_map, ← List.flatMap_def]
      simp only [List.length_map]
    · intro i hi
      rw [mapM_ok _ _ (fun S => i.cols.map fun j => (j, 1 / ((pyD m C - 1).choose S.length : ℚ),
        V (insert i.cols (S.map PyVar.cols).toFinset) - V (S.map PyVar.cols).toFinset))]
      · rfl
      · intro S hS
        have hsub := (mem_powerset.mp hS).subset
        rw [chainL_ok S (fun l hl => hlen i l (hsub hl))]
        have hin : ∀ c ∈ S.map PyVar.cols, c ∈ playerSet m C := by
          intro c hc
          obtain ⟨p, hp, rfl⟩ := List.mem_map.mp hc
          exact ((h5 i hi p.cols).mp (List.mem_map_of_mem (hsub hp))).1
        have hvi := hv (S.map PyVar.cols ++ [i.cols]) (by
          intro c hc
          rcases List.mem_append.mp hc with hc | hc
          · exact hin c hc
          · rw [List.mem_singleton.mp hc]; exact (h3 _).mp ⟨i, hi, rfl⟩)
        rw [List.flatten_append, List.flatten_singleton] at hvi
        have hfs : (S.map PyVar.cols ++ [i.cols]).toFinset = insert i.cols (S.map PyVar.cols).toFinset := by
          ext c; simp [or_comm]
        simp only [bind, Except.bind, pure, Except.pure, hv _ hin, hvi, hfs]
  unfold swingPy
  rw [hw]
  simp only [bind, Except.bind, pure, Except.pure]
  congr 1
  obtain ⟨i0, hi0, rfl⟩ := (h3 g).mpr hg
  rw [List.filter_flatMap, List.map_flatMap]
  simp only [List.filter_flatMap, List.map_flatMap, filter_map_const]
  rw [flatMap_unique h1 hi0]
  swap
  · intro a ha hne
    have hca := (h3 a.cols).mp ⟨a, ha, rfl⟩
    have : a.cols.count j = 0 := List.count_eq_zero_of_not_mem fun hja =>
      hne (h2 a ha i0 hi0 (playerSet_disjoint hC hca hg hja hj))
    simp [this]
  have hone : i0.cols.count j = 1 := List.count_eq_one_of_mem (playerSet_lt hC hg).2.1 hj
  simp only [hone, List.replicate_one]
  rw [← List.map_eq_flatMap, ← pyD_card hC]
  have hRn := h4 i0 hi0
  have hRset : ((pySm C (List.range m) i0).map PyVar.cols).toFinset = (playerSet m C).erase i0.cols := by
    ext c; rw [List.mem_toFinset, h5 i0 hi0, Finset.mem_erase]; tauto
  refine swingCells_spec hg _ (fun S => 1 / (((playerSet m C).card - 1).choose S.length : ℚ))
    (fun S => V (insert i0.cols S.toFinset) - V S.toFinset) ?_ ?_ (fun _ _ => rfl) (fun _ _ => rfl)
  · intro f F hf
    rw [powerset_sum _ hRn f F (fun sel hs => hf sel (mem_powerset.2 hs)), hRset]
  · intro S hS
    exact List.toFinset_card_of_nodup (hRn.sublist (mem_powerset.1 hS))

/-- **C84, efficiency.** The values add up, over the players, to what everybody gains over nobody. -/
theorem C84_efficiency {m : Nat} {C : List (List Nat)} (hC : ValidGroups m C) (hns : C = [[]] ∨ ∀ g ∈ C, 1 < g.length)
    {v : List Nat → ℚ} {V : Finset (List Nat) → ℚ}
    (hv : ∀ L : List (List Nat), (∀ c ∈ L, c ∈ playerSet m C) → v L.flatten = V L.toFinset)
    (col : List Nat → Nat) (hcol : ∀ g ∈ playerSet m C, col g ∈ g) :
    ∃ s : List Nat → Swing, (∀ g ∈ playerSet m C, swingPy v m C (col g) = .ok (s g)) ∧
      ∑ g ∈ playerSet m C, (s g).phi = V (playerSet m C) - V ∅ :=
  ⟨swingSpec (playerSet m C) V, fun g hg => C84_python_swing hC hns hv hg (hcol g hg), by
    simp only [swingSpec]
    exact shapley_efficiency _ _⟩

/-- **C84, the classifier version.** The game of `swing_tree_shap_clf`: a coalition wins when its probability reaches the threshold (NaN
does not). -/
theorem C84_python_swing_clf {m : Nat} {C : List (List Nat)} (hC : ValidGroups m C) (hns : C = [[]] ∨ ∀ g ∈ C, 1 < g.length)
    {sdp : List Nat → Option ℚ} {W : Finset (List Nat) → Prop} [DecidablePred W] {thr : ℚ}
    (hv : ∀ L : List (List Nat), (∀ c ∈ L, c ∈ playerSet m C) → ((∃ p, sdp L.flatten = some p ∧ thr ≤ p) ↔ W L.toFinset))
    {g : List Nat} (hg : g ∈ playerSet m C) {j : Nat} (hj : j ∈ g) :
    swingPyClf sdp thr m C j = .ok (swingSpec (playerSet m C) (fun T => if W T then 1 else 0) g) := by
  refine C84_python_swing hC hns (fun L hL => ?_) hg hj
  have h := hv L hL
  cases hs : sdp L.flatten with
  | none =>
    simp only [hs] at h ⊢
    rw [if_neg]
    rintro hw
    obtain ⟨p, hp, _⟩ := h.2 hw
    cases hp
  | some p =>
    simp only [hs] at h ⊢
    by_cases hw : W L.toFinset
    · obtain ⟨q, hq, hle⟩ := h.2 hw
      cases hq
      rw [if_pos hw, if_pos hle]
    · rw [if_neg hw, if_neg fun hle => hw (h.1 ⟨p, rfl, hle⟩)]

/-- **C84, agreement.** With the same value function the Python and the Cython loops return the same values, parts and counts, for at most 32
players. -/
theorem C84_python_is_cython {m : Nat} {C : List (List Nat)} (hC : ValidGroups m C) (hns : C = [[]] ∨ ∀ g ∈ C, 1 < g.length)
    (hlen : (playerSet m C).card ≤ 32) {v : List Nat → ℚ} {V : Finset (List Nat) → ℚ}
    (hv : ∀ L : List (List Nat), (∀ c ∈ L, c ∈ playerSet m C) → v L.flatten = V L.toFinset) {j : Nat} (hj : j < m) :
    swingPy v m C j = .ok (swing (playersCy m C) (fun S va => v (S ++ va) - v S) j) := by
  obtain ⟨g, hg, hjg⟩ := playerSet_cover (C := C) hj
  rw [C84_python_swing hC hns hv hg hjg]
  congr 1
  obtain ⟨hnd, hpd, hn, hset⟩ := players_facts hC
  have hgm : g ∈ playersCy m C := (playersCy_spec hC).2 g |>.2 hg
  have hcard : (playerSet m C).card = (playersCy m C).length := by rw [← hset, List.toFinset_card_of_nodup hnd]
  have hvis := swingVisits_eq hnd hpd hn (by omega) hgm hjg
  have hbin : ∀ s, binomialC ((playersCy m C).length - 1) s = (((playersCy m C).length - 1).choose s : ℚ) :=
    fun s => binomialC_eq (by unfold ulongMax; omega)
  have herase : ((playersCy m C).erase g).toFinset = (playerSet m C).erase g := by
    rw [← hset]
    ext c; simp [hnd.mem_erase_iff]
  have hsub : ∀ S ∈ (List.range (2 ^ ((playersCy m C).erase g).length)).map (maskSel ((playersCy m C).erase g)),
      S.Sublist ((playersCy m C).erase g) := by
    intro S hS
    obtain ⟨c, _, rfl⟩ := List.mem_map.1 hS
    exact maskSel_sublist _ _
  have key := swingCells_spec hg ((List.range (2 ^ ((playersCy m C).erase g).length)).map (maskSel ((playersCy m C).erase g))) (V := V)
    (fun S => 1 / binomialC ((playersCy m C).length - 1) S.length) (fun S => v (S.flatten ++ g) - v S.flatten) ?_ ?_ ?_ ?_
  · rw [← key, hcard]
    unfold swing swingCells
    rw [hvis]
    simp only [List.map_map, Function.comp_def, List.filter_map, List.length_map]
    congr 1
    all_goals
      congr 1
      apply List.map_congr_left
      intro c _
      ring
  · intro f F hf
    rw [List.map_congr_left hf, List.map_map, ← herase]
    exact mask_sum ((playersCy m C).erase g) (hnd.erase g) (fun S => F S.toFinset) F fun _ _ => rfl
  · intro S hS
    exact List.toFinset_card_of_nodup ((hnd.erase g).sublist (hsub S hS))
  · intro S _
    rw [hbin, hcard]
  · intro S hS
    obtain ⟨_, _, _, hmem⟩ := sel_nodup hC hg (hsub S hS)
    have ha := hv S fun c hc => (hmem c hc).1
    have hb := hv (S ++ [g]) (by
      intro c hc
      rcases List.mem_append.mp hc with hc | hc
      · exact (hmem c hc).1
      · rw [List.mem_singleton.mp hc]; exact hg)
    rw [List.flatten_append, List.flatten_singleton] at hb
    have hfs : (S ++ [g]).toFinset = insert g S.toFinset := by
      ext c; simp [or_comm]
    rw [ha, hb, hfs]

/-- A game with a loss and two gains: three columns, the last two together. -/
def exSwingV : List Nat → ℚ := fun S => if 0 ∈ S then (if 1 ∈ S then 4 else 5) else if 1 ∈ S then 1 else 0

example : ValidGroups 3 [[1, 2]] ∧ (∀ g ∈ [[1, 2]], 1 < g.length) ∧ (playerSet 3 [[1, 2]]).card ≤ 32 := by
  refine ⟨?_, by decide, by decide +kernel⟩
  exact Or.inr ⟨by decide, by decide, by simp⟩
example : (swingPy exSwingV 3 [[1, 2]] 2).toOption.map (fun s => (s.phi, s.pos, s.neg, s.nPos, s.nNeg, s.nNull)) =
    some (0, 1 / 2, -1 / 2, 1, 1, 0) := by decide +kernel
example : (swingPyClf (fun S => if S = [] then none else some (S.length / 3)) (2 / 3) 3 [[1, 2]] 0).toOption.map
    (fun s => (s.phi, s.pos, s.neg, s.nPos, s.nNeg, s.nNull)) = some (0, 0, 0, 0, 0, 2) := by decide +kernel

end Acv
