import Verif.Lemmas.ShapPy
import Verif.Model.ActiveShap
import Verif.Spec.ActiveGame

namespace Acv

/-- changing the worth of the empty coalition -/
theorem shapley_patch {ι : Type} [DecidableEq ι] {P : Finset ι} (g : Finset ι → ℚ) (o : ℚ) {i : ι} (hi : i ∈ P) :
    shapley P (fun S => if S = ∅ then o else g S) i = shapley P g i + (g ∅ - o) / P.card := by
  have hn : 0 < P.card := Finset.card_pos.mpr ⟨i, hi⟩
  have hw : shapW P.card 0 = 1 / P.card := by
    have := shapW_empty hn
    have h0 : (P.card : ℚ) ≠ 0 := by positivity
    field_simp
    rw [mul_comm]; exact this
  unfold shapley
  have key : ∀ S ∈ (P.erase i).powerset,
      shapW P.card S.card * ((if insert i S = ∅ then o else g (insert i S)) - (if S = ∅ then o else g S))
      = shapW P.card S.card * (g (insert i S) - g S) + if S = ∅ then (g ∅ - o) / P.card else 0 := by
    intro S _
    rw [if_neg (Finset.insert_ne_empty i S)]
    by_cases hS : S = ∅
    · subst hS; simp only [if_true, Finset.card_empty, hw]; ring
    · simp only [if_neg hS]; ring
  rw [Finset.sum_congr rfl key, Finset.sum_add_distrib, Finset.sum_ite_eq']
  simp

theorem mem_activeSet {m : Nat} {C : List (List Nat)} {S c : List Nat} :
    c ∈ activeSet m C S ↔ c ∈ playerSet m C ∧ ∀ s ∈ c, s ∈ S := by simp [activeSet]

theorem activeUp_spec {m : Nat} {C : List (List Nat)} (hC : ValidGroups m C) {S N : List Nat} (hA : ValidActive m C S N)
    {is : List Nat} (hnd : is.Nodup) (hsub : ∀ i ∈ is, i ∈ S) :
    let L := if hasGroups C then groupUp (activeFree C S) is C else is.map ([·])
    L.Nodup ∧ ∀ c, c ∈ L ↔ c ∈ activeSet m C S ∧ ∃ i ∈ is, i ∈ c := by
  obtain ⟨_, hcov, _, hgr⟩ := hA
  have hlt : ∀ i ∈ S, i < m := fun i hi => (hcov i).mp (Or.inl hi)
  simp only [mem_activeSet]
  rcases hC with rfl | ⟨hne, hg, hpd⟩
  · have h0 : hasGroups [[]] = false := rfl
    simp only [h0, mem_playerSet, Bool.false_eq_true, if_false]
    refine ⟨hnd.map (fun a b h => by simpa using h), fun c => ?_⟩
    simp only [List.mem_map, List.mem_singleton]
    constructor
    · rintro ⟨i, hi, rfl⟩
      exact ⟨⟨Or.inr ⟨i, hlt i (hsub i hi), by simp, rfl⟩, by simpa using hsub i hi⟩, i, hi, by simp⟩
    · rintro ⟨⟨⟨rfl, h⟩ | ⟨k, _, _, rfl⟩, _⟩, i, hi, hic⟩
      · exact absurd rfl h
      · simp only [List.mem_singleton] at hic; subst hic; exact ⟨i, hi, rfl⟩
  · rw [hasGroups_of hne hg]
    simp only [if_true]
    have hfree : ∀ i, i ∈ activeFree C S ↔ i ∈ S ∧ ∀ g ∈ C, i ∉ g := by
      intro i; simp only [activeFree, List.mem_filter, decide_eq_true_eq, List.mem_flatten, not_exists, not_and]
    obtain ⟨h1, h2⟩ := groupUp_spec (activeFree C S) is C hnd hpd (fun c hc => (hg c hc).1)
      (fun c hc s hs hf => ((hfree s).mp hf).2 c hc hs)
    refine ⟨h2, fun c => ?_⟩
    rw [h1, mem_playerSet]
    constructor
    · rintro (⟨i, hi, hif, rfl⟩ | ⟨hc, i, hi, hic⟩)
      · have := (hfree i).mp hif
        exact ⟨⟨Or.inr ⟨i, hlt i this.1, this.2, rfl⟩, by simpa using this.1⟩, i, hi, by simp⟩
      · refine ⟨⟨Or.inl ⟨hc, (hg c hc).1⟩, ?_⟩, i, hi, hic⟩
        rcases hgr c hc with h | h
        · exact h
        · exact absurd (hsub i hi) (h i hic)
    · rintro ⟨⟨⟨hc, _⟩ | ⟨k, hk, hkn, rfl⟩, hin⟩, i, hi, hic⟩
      · exact Or.inr ⟨hc, i, hi, hic⟩
      · simp only [List.mem_singleton] at hic; subst hic
        exact Or.inl ⟨i, hi, (hfree i).mpr ⟨hsub i hi, hkn⟩, rfl⟩

theorem activePlayers_spec {m : Nat} {C : List (List Nat)} (hC : ValidGroups m C) {S N : List Nat}
    (hA : ValidActive m C S N) :
    (activePlayersCy C S).Nodup ∧ ∀ c, c ∈ activePlayersCy C S ↔ c ∈ activeSet m C S := by
  obtain ⟨h1, h2⟩ := activeUp_spec hC hA (is := S) hA.1 (fun _ h => h)
  refine ⟨h1, fun c => ?_⟩
  have h2' := h2 c
  unfold activePlayersCy
  rw [h2']
  refine ⟨fun h => h.1, fun h => ⟨h, ?_⟩⟩
  rw [mem_activeSet] at h
  obtain ⟨s, hs⟩ := List.exists_mem_of_ne_nil c (playerSet_lt hC h.1).1
  exact ⟨s, h.2 s hs, hs⟩

theorem activeLeaf_spec {m : Nat} {C : List (List Nat)} (hC : ValidGroups m C) {S N : List Nat}
    (hA : ValidActive m C S N) {vars : List Nat} (hnd : vars.Nodup) (hlt : ∀ i ∈ vars, i < m) :
    (activeLeafPlayersCy C S N vars).Nodup ∧
      ∀ c, c ∈ activeLeafPlayersCy C S N vars ↔ c ∈ activeSet m C S ∧ ∃ i ∈ vars, i ∈ c := by
  have hv : ∀ i, i ∈ activeVars N vars ↔ i ∈ vars ∧ i ∉ N := fun i => by
    unfold activeVars; rw [hnd.mem_diff_iff]
  obtain ⟨h1, h2⟩ := activeUp_spec hC hA (is := activeVars N vars) (hnd.diff) (by
    intro i hi
    rw [hv] at hi
    exact ((hA.2.1 i).mpr (hlt i hi.1)).resolve_right hi.2)
  refine ⟨h1, fun c => ?_⟩
  have h2' := h2 c
  unfold activeLeafPlayersCy
  rw [h2']
  constructor
  · rintro ⟨h, i, hi, hic⟩; exact ⟨h, i, ((hv i).mp hi).1, hic⟩
  · rintro ⟨h, i, hi, hic⟩
    exact ⟨h, i, (hv i).mpr ⟨hi, hA.2.2.1 i ((mem_activeSet.mp h).2 i hic)⟩, hic⟩

open Classical in
theorem npDiv_share {m : Nat} {data : List Row} {r : Rect} {x : Row} {A : Finset (List Nat)} {T : List Nat}
    (hlm : 0 < cnt data r (List.range m)) (hT : ∀ s ∈ T, s < m)
    (hag : ∀ z, sat r T z = true ↔ AgreesOn r A z) :
    npDiv ((if sat r T x then 1 else 0) * ((cnt data r (List.range m) : ℕ) : ℚ)) (cnt data r T)
      = some (leafShare m data r x A) := by
  have h1 : 0 < cnt data r T := lt_of_lt_of_le hlm (cnt_mono fun s hs => List.mem_range.mpr (hT s hs))
  have n1 : ((cnt data r T : ℕ) : ℚ) ≠ 0 := by positivity
  have hd : ∀ z, sat r T z = decide (AgreesOn r A z) := fun z => by rw [Bool.eq_iff_iff, hag]; simp
  have hc : cnt data r T = (data.filter (fun z => AgreesOn r A z)).length := by
    unfold cnt; congr 2; funext z; exact hd z
  unfold npDiv
  rw [if_neg n1, hd x]
  unfold leafShare
  rw [hc, cnt_range]
  by_cases ha : AgreesOn r A x <;> simp [ha]

theorem sat_append {r : Rect} {S T : List Nat} {z : Row} : sat r (S ++ T) z = (sat r S z && sat r T z) := by
  simp [sat]

theorem agreesOn_empty (r : Rect) (z : Row) : AgreesOn r ∅ z := by intro g hg; simp at hg

open Classical in
theorem npDiv_off {m : Nat} {data : List Row} {r : Rect} {x : Row} (hlm : 0 < cnt data r (List.range m)) :
    npDiv ((cnt data r (List.range m) : ℕ) : ℚ) data.length = some (leafShare m data r x ∅) := by
  have := npDiv_share (x := x) (A := ∅) (T := []) hlm (by simp) (fun z => by simp [sat, agreesOn_empty])
  have h2 : cnt data r [] = data.length := by simp [cnt, sat]
  rw [h2] at this
  simpa [sat] using this

theorem activeTerm_eq {n m : Nat} {data : List Row} {r : Rect} {x : Row} {N va : List Nat} {rest : List (List Nat)}
    {counter : Nat} {v : ℚ} (hlm : 0 < cnt data r (List.range m)) (hN : ∀ s ∈ N, s < m) (hva : ∀ s ∈ va, s < m)
    (hrest : ∀ c ∈ rest, c ≠ [] ∧ ∀ s ∈ c, s < m) (hn : 0 < n) (hnu : n < ulongMax) (hsub : ∀ c, (maskSel rest c).Sublist rest) :
    activeTerm n m data r x N va rest counter v =
      let sel := maskSel rest counter
      some ((coefZero n sel.length + coefLoop n rest.length sel.length) *
        (leafShare m data r x (insert N (insert va sel.toFinset)) - leafShare m data r x (insert N sel.toFinset)) * v +
        if sel.toFinset = ∅ then (leafShare m data r x (insert N ∅) - leafShare m data r x ∅) * v else 0) := by
  unfold activeTerm
  have hs := hsub counter
  generalize maskSel rest counter = sel at *
  have hsel : ∀ c ∈ sel, c ≠ [] ∧ ∀ s ∈ c, s < m := fun c hc => hrest c (hs.subset hc)
  have hflat : ∀ s ∈ sel.flatten, s < m := by
    intro s hs; obtain ⟨c, hc, hsc⟩ := List.mem_flatten.mp hs; exact (hsel c hc).2 s hsc
  have a1 : ∀ z, sat r (sel.flatten ++ N) z = true ↔ AgreesOn r (insert N sel.toFinset) z := by
    intro z; rw [sat_append, Bool.and_eq_true, agreesOn_insert, sat_flatten]
  have a2 : ∀ z, sat r ((sel.flatten ++ N) ++ va) z = true ↔ AgreesOn r (insert N (insert va sel.toFinset)) z := by
    intro z; rw [sat_append, Bool.and_eq_true, a1, Finset.insert_comm, agreesOn_insert (va := va)]
  have e1 := npDiv_share (x := x) hlm (T := sel.flatten ++ N) (by
    intro s hs; rcases List.mem_append.mp hs with h | h; exacts [hflat s h, hN s h]) a1
  have e2 := npDiv_share (x := x) hlm (T := (sel.flatten ++ N) ++ va) (by
    intro s hs; rcases List.mem_append.mp hs with h | h
    · rcases List.mem_append.mp h with h | h; exacts [hflat s h, hN s h]
    · exact hva s h) a2
  have e2' : npDiv ((if sat r (sel.flatten ++ N) x && sat r va x then 1 else 0) * ((cnt data r (List.range m) : ℕ) : ℚ))
      ((data.filter (fun z => sat r (sel.flatten ++ N) z && sat r va z)).length : ℚ)
      = some (leafShare m data r x (insert N (insert va sel.toFinset))) := by
    rw [← e2]
    have hf : sat r (sel.flatten ++ N ++ va) = fun z => sat r (sel.flatten ++ N) z && sat r va z := by
      funext z; exact sat_append
    unfold cnt
    rw [hf]
  have e3 := npDiv_off (x := x) hlm
  simp only [e1, e2', e3]
  by_cases h0 : sel = []
  · subst h0
    have hc0 : coefZero n 0 = 1 := by
      unfold coefZero
      rw [binomialC_eq (by omega)]
      simp
    simp [hc0]
    ring
  · have hf : sel.flatten.length ≠ 0 := by
      obtain ⟨c, l, rfl⟩ := List.exists_cons_of_ne_nil h0
      have := (hsel c (by simp)).1
      intro h
      simp at h
      exact this h.1
    have hts : sel.toFinset ≠ ∅ := by simpa [List.toFinset_eq_empty_iff] using h0
    simp only [bind, Option.bind, pure, if_pos hf, if_neg hts, add_zero]

theorem activeOff_eq {m : Nat} {data : List Row} {r : Rect} {x : Row} {N : List Nat} {v : ℚ}
    (hlm : 0 < cnt data r (List.range m)) (hN : ∀ s ∈ N, s < m) :
    activeOffTerm m data r x N v = some ((leafShare m data r x (insert N ∅) - leafShare m data r x ∅) * v) := by
  have e1 := npDiv_share (x := x) hlm (T := N) (A := insert N ∅) hN (by
    intro z; rw [agreesOn_insert]; simp [agreesOn_empty])
  unfold activeOffTerm
  simp only [e1, npDiv_off (x := x) hlm]
  rfl

theorem maskSel_sublist {α : Type} : ∀ (l : List α) (c : Nat), (maskSel l c).Sublist l
  | [], _ => List.Sublist.refl _
  | a :: l, c => by
    unfold maskSel
    split
    · exact (maskSel_sublist l _).cons_cons a
    · exact (maskSel_sublist l _).cons a

open Classical in
theorem activeLeaf_eq {t : TreeArr} {m : Nat} (ht : WellFormed t m) {ℓ : Nat} (hℓ : ℓ ∈ t.leafIdx) {data : List Row}
    {C : List (List Nat)} (hC : ValidGroups m C) (hm : m < ulongMax) {S N : List Nat} (hA : ValidActive m C S N)
    (x : Row) (v : ℚ) (hlm : 0 < cnt data (t.leafRect ℓ) (List.range m)) {g : List Nat} (hg : g ∈ activeSet m C S)
    {j : Nat} (hj : j ∈ g) :
    ∃ l : List ℚ, cellWrites (activeLeafWrites m data C S N (t.leafRect ℓ) (t.leafCols ℓ) x v) j = l.map some ∧
      l.sum / (activePlayersCy C S).length = v * shapley (activeSet m C S) (fun T => if T = ∅ then
        leafShare m data (t.leafRect ℓ) x ∅ else leafShare m data (t.leafRect ℓ) x (insert N T)) g := by
  obtain ⟨hnd, hlt, hun⟩ := leafCols_spec ht hℓ
  obtain ⟨hpn, hpm⟩ := activePlayers_spec hC hA
  obtain ⟨hln, hlm'⟩ := activeLeaf_spec hC hA hnd hlt
  have hN : ∀ s ∈ N, s < m := fun s hs => (hA.2.1 s).mp (Or.inr hs)
  have hgp := (mem_activeSet.mp hg).1
  have hglt := playerSet_lt hC hgp
  have hcard : (activePlayersCy C S).length = (activeSet m C S).card := by
    rw [← List.toFinset_card_of_nodup hpn]
    congr 1
    ext c; rw [List.mem_toFinset, hpm]
  have hle : (activeSet m C S).card ≤ m :=
    (Finset.card_le_card (Finset.filter_subset _ _)).trans (playerSet_card hC)
  have hpos : 0 < (activeSet m C S).card := Finset.card_pos.mpr ⟨g, hg⟩
  have hone : g.count j = 1 := List.count_eq_one_of_mem hglt.2.1 hj
  rw [shapley_patch _ _ hg, hcard]
  set n := (activeSet m C S).card with hn
  unfold activeLeafWrites
  simp only
  rw [cellWrites_flatMap, flatMap_unique hpn ((hpm g).mpr hg)]
  swap
  · intro a ha hne
    have hca := (mem_activeSet.mp ((hpm a).mp ha)).1
    have h0 : a.count j = 0 := List.count_eq_zero_of_not_mem fun hja =>
      hne (playerSet_disjoint hC hca hgp hja hj)
    split
    · simp [cellWrites_flatMap, cellWrites_map_const, h0]
    · simp [cellWrites_map_const, h0]
  rw [hcard]
  by_cases hgl : g ∈ activeLeafPlayersCy C S N (t.leafCols ℓ)
  · rw [if_pos hgl]
    generalize hL : activeLeafPlayersCy C S N (t.leafCols ℓ) = L at *
    have hLp : ∀ c ∈ L.erase g, c ≠ [] ∧ ∀ s ∈ c, s < m := by
      intro c hc
      have := playerSet_lt hC (mem_activeSet.mp ((hlm' c).mp (List.mem_of_mem_erase hc)).1).1
      exact ⟨this.1, this.2.2⟩
    refine ⟨(List.range (2 ^ (L.erase g).length)).map fun counter =>
      let sel := maskSel (L.erase g) counter
      ((coefZero n sel.length + coefLoop n (L.erase g).length sel.length) *
        (leafShare m data (t.leafRect ℓ) x (insert N (insert g sel.toFinset)) -
          leafShare m data (t.leafRect ℓ) x (insert N sel.toFinset)) * v +
        if sel.toFinset = ∅ then (leafShare m data (t.leafRect ℓ) x (insert N ∅) -
          leafShare m data (t.leafRect ℓ) x ∅) * v else 0), ?_, ?_⟩
    · rw [cellWrites_flatMap, List.map_map]
      simp only [cellWrites_map_const, hone, List.replicate_one]
      rw [← List.map_eq_flatMap]
      apply List.map_congr_left
      intro c _
      rw [activeTerm_eq hlm hN hglt.2.2 hLp hpos (by omega) (maskSel_sublist _)]
      rfl
    · have hms := mask_sum (L.erase g) (hln.erase g)
        (fun sel => ((coefZero n sel.length + coefLoop n (L.erase g).length sel.length) *
        (leafShare m data (t.leafRect ℓ) x (insert N (insert g sel.toFinset)) -
          leafShare m data (t.leafRect ℓ) x (insert N sel.toFinset)) * v +
        if sel.toFinset = ∅ then (leafShare m data (t.leafRect ℓ) x (insert N ∅) -
          leafShare m data (t.leafRect ℓ) x ∅) * v else 0))
        (fun T => ((coefZero n T.card + coefLoop n (L.erase g).length T.card) *
        (leafShare m data (t.leafRect ℓ) x (insert N (insert g T)) -
          leafShare m data (t.leafRect ℓ) x (insert N T)) * v +
        if T = ∅ then (leafShare m data (t.leafRect ℓ) x (insert N ∅) -
          leafShare m data (t.leafRect ℓ) x ∅) * v else 0))
        (by intro sel hs
            rw [List.toFinset_card_of_nodup ((hln.erase g).sublist hs)])
      simp only at hms ⊢
      rw [hms, Finset.sum_add_distrib, Finset.sum_ite_eq', if_pos (by simp), add_div]
      have hsub : L.toFinset ⊆ activeSet m C S := by
        intro c hc; rw [List.mem_toFinset, hlm'] at hc; exact hc.1
      have hcL : L.length ≤ n := by
        have h1 := Finset.card_le_card hsub
        rwa [List.toFinset_card_of_nodup hln] at h1
      have hrl : (L.erase g).length = L.length - 1 := List.length_erase_of_mem hgl
      have hposL : 0 < L.length := List.length_pos_of_mem hgl
      have herase : (L.erase g).toFinset = L.toFinset.erase g := by
        ext c; simp [hln.mem_erase_iff]
      rw [shapley_restrict hsub (List.mem_toFinset.mpr hgl) (by
        intro a ha hna T
        rw [Finset.insert_comm]
        apply leafShare_null ht hℓ
        intro s hs hsl
        exact hna (List.mem_toFinset.mpr ((hlm' a).mpr ⟨ha, s, hsl, hs⟩)))]
      rw [mul_add]
      congr 1
      · unfold shapley
        rw [Finset.sum_div, herase, Finset.mul_sum]
        apply Finset.sum_congr rfl
        intro T hT
        have hTc : T.card ≤ L.length - 1 := by
          have h1 := Finset.card_le_card (Finset.mem_powerset.mp hT)
          rw [Finset.card_erase_of_mem (List.mem_toFinset.mpr hgl), List.toFinset_card_of_nodup hln] at h1
          exact h1
        have hce := coef_eq (m := n) (k := L.length - 1) (s := T.card) (by omega) hTc (by omega)
        rw [List.toFinset_card_of_nodup hln]
        have e : L.length = L.length - 1 + 1 := by omega
        rw [e, ← hce, hrl]
        ring
      · ring
  · rw [if_neg hgl, cellWrites_map_const, hone]
    refine ⟨[(leafShare m data (t.leafRect ℓ) x (insert N ∅) - leafShare m data (t.leafRect ℓ) x ∅) * v], ?_, ?_⟩
    · rw [activeOff_eq hlm hN]; simp
    · have hnull : shapley (activeSet m C S) (fun T => leafShare m data (t.leafRect ℓ) x (insert N T)) g = 0 := by
        apply shapley_null
        intro T
        rw [Finset.insert_comm]
        apply leafShare_null ht hℓ
        intro s hs hsl
        exact hgl ((hlm' g).mpr ⟨hg, s, hsl, hs⟩)
      rw [hnull]
      simp only [List.sum_cons, List.sum_nil]
      ring

theorem activeCy_eq {ts : List TreeArr} {m : Nat} (hts : ∀ t ∈ ts, WellFormed t m) {data : List Row}
    {C : List (List Nat)} (hC : ValidGroups m C) (hm : m < ulongMax) {S N : List Nat} (hA : ValidActive m C S N)
    (x : Row) (k : Nat) (hleaf : ∀ t ∈ ts, ∀ ℓ ∈ t.leafIdx, 0 < cnt data (t.leafRect ℓ) (List.range m))
    {g : List Nat} (hg : g ∈ activeSet m C S) {j : Nat} (hj : j ∈ g) :
    activeCy ts m data C S N x j k = some (shapley (activeSet m C S) (activeGame ts m data N x k) g) := by
  classical
  obtain ⟨hpn, hpm⟩ := activePlayers_spec hC hA
  have hlen : ((activePlayersCy C S).length : ℚ) ≠ 0 := by
    have := List.length_pos_of_mem ((hpm g).mpr hg); positivity
  have hnp : (fun p => npDiv p ((activePlayersCy C S).length : ℚ)) = fun p : ℚ => some (p / ((activePlayersCy C S).length : ℚ)) := by
    funext p; unfold npDiv; rw [if_neg hlen]
  unfold activeCy
  rw [hnp]
  have hb : ∀ (o : Option ℚ) (d : ℚ), o.bind (fun p => some (p / d)) = o.map (fun p => p / d) := by
    intro o d; cases o <;> rfl
  rw [hb]
  have hflat : (ts.flatMap fun t => t.leafIdx.flatMap fun ℓ =>
      activeLeafWrites m data C S N (t.leafRect ℓ) (t.leafCols ℓ) x (t.value ℓ k))
      = (ts.flatMap fun t => t.leafIdx.map fun ℓ => (t, ℓ)).flatMap fun p =>
        activeLeafWrites m data C S N (p.1.leafRect p.2) (p.1.leafCols p.2) x (p.1.value p.2 k) := by
    rw [List.flatMap_assoc]
    simp only [List.flatMap_map]
  rw [hflat, cell_sum _ _ j (fun p => p.1.value p.2 k * shapley (activeSet m C S) (fun T => if T = ∅ then
        leafShare m data (p.1.leafRect p.2) x ∅ else leafShare m data (p.1.leafRect p.2) x (insert N T)) g)]
  · congr 1
    have h1 : activeGame ts m data N x k = fun T => (ts.map fun t => (fun T => (t.leafIdx.map fun ℓ =>
        t.value ℓ k * (if T = ∅ then leafShare m data (t.leafRect ℓ) x ∅ else
          leafShare m data (t.leafRect ℓ) x (insert N T))).sum) T).sum := by
      funext T
      unfold activeGame leafGame
      by_cases hT : T = ∅ <;> simp [hT]
    rw [h1, shapley_sum]
    rw [List.map_flatMap, List.flatMap_def, List.sum_flatten, List.map_map]
    congr 1
    apply List.map_congr_left
    intro t ht
    rw [shapley_sum _ t.leafIdx (fun ℓ T => t.value ℓ k * (if T = ∅ then leafShare m data (t.leafRect ℓ) x ∅ else
          leafShare m data (t.leafRect ℓ) x (insert N T))) g, Function.comp, List.map_map]
    congr 1
    apply List.map_congr_left
    intro ℓ _
    rw [shapley_mul]
    rfl
  · rintro ⟨t, ℓ⟩ hp
    obtain ⟨t', ht, hp'⟩ := List.mem_flatMap.mp hp
    obtain ⟨ℓ', hℓ, he⟩ := List.mem_map.mp hp'
    cases he
    exact activeLeaf_eq (hts t ht) hℓ hC hm hA x (t.value ℓ k) (hleaf t ht ℓ hℓ) hg hj

end Acv
